import Mathlib.Algebra.Order.Ring.Rat
import Mathlib.Algebra.Field.Rat
import Verif.LinMap.Lemmas

/-!
# Properties of covariance matrices and linear maps (C49, C50, C93, C94)
-/

set_option linter.unusedSectionVars false

namespace Verif.LinMap
open Verif Verif.LinMap.Spec

section
variable {K : Type} [Field K]

/-! ## Covariance matrices -/

/-- C49: what is written to an element is read there and at its transpose, and nowhere else, in any dimension. -/
theorem cov_write_read (n : Nat) (c : Cov K) (i j k l : Nat) (v : K) (hi : i < n) (hj : j < n) (hk : k < n) (hl : l < n) :
    sig n (setSig c i j v) k l = (if (k = i ∧ l = j) ∨ (k = j ∧ l = i) then v else sig n c k l) ∧
      off i j < (n * (n + 1)) / 2 :=
  ⟨sig_setSig n c i j k l v hk hl, off_lt n i j hi hj⟩

/-- C49: the matrix is symmetric, and the variances are its diagonal, for reading and for writing. -/
theorem cov_symmetric (n : Nat) (c : Cov K) (i j : Nat) (v : K) :
    sig n c i j = sig n c j i ∧ var n c i = sig n c i i ∧ setVar c i v = setSig c i i v := by
  refine ⟨sig_comm n c i j, ?_, ?_⟩
  · simp only [var, sig, off1_eq, and_self]
  · simp only [setVar, setSig, off1_eq]

/-- C49: two matrices compare equal if and only if all their elements are equal. -/
theorem cov_equal [DecidableEq K] (n : Nat) (a b : Cov K) :
    covEq n a b = true ↔ ∀ i < n, ∀ j < n, sig n a i j = sig n b i j := by
  have key : ∀ k, eqLoop a b k = true ↔ ∀ p < k, a p = b p := by
    intro k
    induction k with
    | zero => simp [eqLoop]
    | succ k ih =>
      rw [eqLoop, Bool.and_eq_true, ih, decide_eq_true_eq]
      constructor
      · rintro ⟨h1, h2⟩ p hp
        by_cases h : p = k
        · rw [h, h2]
        · exact h1 p (by omega)
      · intro h
        exact ⟨fun p hp => h p (by omega), h k (by omega)⟩
  rw [covEq, key]
  constructor
  · intro h i hi j hj
    simp only [sig, hi, hj, and_self, if_true]
    exact h _ (off_lt n i j hi hj)
  · intro h p hp
    obtain ⟨i, j, h1, h2, rfl⟩ := off_surj n p hp
    have := h i (by omega) j h2
    simpa only [sig, show i < n by omega, h2, and_self, if_true] using this

/-- C49: `Zero` makes all elements zero. -/
theorem cov_zero (n : Nat) (c : Cov K) (i j : Nat) : sig n (zeroCov n c) i j = 0 := by
  by_cases h : i < n ∧ j < n
  · have : off i j < (n * (n + 1)) / 2 := off_lt n i j h.1 h.2
    simp only [sig, zeroCov, h, and_self, if_true, this]
  · rw [sig, if_neg h]

/-- A write in a 6×6 matrix. -/
example : sig 6 (setSig (fun _ => (0 : ℚ)) 2 4 7) 4 2 = 7 ∧ sig 6 (setSig (fun _ => (0 : ℚ)) 2 4 7) 4 3 = 0 ∧
    covEq 6 (setSig (fun _ => (0 : ℚ)) 2 4 7) (fun _ => 0) = false := by decide +kernel

/-! ## Maps on vectors -/

/-- C50: a map acts on a vector as its matrix does. -/
theorem apply_vector (m : Map K) (hw : Within 6 m) (x : Nat → K) :
    ∃ y, applyVec m x = .ok y ∧ ∀ i, y i = mulVec 6 (mat m) x i := by
  obtain ⟨y, h1, h2⟩ := applyLoop_eq x m (fun _ => 0) hw
  refine ⟨y, h1, fun i => ?_⟩
  rw [h2 i, row_sum 6 i x m, zero_add]
  rfl

theorem toMatrix_eq : ∀ (m : Map K) (r : Nat → Nat → K), Distinct m →
    ∀ i j, toMatrix m r i j = if ∃ t ∈ m, t.i = i ∧ t.j = j then mat m i j else r i j
  | [], r, _, i, j => by simp [toMatrix]
  | t :: m, r, h, i, j => by
    have hd := List.nodup_cons.1 (show ((t.i, t.j) :: m.map (fun t => (t.i, t.j))).Nodup from h)
    rw [toMatrix, toMatrix_eq m _ hd.2 i j, mat_cons]
    by_cases ht : i = t.i ∧ j = t.j
    · have hno : ¬ ∃ s ∈ m, s.i = i ∧ s.j = j := by
        rintro ⟨s, hs, h1, h2⟩
        exact hd.1 (List.mem_map.2 ⟨s, hs, by rw [h1, h2, ht.1, ht.2]⟩)
      have hmat : mat m i j = 0 := by
        rw [mat, List.filter_eq_nil_iff.2]
        · rfl
        · intro s hs hc
          exact hno ⟨s, hs, by simpa using hc⟩
      rw [if_neg hno, if_pos ht, if_pos ⟨t, by simp, ht.1.symm, ht.2.symm⟩, if_pos ht, hmat, add_zero]
    · rw [if_neg ht, if_neg ht, zero_add]
      by_cases he : ∃ s ∈ m, s.i = i ∧ s.j = j
      · obtain ⟨s, hs, h1⟩ := he
        rw [if_pos ⟨s, hs, h1⟩, if_pos ⟨s, by simp [hs], h1⟩]
      · rw [if_neg he, if_neg]
        rintro ⟨s, hs, h1, h2⟩
        rcases List.mem_cons.1 hs with rfl | hs
        · exact ht ⟨h1.symm, h2.symm⟩
        · exact he ⟨s, hs, h1, h2⟩

theorem mat_of_absent (m : Map K) (i j : Nat) (h : ¬ ∃ t ∈ m, t.i = i ∧ t.j = j) : mat m i j = 0 := by
  rw [mat, List.filter_eq_nil_iff.2]
  · rfl
  · intro s hs hc
    exact h ⟨s, hs, by simpa using hc⟩

/-- C50: the conversion to a matrix gives that matrix, if no term was added twice. -/
theorem to_matrix (m : Map K) (hd : Distinct m) (i j : Nat) : toMatrix m (fun _ _ => 0) i j = mat m i j := by
  rw [toMatrix_eq m _ hd]
  split
  · rfl
  · rename_i h
    exact (mat_of_absent m i j h).symm

theorem findTerm_eq : ∀ (m : Map K), Distinct m → ∀ i j,
    (match findTerm m i j with | some t => t.val | none => 0) = mat m i j
  | [], _, i, j => rfl
  | t :: m, h, i, j => by
    have hd := List.nodup_cons.1 (show ((t.i, t.j) :: m.map (fun t => (t.i, t.j))).Nodup from h)
    rw [mat_cons]
    by_cases ht : t.i = i ∧ t.j = j
    · have hno : ¬ ∃ s ∈ m, s.i = i ∧ s.j = j := by
        rintro ⟨s, hs, h1, h2⟩
        exact hd.1 (List.mem_map.2 ⟨s, hs, by rw [h1, h2, ht.1, ht.2]⟩)
      rw [mat_of_absent m i j hno, if_pos ⟨ht.1.symm, ht.2.symm⟩, add_zero]
      have : findTerm (t :: m) i j = some t := by
        rw [findTerm, List.find?_cons_of_pos (by simpa using ht)]
      rw [this]
    · rw [if_neg (fun h => ht ⟨h.1.symm, h.2.symm⟩), zero_add, ← findTerm_eq m hd.2 i j]
      have : findTerm (t :: m) i j = findTerm m i j := by
        rw [findTerm, List.find?_cons_of_neg (by simpa using ht)]
        rfl
      rw [this]

/-- C50: reading an element gives the element of the matrix, if no term was added twice. -/
theorem get_element (m : Map K) (hd : Distinct m) (i j : Nat) : get m (i + 1) (j + 1) = mat m i j := by
  have h := findTerm_eq m hd i j
  rw [get, Nat.add_sub_cancel, Nat.add_sub_cancel, ← h]
  cases findTerm m i j <;> rfl

/-! ## Building maps -/

theorem assignFirst_keys : ∀ (m : Map K) (i j : Nat) (v : K),
    (assignFirst m i j v).map (fun t => (t.i, t.j)) = m.map (fun t => (t.i, t.j))
  | [], _, _, _ => rfl
  | t :: m, i, j, v => by
    rw [assignFirst]
    split
    · rfl
    · rw [List.map_cons, List.map_cons, assignFirst_keys m i j v]

theorem assignFirst_mat : ∀ (m : Map K) (i j : Nat) (v : K), Distinct m → (∃ t ∈ m, t.i = i ∧ t.j = j) →
    ∀ a b, mat (assignFirst m i j v) a b = if a = i ∧ b = j then v else mat m a b
  | [], i, j, v, _, h, a, b => by simp at h
  | t :: m, i, j, v, h, he, a, b => by
    have hd := List.nodup_cons.1 (show ((t.i, t.j) :: m.map (fun t => (t.i, t.j))).Nodup from h)
    rw [assignFirst]
    by_cases ht : t.i = i ∧ t.j = j
    · rw [if_pos ht, mat_cons, mat_cons]
      dsimp only
      obtain ⟨rfl, rfl⟩ := ht
      by_cases hab : a = t.i ∧ b = t.j
      · have hno : ¬ ∃ s ∈ m, s.i = a ∧ s.j = b := by
          rintro ⟨s, hs, h1, h2⟩
          exact hd.1 (List.mem_map.2 ⟨s, hs, by rw [h1, h2, hab.1, hab.2]⟩)
        rw [if_pos hab, if_pos hab, mat_of_absent m a b hno, add_zero]
      · rw [if_neg hab, if_neg hab, if_neg hab]
    · rw [if_neg ht, mat_cons, mat_cons]
      have he' : ∃ s ∈ m, s.i = i ∧ s.j = j := by
        obtain ⟨s, hs, h1⟩ := he
        rcases List.mem_cons.1 hs with rfl | hs
        · exact absurd h1 ht
        · exact ⟨s, hs, h1⟩
      rw [assignFirst_mat m i j v hd.2 he' a b]
      by_cases hab : a = i ∧ b = j
      · rw [if_pos hab, if_pos hab, if_neg (fun h => ht ⟨by omega, by omega⟩), zero_add]
      · rw [if_neg hab, if_neg hab]

theorem assignFirst_within : ∀ (m : Map K) (i j : Nat) (v : K), Within 6 m → Within 6 (assignFirst m i j v) := by
  intro m i j v h t ht
  have : (t.i, t.j) ∈ m.map (fun t => (t.i, t.j)) := by
    rw [← assignFirst_keys m i j v]
    exact List.mem_map.2 ⟨t, ht, rfl⟩
  obtain ⟨s, hs, he⟩ := List.mem_map.1 this
  simp only [Prod.mk.injEq] at he
  have := h s hs
  rw [← he.1, ← he.2]
  exact this

theorem mat_append (m : Map K) (t : Rij K) (a b : Nat) :
    mat (m ++ [t]) a b = mat m a b + if a = t.i ∧ b = t.j then t.val else 0 := by
  have : mat (m ++ [t]) a b = mat m a b + mat [t] a b := by
    simp only [mat, List.filter_append, List.map_append, List.sum_append]
  rw [this, mat_cons, mat_nil, add_zero]

/-- C50: assigning to an element of a map without double terms sets this element of the matrix and no other,
leaves no double terms and never overflows the array. -/
theorem assign_element (m : Map K) (hd : Distinct m) (hw : Within 6 m) (i j : Nat) (hi : i < 6) (hj : j < 6) (v : K) :
    ∃ m', assign m (i + 1) (j + 1) v = .ok m' ∧ Distinct m' ∧ Within 6 m' ∧
      ∀ a b, mat m' a b = if a = i ∧ b = j then v else mat m a b := by
  have hnz : ¬ (i + 1 = 0 ∨ j + 1 = 0) := by omega
  simp only [assign, if_neg hnz, Nat.add_sub_cancel]
  by_cases he : ∃ t ∈ m, t.i = i ∧ t.j = j
  · obtain ⟨t, ht⟩ : ∃ t, findTerm m i j = some t := by
      rw [← Option.isSome_iff_exists, findTerm, List.find?_isSome]
      obtain ⟨t, ht, h⟩ := he
      exact ⟨t, ht, by simpa using h⟩
    rw [ht]
    refine ⟨_, rfl, ?_, assignFirst_within m i j v hw, assignFirst_mat m i j v hd he⟩
    rw [Distinct, assignFirst_keys]
    exact hd
  · have hn : findTerm m i j = none := by
      rw [findTerm, List.find?_eq_none]
      intro t ht hc
      exact he ⟨t, ht, by simpa using hc⟩
    rw [hn]
    have hd' : Distinct (m ++ [⟨i, j, v⟩]) := by
      rw [Distinct, List.map_append]
      refine List.nodup_append.2 ⟨hd, by simp, ?_⟩
      intro a ha b hb
      simp only [List.map_cons, List.map_nil, List.mem_singleton] at hb
      subst hb
      obtain ⟨t, ht, rfl⟩ := List.mem_map.1 ha
      intro hc
      simp only [Prod.mk.injEq] at hc
      exact he ⟨t, ht, hc⟩
    have hw' : Within 6 (m ++ [⟨i, j, v⟩]) := by
      intro t ht
      rcases List.mem_append.1 ht with ht | ht
      · exact hw t ht
      · obtain rfl := List.mem_singleton.1 ht
        exact ⟨hi, hj⟩
    have hlen : m.length < 36 := by
      have hsub : (m ++ [(⟨i, j, v⟩ : Rij K)]).map (fun t => (t.i, t.j)) ⊆
          (List.range 6).flatMap (fun a => (List.range 6).map (fun b => (a, b))) := by
        intro p hp
        obtain ⟨t, ht, rfl⟩ := List.mem_map.1 hp
        have := hw' t ht
        exact List.mem_flatMap.2 ⟨t.i, List.mem_range.2 this.1, List.mem_map.2 ⟨t.j, List.mem_range.2 this.2, rfl⟩⟩
      have := (List.subperm_of_subset hd' hsub).length_le
      have h36 : ((List.range 6).flatMap (fun a => (List.range 6).map (fun b => (a, b)))).length = 36 := by decide
      rw [h36, List.length_map, List.length_append, List.length_cons, List.length_nil] at this
      omega
    refine ⟨_, by rw [pushBack, if_pos hlen], hd', hw', ?_⟩
    intro a b
    rw [mat_append]
    dsimp only
    by_cases hab : a = i ∧ b = j
    · rw [if_pos hab, if_pos hab, hab.1, hab.2, mat_of_absent m i j he, zero_add]
    · rw [if_neg hab, if_neg hab, add_zero]

theorem rowTerms_eq [DecidableEq K] (r : Nat → Nat → K) (i : Nat) : ∀ nc, ((rowTerms r i nc).map (fun t => (t.i, t.j))).Nodup ∧
    (∀ t ∈ rowTerms r i nc, t.i = i ∧ t.j < nc) ∧
    ∀ a b, mat (rowTerms r i nc) a b = if a = i ∧ b < nc then r a b else 0
  | 0 => ⟨by simp [rowTerms], by simp [rowTerms], by simp [rowTerms, mat_nil]⟩
  | nc + 1 => by
    obtain ⟨h1, h2, h3⟩ := rowTerms_eq r i nc
    have hs : rowTerms r i (nc + 1) = rowTerms r i nc ++ (if r i nc ≠ 0 then [⟨i, nc, r i nc⟩] else []) := by
      rw [rowTerms, List.range_succ, List.filterMap_append]
      congr 1
      by_cases h : r i nc = 0 <;> simp [h]
    rw [hs]
    by_cases h : r i nc = 0
    · simp only [h, ne_eq, not_true_eq_false, if_false, List.append_nil]
      refine ⟨h1, fun t ht => ⟨(h2 t ht).1, by have := (h2 t ht).2; omega⟩, ?_⟩
      intro a b
      rw [h3 a b]
      by_cases hab : a = i ∧ b = nc
      · rw [if_neg (by omega), if_pos (by omega), hab.1, hab.2, h]
      · by_cases hlt : a = i ∧ b < nc
        · rw [if_pos hlt, if_pos (by omega)]
        · rw [if_neg hlt, if_neg (by omega)]
    · simp only [h, ne_eq, not_false_eq_true, if_true]
      refine ⟨?_, ?_, ?_⟩
      · rw [List.map_append]
        refine List.nodup_append.2 ⟨h1, by simp, ?_⟩
        intro a ha b hb
        simp only [List.map_cons, List.map_nil, List.mem_singleton] at hb
        subst hb
        obtain ⟨t, ht, rfl⟩ := List.mem_map.1 ha
        have := (h2 t ht).2
        intro hc
        simp only [Prod.mk.injEq] at hc
        omega
      · intro t ht
        rcases List.mem_append.1 ht with ht | ht
        · exact ⟨(h2 t ht).1, by have := (h2 t ht).2; omega⟩
        · obtain rfl := List.mem_singleton.1 ht
          exact ⟨rfl, by simp⟩
      · intro a b
        rw [mat_append, h3 a b]
        dsimp only
        by_cases hab : a = i ∧ b = nc
        · rw [if_neg (by omega), if_pos hab, if_pos (by omega), zero_add, hab.1, hab.2]
        · rw [if_neg hab, add_zero]
          by_cases hlt : a = i ∧ b < nc
          · rw [if_pos hlt, if_pos (by omega)]
          · rw [if_neg hlt, if_neg (by omega)]

/-- C50: a map made from a matrix has its elements and no double terms. -/
theorem of_matrix [DecidableEq K] (r : Nat → Nat → K) (nc : Nat) : ∀ nr, Distinct (ofMatrix nr nc r) ∧
    (∀ t ∈ ofMatrix nr nc r, t.i < nr ∧ t.j < nc) ∧
    ∀ a b, mat (ofMatrix nr nc r) a b = if a < nr ∧ b < nc then r a b else 0
  | 0 => ⟨by simp [ofMatrix, Distinct], by simp [ofMatrix], by simp [ofMatrix, mat_nil]⟩
  | nr + 1 => by
    obtain ⟨h1, h2, h3⟩ := of_matrix r nc nr
    obtain ⟨g1, g2, g3⟩ := rowTerms_eq r nr nc
    have hs : ofMatrix (nr + 1) nc r = ofMatrix nr nc r ++ rowTerms r nr nc := by
      rw [ofMatrix, List.range_succ, List.flatMap_append]
      simp [ofMatrix]
    rw [hs]
    refine ⟨?_, ?_, ?_⟩
    · rw [Distinct, List.map_append]
      refine List.nodup_append.2 ⟨h1, g1, ?_⟩
      intro a ha b hb
      obtain ⟨t, ht, rfl⟩ := List.mem_map.1 ha
      obtain ⟨s, hs, rfl⟩ := List.mem_map.1 hb
      have := (h2 t ht).1
      have := (g2 s hs).1
      intro hc
      simp only [Prod.mk.injEq] at hc
      omega
    · intro t ht
      rcases List.mem_append.1 ht with ht | ht
      · exact ⟨by have := (h2 t ht).1; omega, (h2 t ht).2⟩
      · exact ⟨by have := (g2 t ht).1; omega, (g2 t ht).2⟩
    · intro a b
      have : mat (ofMatrix nr nc r ++ rowTerms r nr nc) a b = mat (ofMatrix nr nc r) a b + mat (rowTerms r nr nc) a b := by
        simp only [mat, List.filter_append, List.map_append, List.sum_append]
      rw [this, h3, g3]
      by_cases hb : b < nc
      · by_cases ha : a = nr
        · rw [if_neg (by omega), if_pos ⟨ha, hb⟩, if_pos ⟨by omega, hb⟩, zero_add]
        · by_cases ha2 : a < nr
          · rw [if_pos ⟨ha2, hb⟩, if_neg (by omega), if_pos ⟨by omega, hb⟩, add_zero]
          · rw [if_neg (by omega), if_neg (by omega), if_neg (by omega), add_zero]
      · rw [if_neg (by omega), if_neg (by omega), if_neg (by omega), add_zero]

/-! ## Maps on covariance matrices -/

/-- C50: a map takes a covariance matrix `S` to `R S Rᵀ`; in fewer dimensions, with the upper left block. -/
theorem apply_covariance [NeZero (2 : K)] (n : Nat) (m : Map K) (s : Cov K) (i j : Nat) (hi : i < n) (hj : j < n) :
    sig n (applyCov n m s) i j = conjugate n (mat m) (sig n s) i j := by
  rw [applyCov, covOuter_eq n s m i j hi hj, cov_zero, zero_add, share_sum, pair_sum]

/-- A coupled map of four terms applied to a 2×2 covariance matrix. -/
example : let m : Map ℚ := [⟨0, 0, 1⟩, ⟨0, 1, 2⟩, ⟨1, 0, 3⟩, ⟨1, 1, 5⟩]
    let s : Cov ℚ := fun k => if k = 0 then 4 else if k = 1 then 1 else 9
    Distinct m ∧ Within 6 m ∧ sig 2 (applyCov 2 m s) 0 1 = 1*3*4 + (1*5 + 2*3)*1 + 2*5*9 ∧
      conjugate 2 (mat m) (sig 2 s) 0 1 = 113 := by
  refine ⟨by unfold Distinct; decide, ?_, by decide +kernel, by decide +kernel⟩
  intro t ht
  simp only [List.mem_cons, List.not_mem_nil, or_false] at ht
  rcases ht with rfl | rfl | rfl | rfl <;> decide

/-! ## Second order -/

theorem mat3_cons (t : Tijk K) (m : List (Tijk K)) (i j k : Nat) :
    mat3 (t :: m) i j k = (if i = t.i ∧ j = t.j ∧ k = t.k then t.val else 0) + mat3 m i j k := by
  by_cases h : t.i = i ∧ t.j = j ∧ t.k = k
  · have : i = t.i ∧ j = t.j ∧ k = t.k := ⟨h.1.symm, h.2.1.symm, h.2.2.symm⟩
    simp [mat3, h]
  · have : ¬ (i = t.i ∧ j = t.j ∧ k = t.k) := fun h' => h ⟨h'.1.symm, h'.2.1.symm, h'.2.2.symm⟩
    rw [if_neg this, zero_add, mat3, List.filter_cons_of_neg (by simpa using h)]
    rfl

theorem applyT_eq (x : Nat → K) : ∀ (m : List (Tijk K)) (y : Nat → K), (∀ t ∈ m, t.i < 6 ∧ t.j < 6 ∧ t.k < 6) →
    ∃ y', applyT x m y = .ok y' ∧
      ∀ i, y' i = y i + sumTo 6 (fun j => sumTo 6 (fun k => mat3 m i j k * x j * x k))
  | [], y, _ => by
    refine ⟨y, rfl, fun i => ?_⟩
    have : ∀ j k, mat3 ([] : List (Tijk K)) i j k = 0 := fun _ _ => rfl
    simp [this, sumTo_zero]
  | t :: m, y, h => by
    have ht := h t (by simp)
    obtain ⟨y', h1, h2⟩ := applyT_eq x m (upd y t.i (y t.i + t.val * x t.j * x t.k)) (fun s hs => h s (by simp [hs]))
    refine ⟨y', by rw [applyT, if_pos ht]; exact h1, ?_⟩
    intro i
    have hsplit : sumTo 6 (fun j => sumTo 6 (fun k => mat3 (t :: m) i j k * x j * x k)) =
        (if i = t.i then t.val * x t.j * x t.k else 0) + sumTo 6 (fun j => sumTo 6 (fun k => mat3 m i j k * x j * x k)) := by
      have : ∀ j, sumTo 6 (fun k => mat3 (t :: m) i j k * x j * x k) =
          (if j = t.j then (if i = t.i then t.val * x j * x t.k else 0) else 0) +
            sumTo 6 (fun k => mat3 m i j k * x j * x k) := by
        intro j
        have h3 : (fun k => mat3 (t :: m) i j k * x j * x k) = fun k =>
            (if k = t.k then (if j = t.j then (if i = t.i then t.val * x j * x k else 0) else 0) else 0) +
              mat3 m i j k * x j * x k := by
          funext k
          rw [mat3_cons]
          by_cases hi : i = t.i <;> by_cases hj : j = t.j <;> by_cases hk : k = t.k <;> simp [hi, hj, hk] <;> ring
        rw [h3, sumTo_add, sumTo_single 6 t.k ht.2.2 (fun k => if j = t.j then (if i = t.i then t.val * x j * x k else 0) else 0)]
      simp only [this]
      rw [sumTo_add, sumTo_single 6 t.j ht.2.1 (fun j => if i = t.i then t.val * x j * x t.k else 0)]
    rw [h2 i, hsplit, upd]
    by_cases hi : i = t.i
    · subst hi
      simp
      ring
    · simp [hi]

/-- C50: a second order map acts on a vector as its matrices do, and keeps the identity of the particle. -/
theorem apply_second_order (m : Map K) (hw : Within 6 m) (ts : List (Tijk K))
    (ht : ∀ t ∈ ts, t.i < 6 ∧ t.j < 6 ∧ t.k < 6) (x : Nat → K) (pid : Int) :
    ∃ y, applyRT m ts (x, pid) = .ok (y, pid) ∧
      ∀ i, y i = mulVec 6 (mat m) x i + sumTo 6 (fun j => sumTo 6 (fun k => mat3 ts i j k * x j * x k)) := by
  obtain ⟨y1, h1, h2⟩ := apply_vector m hw x
  obtain ⟨y2, h3, h4⟩ := applyT_eq x ts y1 ht
  refine ⟨y2, ?_, fun i => by rw [h4 i, h2 i]⟩
  rw [applyVec] at h1
  simp only [applyRT, h1, h3, Outcome.bind]

/-! ## Maps for slices -/

/-- C93: the drift of 6D moments is `R S Rᵀ` with the matrix of the drift. -/
theorem drift_moments6 (z : K) (s : Cov K) (i j : Nat) (hi : i < 6) (hj : j < 6) :
    sig 6 (driftCov6 z s) i j = conjugate 6 (driftMat z) (sig 6 s) i j := by
  interval_cases i <;> interval_cases j <;>
  · simp [driftCov6, driftCov4, addSig, sig, setSig, upd, off, conjugate, sumTo, driftMat, List.range_succ]
    try ring

/-- C93: the drift of 4D moments. -/
theorem drift_moments4 (z : K) (s : Cov K) (i j : Nat) (hi : i < 4) (hj : j < 4) :
    sig 4 (driftCov4 4 z s) i j = conjugate 4 (driftMat z) (sig 4 s) i j := by
  interval_cases i <;> interval_cases j <;>
  · simp [driftCov4, addSig, sig, setSig, upd, off, conjugate, sumTo, driftMat, List.range_succ]
    try ring

/-- C93: the maps of the two planes and of the coupling terms together are `R S Rᵀ` with the two planes as
blocks. -/
theorem planes_moments (rx ry : R2 K) (s : Cov K) (i j : Nat) (hi : i < 4) (hj : j < 4) :
    sig 4 (applyPlanes rx ry s) i j = conjugate 4 (blocks rx ry) (sig 4 s) i j := by
  interval_cases i <;> interval_cases j <;>
  · simp [applyPlanes, applyR2Coupled, applyR2Cov, sig, setSig, upd, off, conjugate, sumTo, blocks, List.range_succ]
    try ring

/-- C93: the maps of the two planes on the first moments. -/
theorem planes_vector (rx ry : R2 K) (x : Nat → K) (i : Nat) :
    applyR2Vec ry (applyR2Vec rx x 0) 1 i = if i < 4 then mulVec 4 (blocks rx ry) x i else x i := by
  by_cases h : i < 4
  · rw [if_pos h]
    interval_cases i <;>
    · simp [applyR2Vec, upd, mulVec, sumTo, blocks, List.range_succ]
  · rw [if_neg h]
    simp only [applyR2Vec, upd]
    repeat rw [if_neg (by omega)]

/-- C93: the drift of a vector is the product with the matrix of the drift. -/
theorem drift_vector (z : K) (x : Nat → K) (i : Nat) (hi : i < 6) : driftVec z x i = mulVec 6 (driftMat z) x i := by
  interval_cases i <;>
  · simp [driftVec, upd, mulVec, sumTo, driftMat, List.range_succ]

/-- C93: drifts with path length add up over their lengths. -/
theorem drift_path_add (z1 z2 : K) (x : Nat → K) : driftPath z2 (driftPath z1 x) = driftPath (z1 + z2) x := by
  funext i
  simp only [driftPath, upd]
  by_cases h0 : i = 0
  · subst h0; simp; ring
  · by_cases h2 : i = 2
    · subst h2; simp; ring
    · by_cases h4 : i = 4
      · subst h4; simp; ring
      · simp [h0, h2, h4]

/-- C93: a map applied for another reference momentum sees the particle with the same momentum, and the
deviation from the old reference is kept. -/
theorem apply_dp (p0 p1 : K) (hp : p1 ≠ 0) (f : (Nat → K) → (Nat → K)) (x : Nat → K) :
    ∃ x', applyDp (p0 / p1) f x 5 = x 5 ∧ (∀ i ≠ 5, applyDp (p0 / p1) f x i = f x' i) ∧
      p1 * (1 + x' 5) = p0 * (1 + x 5) ∧ ∀ i ≠ 5, x' i = x i := by
  refine ⟨upd x 5 (p0 / p1 * (1 + x 5) - 1), by simp [applyDp, upd], ?_, ?_, ?_⟩
  · intro i hi
    simp [applyDp, upd, hi]
  · simp only [upd, if_true]
    field_simp
    ring
  · intro i hi
    simp [upd, hi]

/-! ## Copies -/

/-- C94 is violated by every map: the copy constructor leaves the end of the copy in the array of the original,
so that any loop over the copy leaves its array. -/
theorem copy_violated (o : Obj K) (addr : Nat) (h : o.loop = .ok o.terms) (ha : addr ≠ o.addr) :
    (o.copy addr).loop = .ub := by
  have hl : o.lastIn = o.addr := by
    rw [Obj.loop] at h
    by_contra hc
    rw [if_neg hc] at h
    cases h
  rw [Obj.loop, Obj.copy]
  dsimp only
  rw [if_neg]
  rw [hl]
  exact Ne.symm ha

/-- The hypotheses are met by every new map. -/
example : (Obj.new 1 : Obj ℚ).loop = .ok (Obj.new 1 : Obj ℚ).terms := rfl

end

/-- C50 is violated for terms added twice with `AddTerm`: the map applies their sum, the element read is the
first, and the matrix has the last. -/
theorem double_terms_violated :
    ∃ m : Map ℚ, ((addTerm [] 1 1 2).bind (fun m => addTerm m 1 1 3)) = .ok m ∧
      (∃ y, applyVec m (fun _ => 1) = .ok y ∧ y 0 = 5) ∧ get m 1 1 = 2 ∧ toMatrix m (fun _ _ => 0) 0 0 = 3 :=
  ⟨[⟨0, 0, 2⟩, ⟨0, 0, 3⟩], by decide +kernel, ⟨_, rfl, by decide +kernel⟩, by decide +kernel, by decide +kernel⟩

/-- The identity of three degrees of freedom. -/
example : ∃ m : Map ℚ, makeIdentity [] 3 = .ok m ∧ Distinct m ∧ m.length = 6 := by
  refine ⟨[⟨0, 0, 1⟩, ⟨1, 1, 1⟩, ⟨2, 2, 1⟩, ⟨3, 3, 1⟩, ⟨4, 4, 1⟩, ⟨5, 5, 1⟩], by decide +kernel, by unfold Distinct; decide, rfl⟩

end Verif.LinMap
