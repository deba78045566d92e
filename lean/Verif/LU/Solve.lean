import Verif.LU.Lemmas
import Mathlib.LinearAlgebra.Matrix.Block
import Mathlib.LinearAlgebra.Matrix.Determinant.Basic

/-!
# All columns, the solution and the determinant
-/

set_option linter.unusedSectionVars false

namespace Verif.LU
open Finset

variable {K : Type} [Field K] [LinearOrder K] [IsStrictOrderedRing K]

/-- All exchanges, from the place `j`. -/
def perm {α : Type} : Nat → List Nat → (Nat → α) → Nat → α
  | _, [], f => f
  | j, p :: l, f => perm (j + 1) l (swapAt j p f)

/-- Every pivot is at or below its place. -/
def Valid (n : Nat) : Nat → List Nat → Prop
  | _, [] => True
  | j, p :: l => j ≤ p ∧ p < n ∧ Valid n (j + 1) l

/-- The sign of all exchanges. -/
def signs : Nat → List Nat → K
  | _, [] => 1
  | j, p :: l => (if j ≠ p then -1 else 1) * signs (j + 1) l

theorem solves_swap (n i p : Nat) (hi : i < n) (hp : p < n) (a : Nat → Nat → K) (x b : Nat → K) :
    Spec.Solves n (swapAt i p a) x (swapAt i p b) ↔ Spec.Solves n a x b := by
  constructor
  · intro h r hr
    have := h (src i p r) (src_lt n i p r hi hp hr)
    rw [swapAt_src, swapAt_src, src_src] at this
    exact this
  · intro h r hr
    rw [swapAt_src, swapAt_src]
    exact h _ (src_lt n i p r hi hp hr)

theorem solves_perm (n : Nat) (x : Nat → K) : ∀ (l : List Nat) (j : Nat) (a : Nat → Nat → K) (b : Nat → K),
    j + l.length ≤ n → Valid n j l → (Spec.Solves n (perm j l a) x (perm j l b) ↔ Spec.Solves n a x b)
  | [], _, _, _, _, _ => Iff.rfl
  | p :: l, j, a, b, hj, hv => by
    rw [List.length_cons] at hj
    rw [perm, perm, solves_perm n x l (j + 1) _ _ (by omega) hv.2.2, solves_swap n j p (by omega) hv.2.1]

theorem swapAt_const (i p : Nat) : swapAt i p (fun _ => (0 : K)) = fun _ => 0 := by
  funext r
  simp only [swapAt, ite_self]

theorem regular_swap (n i p : Nat) (hi : i < n) (hp : p < n) (a : Nat → Nat → K) (h : Spec.Regular n a) :
    Spec.Regular n (swapAt i p a) := by
  intro x hx
  apply h x
  rw [← solves_swap n i p hi hp, swapAt_const]
  exact hx

/-- All columns of a regular matrix. -/
theorem columns_spec (n : Nat) (eps : K) : ∀ (b j : Nat) (a : Nat → Nat → K) (s : Fac K), j + b = n → Inv n a s.m j →
    (∀ i, 0 ≤ s.scale i) → (∀ i, i < n → 0 < s.scale i) → n ≤ s.pivot.length → Spec.Regular n a →
    ∃ ps s', columns n eps b j s = .ok s' ∧ ps.length = b ∧ Valid n j ps ∧
      s'.pivot = s.pivot.take j ++ ps ++ s.pivot.drop n ∧ s'.sign = s.sign * signs j ps ∧ Inv n (perm j ps a) s'.m n
  | 0, j, a, s, hj, hi, _, _, _, _ => by
    have hjn : j = n := by omega
    subst hjn
    exact ⟨[], s, rfl, rfl, trivial, by simp, by simp [signs], hi⟩
  | b + 1, j, a, s, hj, hi, hs0, hs, hp, hr => by
    obtain ⟨p, s', h1, h2, h3, h4, h5, h6, h7, h8⟩ := column_spec n j (by omega) eps a s hi hs0 hs (by omega)
    have hinv : Inv n (swapAt j p a) s'.m (j + 1) := by
      rcases h8 with h | ⟨x, hx1, hx2⟩
      · exact h
      · exact absurd (hr x hx1 j (by omega)) hx2
    obtain ⟨ps, s2, g1, g2, g3, g4, g5, g6⟩ := columns_spec n eps b (j + 1) (swapAt j p a) s' (by omega) hinv h6 h7
      (by rw [h4, List.length_set]; exact hp) (regular_swap n j p (by omega) h3 a hr)
    refine ⟨p :: ps, s2, ?_, by rw [List.length_cons, g2], ⟨h2, h3, g3⟩, ?_, ?_, g6⟩
    · rw [columns, h1]
      exact g1
    · rw [g4, h4, List.take_succ_eq_append_getElem (by rw [List.length_set]; omega), List.drop_set_of_lt (by omega),
        List.take_set_of_le (by omega), List.getElem_set_self]
      simp
    · rw [g5, h5, signs]
      split <;> ring

theorem rowBig_eq (n : Nat) (m : Nat → Nat → K) (i : Nat) : ∀ b, 
    0 ≤ (List.range b).foldl (fun big j => max |m i j| big) 0 ∧
    ∀ c, c < b → |m i c| ≤ (List.range b).foldl (fun big j => max |m i j| big) 0
  | 0 => ⟨by simp, fun c h => absurd h (by omega)⟩
  | b + 1 => by
    obtain ⟨h1, h2⟩ := rowBig_eq n m i b
    rw [List.range_succ, List.foldl_append]
    simp only [List.foldl_cons, List.foldl_nil]
    refine ⟨h1.trans (le_max_right _ _), fun c hc => ?_⟩
    by_cases h : c = b
    · rw [h]; exact le_max_left _ _
    · exact (h2 c (by omega)).trans (le_max_right _ _)

theorem rowBig_nonneg (n : Nat) (m : Nat → Nat → K) (i : Nat) : 0 ≤ rowBig n m i := (rowBig_eq n m i n).1

theorem rowBig_zero (n : Nat) (m : Nat → Nat → K) (i : Nat) (h : rowBig n m i = 0) (c : Nat) (hc : c < n) : m i c = 0 := by
  have := (rowBig_eq n m i n).2 c hc
  rw [rowBig] at h
  rw [h] at this
  exact abs_eq_zero.1 (le_antisymm this (abs_nonneg _))

theorem rowBig_zero' (n : Nat) (m : Nat → Nat → K) (i : Nat) (h : ∀ c, c < n → m i c = 0) : rowBig n m i = 0 := by
  have : ∀ b, b ≤ n → (List.range b).foldl (fun big j => max |m i j| big) 0 = 0 := by
    intro b
    induction b with
    | zero => intro _; rfl
    | succ b ih =>
      intro hb
      rw [List.range_succ, List.foldl_append, ih (by omega)]
      simp [h b (by omega)]
  exact this n le_rfl

/-- The determinant after exchanges. -/
theorem det_swap (n i p : Nat) (hi : i < n) (hp : p < n) (a : Nat → Nat → K) :
    (Spec.square n (swapAt i p a)).det = (if i ≠ p then -1 else 1) * (Spec.square n a).det := by
  have h : Spec.square n (swapAt i p a) = (Spec.square n a).submatrix (Equiv.swap ⟨i, hi⟩ ⟨p, hp⟩) id := by
    ext r c
    simp only [Spec.square, Matrix.submatrix_apply, Matrix.of_apply, id]
    rw [swapAt_src]
    congr 1
    rw [Equiv.swap_apply_def]
    unfold src
    by_cases h1 : r = ⟨i, hi⟩
    · subst h1
      by_cases h2 : i = p <;> simp [h2]
    · by_cases h2 : r = ⟨p, hp⟩
      · subst h2
        simp [h1]
      · have h3 : (r : Nat) ≠ i := fun h => h1 (Fin.ext h)
        have h4 : (r : Nat) ≠ p := fun h => h2 (Fin.ext h)
        rw [if_neg h1, if_neg h2, if_neg h4, if_neg h3]
  rw [h, Matrix.det_permute]
  by_cases hip : i = p
  · subst hip
    simp
  · rw [Equiv.Perm.sign_swap (by simpa [Fin.ext_iff] using hip), if_pos hip]
    simp

theorem det_perm (n : Nat) : ∀ (l : List Nat) (j : Nat) (a : Nat → Nat → K), j + l.length ≤ n → Valid n j l →
    (Spec.square n (perm j l a)).det = signs j l * (Spec.square n a).det
  | [], _, _, _, _ => by rw [perm, signs, one_mul]
  | p :: l, j, a, hj, hv => by
    rw [List.length_cons] at hj
    rw [perm, det_perm n l (j + 1) _ (by omega) hv.2.2, det_swap n j p (by omega) hv.2.1, signs]
    ring

theorem signs_mul (l : List Nat) : ∀ j, signs j l * signs j l = (1 : K) := by
  induction l with
  | nil => intro j; simp [signs]
  | cons p l ih =>
    intro j
    rw [signs]
    have := ih (j + 1)
    split
    · linear_combination this
    · linear_combination this

/-- The product of the triangles. -/
theorem square_mul (n : Nat) (a m : Nat → Nat → K) (h : Inv n a m n) :
    Spec.square n a = Spec.square n (lo m) * Spec.square n (up m) := by
  ext i c
  rw [Matrix.mul_apply]
  simp only [Spec.square, Matrix.of_apply]
  rw [h.ready i i.2 c c.2, Finset.sum_range]

theorem det_lo (n : Nat) (m : Nat → Nat → K) : (Spec.square n (lo m)).det = 1 := by
  rw [Matrix.det_of_isLowerTriangular]
  · apply Finset.prod_eq_one
    intro i _
    simp [Spec.square, lo]
  · intro i j hij
    have hij' : (i : Nat) < j := hij
    simp only [Spec.square, Matrix.of_apply, lo]
    rw [if_neg (by omega), if_neg (by omega)]

theorem det_up (n : Nat) (m : Nat → Nat → K) : (Spec.square n (up m)).det = ∏ i ∈ range n, m i i := by
  rw [Matrix.det_of_isUpperTriangular]
  · rw [Finset.prod_range]
    apply Finset.prod_congr rfl
    intro i _
    simp [Spec.square, up]
  · intro i j hij
    have hij' : (j : Nat) < i := hij
    simp only [Spec.square, Matrix.of_apply, up]
    rw [if_neg (by omega)]

theorem det_fold (n : Nat) (s : Fac K) : det n s = s.sign * ∏ i ∈ range n, s.m i i := by
  rw [det]
  induction n with
  | zero => simp
  | succ n ih =>
    rw [List.range_succ, List.foldl_append, ih, prod_range_succ]
    simp only [List.foldl_cons, List.foldl_nil]
    ring

/-! ## Forward substitution -/

/-- What is known after the rows before `i`. -/
structure FInv (m : Nat → Nat → K) (i : Nat) (s : (Nat → K) × Option Nat) (w : Nat → K) : Prop where
  ready : ∀ r, r < i → s.1 r + ∑ k ∈ range r, m r k * s.1 k = w r
  todo : ∀ r, i ≤ r → s.1 r = w r
  none : s.2 = none → ∀ r, r < i → s.1 r = 0
  some : ∀ f, s.2 = some f → f ≤ i ∧ ∀ r, r < f → s.1 r = 0

theorem fstep_spec (m : Nat → Nat → K) (i p : Nat) (hp : i ≤ p) (s : (Nat → K) × Option Nat) (w : Nat → K)
    (h : FInv m i s w) : FInv m (i + 1) (fstep m s i p) (swapAt i p w) := by
  have hw : ∀ r, r < i → swapAt i p w r = w r := fun r hr => by rw [swapAt_src, src_lt_self i p r hp hr]
  have hwi : swapAt i p w i = w p := by
    rw [swapAt]
    split
    · rename_i hh; rw [← hh]
    · simp
  have key : ∀ x : K, x = w p - ∑ k ∈ range i, m i k * s.1 k →
      (∀ r, r < i + 1 → setv (setv s.1 p (s.1 i)) i x r + ∑ k ∈ range r, m r k * setv (setv s.1 p (s.1 i)) i x k =
        swapAt i p w r) ∧ (∀ r, i + 1 ≤ r → setv (setv s.1 p (s.1 i)) i x r = swapAt i p w r) := by
    intro x hx
    have hlow : ∀ r, r < i → setv (setv s.1 p (s.1 i)) i x r = s.1 r := by
      intro r hr
      rw [setv, if_neg (by omega), setv, if_neg (by omega)]
    have hsum : ∀ r, r ≤ i → ∑ k ∈ range r, m r k * setv (setv s.1 p (s.1 i)) i x k = ∑ k ∈ range r, m r k * s.1 k := by
      intro r hr
      apply sum_congr rfl
      intro k hk
      rw [mem_range] at hk
      rw [hlow k (by omega)]
    constructor
    · intro r hr
      rw [hsum r (by omega)]
      by_cases hri : r = i
      · subst hri
        rw [setv, if_pos rfl, hx, hwi]
        ring
      · rw [hlow r (by omega), hw r (by omega)]
        exact h.ready r (by omega)
    · intro r hr
      rw [setv, if_neg (by omega), setv, swapAt]
      by_cases hrp : r = p
      · rw [if_pos hrp, if_pos hrp, h.todo i le_rfl]
      · rw [if_neg hrp, if_neg hrp, if_neg (by omega), h.todo r (by omega)]
  obtain ⟨v, first⟩ := s
  cases first with
  | none =>
    have hz : ∑ k ∈ range i, m i k * v k = 0 := by
      apply sum_eq_zero
      intro k hk
      rw [mem_range] at hk
      have h0 : v k = 0 := h.none rfl k hk
      rw [h0, mul_zero]
    obtain ⟨k1, k2⟩ := key (v p) (by
      show v p = w p - ∑ k ∈ range i, m i k * v k
      rw [hz, sub_zero]; exact h.todo p hp)
    refine ⟨k1, k2, ?_, ?_⟩
    · intro hn r hr
      simp only [fstep] at hn ⊢
      by_cases h0 : v p = 0
      · by_cases hri : r = i
        · rw [setv, if_pos hri, h0]
        · rw [setv, if_neg hri, setv, if_neg (by omega)]
          exact h.none rfl r (by omega)
      · rw [if_pos h0] at hn
        cases hn
    · intro f hf
      simp only [fstep] at hf ⊢
      by_cases h0 : v p = 0
      · rw [if_neg (by simpa using h0)] at hf
        cases hf
      · rw [if_pos h0] at hf
        cases hf
        refine ⟨by omega, fun r hr => ?_⟩
        rw [setv, if_neg (by omega), setv, if_neg (by omega)]
        exact h.none rfl r (by omega)
  | some f =>
    obtain ⟨hf1, hf2⟩ := h.some f rfl
    obtain ⟨k1, k2⟩ := key ((List.range' f (i - f)).foldl (fun sum j => sum - m i j * setv v p (v i) j) (v p)) (by
      show _ = w p - ∑ k ∈ range i, m i k * v k
      rw [foldl_sub (fun j => m i j * setv v p (v i) j), sum_range', Nat.add_sub_cancel' hf1,
        ← Finset.sum_range_add_sum_Ico (fun k => m i k * v k) hf1]
      have h0 : ∑ k ∈ range f, m i k * v k = 0 := by
        apply sum_eq_zero
        intro k hk
        rw [mem_range] at hk
        have h2 : v k = 0 := hf2 k hk
        rw [h2, mul_zero]
      have h1 : ∑ k ∈ Ico f i, m i k * setv v p (v i) k = ∑ k ∈ Ico f i, m i k * v k := by
        apply sum_congr rfl
        intro k hk
        rw [mem_Ico] at hk
        rw [setv, if_neg (by omega)]
      rw [h0, h1, zero_add]
      congr 1
      exact h.todo p hp)
    refine ⟨k1, k2, ?_, ?_⟩
    · intro hn
      simp only [fstep] at hn
      cases hn
    · intro g hg
      simp only [fstep] at hg ⊢
      cases hg
      refine ⟨by omega, fun r hr => ?_⟩
      rw [setv, if_neg (by omega), setv, if_neg (by omega)]
      exact hf2 r hr

theorem forward_spec (n : Nat) (m : Nat → Nat → K) : ∀ (l : List Nat) (i : Nat) (s : (Nat → K) × Option Nat) (w : Nat → K),
    Valid n i l → FInv m i s w → FInv m (i + l.length) (forward m l i s) (perm i l w)
  | [], _, _, _, _, h => h
  | p :: l, i, s, w, hv, h => by
    have := forward_spec n m l (i + 1) _ _ hv.2.2 (fstep_spec m i p hv.1 s w h)
    rw [List.length_cons, forward, perm]
    have e : i + (l.length + 1) = i + 1 + l.length := by omega
    rw [e]
    exact this

/-- The substitutions with the triangles solve the equations. -/
theorem solve_spec (n : Nat) (a m : Nat → Nat → K) (ps rest : List Nat) (b : Nat → K) (hl : ps.length = n) (hv : Valid n 0 ps)
    (h : Inv n (perm 0 ps a) m n) : ∃ x, lusolve n m (ps ++ rest) b = .ok x ∧ Spec.Solves n a x b := by
  have hlen : ¬ ((ps ++ rest).length < n) := by rw [List.length_append]; omega
  refine ⟨_, by rw [lusolve, if_neg hlen], ?_⟩
  have htake : (ps ++ rest).take n = ps := by rw [← hl, List.take_left]
  rw [htake]
  have hf := forward_spec n m ps 0 (b, none) b hv
    ⟨fun r hr => absurd hr (by omega), fun r _ => rfl, fun _ r hr => absurd hr (by omega), fun f hf => by cases hf⟩
  rw [Nat.zero_add, hl] at hf
  set y := (forward m ps 0 (b, none)).1 with hy
  have hb := back_spec m n y n y le_rfl h.diag (fun r _ => rfl) (fun r h1 h2 => absurd h2 (by omega))
  set x := back m n n y with hx
  rw [← solves_perm n x ps 0 a b (by omega) hv]
  intro i hi
  have e1 : ∀ c ∈ range n, perm 0 ps a i c * x c = ∑ k ∈ range n, lo m i k * (up m k c * x c) := by
    intro c hc
    rw [mem_range] at hc
    rw [h.ready i hi c hc, Finset.sum_mul]
    exact sum_congr rfl fun k _ => by ring
  rw [sum_congr rfl e1, Finset.sum_comm]
  have e2 : ∀ k ∈ range n, ∑ c ∈ range n, lo m i k * (up m k c * x c) = lo m i k * y k := by
    intro k hk
    rw [mem_range] at hk
    rw [← Finset.mul_sum]
    congr 1
    rw [← hb k hk, ← Finset.sum_range_add_sum_Ico (fun c => up m k c * x c) hk.le]
    have h0 : ∑ c ∈ range k, up m k c * x c = 0 := by
      apply sum_eq_zero
      intro c hc
      rw [mem_range] at hc
      rw [up, if_neg (by omega), zero_mul]
    rw [h0, zero_add]
    apply sum_congr rfl
    intro c hc
    rw [mem_Ico] at hc
    rw [up, if_pos hc.1]
  rw [sum_congr rfl e2, lo_sum, min_eq_left hi.le, if_pos hi, add_comm]
  exact hf.ready i hi

end Verif.LU
