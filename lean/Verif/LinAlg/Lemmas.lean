import Verif.LinAlg.Spec
import Mathlib.LinearAlgebra.Matrix.ToLinearEquiv
import Mathlib.Tactic.Ring
import Mathlib.Tactic.Linarith
import Mathlib.Tactic.LinearCombination
import Mathlib.Tactic.FieldSimp

/-!
# The search for the pivot and the invariant of the inversion
-/

set_option linter.unusedSectionVars false

namespace Verif.LinAlg

variable {n : Nat} {K R : Type} [Field K] [Field R] [LinearOrder R] [IsStrictOrderedRing R]

/-- What is known after a part of the search. -/
structure Found (ab : K → R) (a : Matrix (Fin n) (Fin n) K) (done : Fin n → Bool) (l : List (Fin n × Fin n))
    (r : R × Option (Fin n × Fin n)) : Prop where
  zero : r.2 = none → ∀ jk ∈ l, ¬ (done jk.1 = false ∧ done jk.2 = false)
  start : r.2 = none → r.1 = 0
  some : ∀ jk, r.2 = some jk → done jk.1 = false ∧ done jk.2 = false ∧ r.1 = ab (a jk.1 jk.2)
  max : ∀ jk ∈ l, done jk.1 = false → done jk.2 = false → ab (a jk.1 jk.2) ≤ r.1

theorem found_step (ab : K → R) (hab : ∀ z, 0 ≤ ab z) (a : Matrix (Fin n) (Fin n) K) (done : Fin n → Bool)
    (l : List (Fin n × Fin n)) (r : R × Option (Fin n × Fin n)) (h : Found ab a done l r) (jk : Fin n × Fin n) :
    Found ab a done (l ++ [jk]) (look ab a done r jk) := by
  rw [look]
  split
  · rename_i hc
    simp only [Bool.and_eq_true, Bool.not_eq_true', decide_eq_true_eq] at hc
    refine ⟨by simp, by simp, ?_, ?_⟩
    · rintro q hq
      simp only [Option.some.injEq] at hq
      subst hq
      exact ⟨hc.1.1, hc.1.2, rfl⟩
    · intro q hq h1 h2
      rcases List.mem_append.1 hq with hq | hq
      · exact (h.max q hq h1 h2).trans hc.2
      · rw [List.mem_singleton] at hq
        rw [hq]
  · rename_i hc
    simp only [Bool.and_eq_true, Bool.not_eq_true', decide_eq_true_eq, not_and, not_le] at hc
    refine ⟨?_, h.start, h.some, ?_⟩
    · intro h0 q hq
      rcases List.mem_append.1 hq with hq | hq
      · exact h.zero h0 q hq
      · rw [List.mem_singleton] at hq
        subst hq
        intro hd
        have := hc hd
        rw [h.start h0] at this
        exact absurd (hab _) (not_le.2 this)
    · intro q hq h1 h2
      rcases List.mem_append.1 hq with hq | hq
      · exact h.max q hq h1 h2
      · rw [List.mem_singleton] at hq
        subst hq
        exact (hc ⟨h1, h2⟩).le

theorem found_fold (ab : K → R) (hab : ∀ z, 0 ≤ ab z) (a : Matrix (Fin n) (Fin n) K) (done : Fin n → Bool) :
    ∀ (l l0 : List (Fin n × Fin n)) (r : R × Option (Fin n × Fin n)), Found ab a done l0 r →
      Found ab a done (l0 ++ l) (l.foldl (look ab a done) r)
  | [], l0, r, h => by simpa using h
  | jk :: l, l0, r, h => by
    have := found_fold ab hab a done l (l0 ++ [jk]) _ (found_step ab hab a done l0 r h jk)
    simpa using this

theorem mem_pairs (j k : Fin n) : (j, k) ∈ pairs n := by
  simp [pairs]

theorem found_search (ab : K → R) (hab : ∀ z, 0 ≤ ab z) (a : Matrix (Fin n) (Fin n) K) (done : Fin n → Bool) :
    Found ab a done (pairs n) (search ab a done) := by
  have h0 : Found ab a done [] ((0 : R), none) := ⟨by simp, by simp, by simp, by simp⟩
  simpa [search] using found_fold ab hab a done (pairs n) [] _ h0

/-- The invariant: `b` times the matrix has the columns of `a` which are not done and unit vectors for the others. -/
structure Inv (a0 : Matrix (Fin n) (Fin n) K) (s : St n K R) : Prop where
  todo : ∀ k, s.done k = false → ∀ i, (s.b * a0) i k = s.a i k
  ready : ∀ k, s.done k = true → ∀ i, (s.b * a0) i k = if i = k then 1 else 0
  piv : 0 < s.minpiv
  inj : ∀ v, s.b.mulVec v = 0 → v = 0

/-- The exchange of rows for indices which may agree. -/
def flip (i j r : Fin n) : Fin n := if r = i then j else if r = j then i else r

theorem swapRows_apply (i j : Fin n) (a : Matrix (Fin n) (Fin n) K) (r c : Fin n) :
    swapRows i j a r c = a (flip i j r) c := by
  unfold swapRows flip
  split
  · rfl
  · split <;> rfl

theorem swap_if (i j : Fin n) (a : Matrix (Fin n) (Fin n) K) (r c : Fin n) :
    (if i ≠ j then swapRows i j a else a) r c = a (flip i j r) c := by
  split
  · exact swapRows_apply i j a r c
  · rename_i h
    simp only [ne_eq, not_not] at h
    subst h
    congr 1
    unfold flip
    split
    · rename_i h; exact h
    · rename_i h; simp

theorem flip_flip (i j r : Fin n) : flip i j (flip i j r) = r := by
  unfold flip
  by_cases h1 : r = i
  · subst h1
    simp only [if_true]
    by_cases h : j = r
    · simp [h]
    · simp [h]
  · by_cases h2 : r = j
    · subst h2
      simp [h1]
    · simp [h1, h2]

theorem flip_right (i j : Fin n) : flip i j j = i := by
  unfold flip
  by_cases h : j = i
  · simp [h]
  · simp [h]

/-- Rows after a round: the row of the pivot divided, the others reduced. -/
theorem mul_round (a0 b : Matrix (Fin n) (Fin n) K) (p : Fin n) (f : K) (d : Fin n → K) (i k : Fin n)
    (b' : Matrix (Fin n) (Fin n) K)
    (hb : ∀ r c, b' r c = if r = p then b r c * f else b r c - d r * (b p c * f)) :
    (b' * a0) i k = if i = p then (b * a0) p k * f else (b * a0) i k - d i * ((b * a0) p k * f) := by
  simp only [Matrix.mul_apply, hb]
  split
  · rename_i h
    subst h
    rw [Finset.sum_mul]
    exact Finset.sum_congr rfl fun x _ => by ring
  · rw [Finset.sum_mul, Finset.mul_sum, ← Finset.sum_sub_distrib]
    exact Finset.sum_congr rfl fun x _ => by ring

theorem mulVec_round (b b' : Matrix (Fin n) (Fin n) K) (p : Fin n) (f : K) (d : Fin n → K) (v : Fin n → K)
    (hb : ∀ r c, b' r c = if r = p then b r c * f else b r c - d r * (b p c * f)) (i : Fin n) :
    b'.mulVec v i = if i = p then b.mulVec v p * f else b.mulVec v i - d i * (b.mulVec v p * f) := by
  simp only [Matrix.mulVec, dotProduct, hb]
  split
  · rename_i h
    subst h
    rw [Finset.sum_mul]
    exact Finset.sum_congr rfl fun x _ => by ring
  · rw [Finset.sum_mul, Finset.mul_sum, ← Finset.sum_sub_distrib]
    exact Finset.sum_congr rfl fun x _ => by ring

/-- One round, under the invariant and as long as not all columns are done. -/
theorem round_spec (ab : K → R) (hab : ∀ z, 0 ≤ ab z) (hz : ∀ z, ab z = 0 ↔ z = 0) (a0 : Matrix (Fin n) (Fin n) K)
    (s : St n K R) (h : Inv a0 s) (k0 : Fin n) (hk0 : s.done k0 = false) :
    (round ab s = .throw .singular ∧ a0.det = 0) ∨
    ∃ s' p, round ab s = .ok s' ∧ Inv a0 s' ∧ s.done p = false ∧ s'.done = Function.update s.done p true := by
  have hf := found_search ab hab s.a s.done
  rw [round]
  cases hs : (search ab s.a s.done).2 with
  | none => exact absurd ⟨hk0, hk0⟩ (hf.zero hs (k0, k0) (mem_pairs _ _))
  | some q =>
    obtain ⟨i, p⟩ := q
    obtain ⟨hdi, hdp, hl⟩ := hf.some _ hs
    simp only at hdi hdp hl ⊢
    set a1 := (if i ≠ p then swapRows i p s.a else s.a) with ha1
    set b1 := (if i ≠ p then swapRows i p s.b else s.b) with hb1
    have ea : ∀ r c, a1 r c = s.a (flip i p r) c := fun r c => swap_if i p s.a r c
    have eb : ∀ r c, b1 r c = s.b (flip i p r) c := fun r c => swap_if i p s.b r c
    have epp : a1 p p = s.a i p := by rw [ea, flip_right]
    have hb1mul : ∀ r k, (b1 * a0) r k = (s.b * a0) (flip i p r) k := by
      intro r k
      simp only [Matrix.mul_apply, eb]
    have hb1vec : ∀ v r, b1.mulVec v r = s.b.mulVec v (flip i p r) := by
      intro v r
      simp only [Matrix.mulVec, dotProduct, eb]
    by_cases h0 : a1 p p = 0
    · left
      have hm : min s.minpiv (ab (a1 p p)) = 0 := by
        rw [(hz _).2 h0]
        exact min_eq_right h.piv.le
      rw [if_pos hm]
      refine ⟨rfl, ?_⟩
      have hall : ∀ j k, s.done j = false → s.done k = false → s.a j k = 0 := by
        intro j k hj hk
        have := hf.max (j, k) (mem_pairs _ _) hj hk
        rw [hl, ← epp, (hz _).2 h0] at this
        exact (hz _).1 (le_antisymm this (hab _))
      rw [← Matrix.exists_mulVec_eq_zero_iff]
      refine ⟨fun k => if k = p then 1 else if s.done k = true then - s.a k p else 0, ?_, ?_⟩
      · intro hc
        have := congrFun hc p
        simp at this
      · apply h.inj
        rw [Matrix.mulVec_mulVec]
        funext r
        simp only [Matrix.mulVec, dotProduct, Pi.zero_apply]
        have hterm : ∀ k, (s.b * a0) r k * (if k = p then 1 else if s.done k = true then - s.a k p else 0) =
            (if k = p then s.a r p else 0) + (if k = r then (if s.done r = true then - s.a r p else 0) else 0) := by
          intro k
          by_cases hkp : k = p
          · subst hkp
            rw [if_pos rfl, if_pos rfl, mul_one, h.todo k hdp]
            by_cases hkr : k = r
            · subst hkr
              simp [hdp]
            · simp [hkr]
          · rw [if_neg hkp, if_neg hkp]
            by_cases hd : s.done k = true
            · rw [if_pos hd, h.ready k hd]
              by_cases hkr : k = r
              · subst hkr
                simp [hd]
              · have : ¬ r = k := fun e => hkr e.symm
                simp [hkr, this]
            · rw [if_neg hd]
              by_cases hkr : k = r
              · subst hkr
                simp [hd]
              · simp [hkr]
        rw [Finset.sum_congr rfl fun k _ => hterm k, Finset.sum_add_distrib, Finset.sum_ite_eq', Finset.sum_ite_eq']
        simp only [Finset.mem_univ, if_true]
        by_cases hr : s.done r = true
        · rw [if_pos hr]; ring
        · rw [if_neg hr, hall r p (by simpa using hr) hdp]; ring
    · right
      have hpos : 0 < ab (a1 p p) := lt_of_le_of_ne (hab _) (fun e => h0 ((hz _).1 e.symm))
      have hm : 0 < min s.minpiv (ab (a1 p p)) := lt_min h.piv hpos
      rw [if_neg hm.ne']
      refine ⟨_, p, rfl, ?_, hdp, rfl⟩
      have hrow : ∀ r c, (elimB p (scaleA p (1 / a1 p p) a1) (scaleB p (1 / a1 p p) b1)) r c =
          if r = p then b1 r c * (1 / a1 p p) else b1 r c - a1 r p * (b1 p c * (1 / a1 p p)) := by
        intro r c
        simp only [elimB, scaleA, scaleB]
        split
        · rfl
        · simp only [if_true]
      have hprod := fun r k => mul_round a0 b1 p (1 / a1 p p) (fun r => a1 r p) r k _ hrow
      have hdone : ∀ k, s.done k = true → k ≠ p ∧ k ≠ i := by
        intro k hk
        constructor
        · rintro rfl; rw [hdp] at hk; exact absurd hk (by simp)
        · rintro rfl; rw [hdi] at hk; exact absurd hk (by simp)
      constructor
      · intro k hk r
        simp only at hk ⊢
        have hkp : k ≠ p := by
          rintro rfl
          simp at hk
        rw [Function.update_of_ne hkp] at hk
        rw [hprod, hb1mul, hb1mul, h.todo k hk, h.todo k hk]
        simp only [elimA, scaleA, ← ea]
        by_cases hr : r = p
        · subst hr
          simp [hkp]
        · simp [hr, hkp]
      · intro k hk r
        simp only at hk ⊢
        rw [hprod, hb1mul, hb1mul]
        by_cases hkp : k = p
        · subst hkp
          rw [h.todo k hdp, h.todo k hdp, ← ea, ← ea]
          by_cases hr : r = k
          · subst hr
            simp only [if_true]
            field_simp
          · simp only [if_neg hr]
            field_simp
            ring
        · rw [Function.update_of_ne hkp] at hk
          obtain ⟨_, hki⟩ := hdone k hk
          have hz0 : (s.b * a0) (flip i p p) k = 0 := by
            rw [flip_right, h.ready k hk, if_neg (fun e => hki e.symm)]
          rw [hz0, h.ready k hk]
          have hfr : (flip i p r = k) ↔ (r = k) := by
            constructor
            · intro e
              have := flip_flip i p r
              rw [e] at this
              rw [← this]
              unfold flip
              simp [hki, hkp]
            · rintro rfl
              unfold flip
              simp [hki, hkp]
          simp only [hfr, zero_mul, mul_zero, sub_zero]
          by_cases hr : r = p
          · subst hr
            have : ¬ r = k := fun e => hkp e.symm
            simp [this]
          · simp [hr]
      · exact hm
      · intro v hv
        apply h.inj
        have hv' := fun r => congrFun hv r
        simp only [Pi.zero_apply] at hv'
        have hp0 : b1.mulVec v p = 0 := by
          have := hv' p
          rw [mulVec_round b1 _ p (1 / a1 p p) (fun r => a1 r p) v hrow, if_pos rfl] at this
          rcases mul_eq_zero.1 this with e | e
          · exact e
          · exact absurd e (by simpa using h0)
        funext r
        have e : s.b.mulVec v r = b1.mulVec v (flip i p r) := by rw [hb1vec, flip_flip]
        rw [e, Pi.zero_apply]
        by_cases hr : flip i p r = p
        · rw [hr, hp0]
        · have := hv' (flip i p r)
          rw [mulVec_round b1 _ p (1 / a1 p p) (fun r => a1 r p) v hrow, if_neg hr, hp0] at this
          linear_combination this

/-- The columns which are not done. -/
def left (done : Fin n → Bool) : Nat := (Finset.univ.filter fun k => done k = false).card

theorem left_update (done : Fin n → Bool) (p : Fin n) (h : done p = false) :
    left (Function.update done p true) + 1 = left done := by
  unfold left
  have : (Finset.univ.filter fun k => done k = false) =
      insert p (Finset.univ.filter fun k => Function.update done p true k = false) := by
    ext k
    simp only [Finset.mem_filter, Finset.mem_univ, true_and, Finset.mem_insert]
    by_cases hk : k = p
    · subst hk; simp [h]
    · simp [hk]
  rw [this, Finset.card_insert_of_notMem (by simp)]

theorem rounds_spec (ab : K → R) (hab : ∀ z, 0 ≤ ab z) (hz : ∀ z, ab z = 0 ↔ z = 0) (a0 : Matrix (Fin n) (Fin n) K) :
    ∀ (i : Nat) (s : St n K R), Inv a0 s → left s.done = i →
      (rounds ab i s = .throw .singular ∧ a0.det = 0) ∨
      ∃ s', rounds ab i s = .ok s' ∧ 0 < s'.minpiv ∧ s'.b * a0 = 1
  | 0, s, h, hl => by
    right
    refine ⟨s, rfl, h.piv, ?_⟩
    have hd : ∀ k, s.done k = true := by
      intro k
      by_contra hk
      rw [left, Finset.card_eq_zero] at hl
      have : k ∈ (Finset.univ.filter fun k => s.done k = false) := by simpa using hk
      rw [hl] at this
      exact absurd this (by simp)
    ext r k
    rw [h.ready k (hd k), Matrix.one_apply]
  | i + 1, s, h, hl => by
    have hex : ∃ k0, s.done k0 = false := by
      have : (Finset.univ.filter fun k => s.done k = false).Nonempty := by
        rw [← Finset.card_pos]
        unfold left at hl
        omega
      obtain ⟨k, hk⟩ := this
      exact ⟨k, by simpa using hk⟩
    obtain ⟨k0, hk0⟩ := hex
    rw [rounds]
    rcases round_spec ab hab hz a0 s h k0 hk0 with ⟨h1, h2⟩ | ⟨s', p, h1, h2, h3, h4⟩
    · left
      rw [h1]
      exact ⟨rfl, h2⟩
    · rw [h1]
      refine rounds_spec ab hab hz a0 i s' h2 ?_
      have := left_update s.done p h3
      rw [h4]
      omega

end Verif.LinAlg
