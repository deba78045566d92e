import Mathlib.Tactic.FieldSimp
import Mathlib.Tactic.LinearCombination
import Mathlib.Tactic.Linarith
import Mathlib.Algebra.Order.Ring.Rat
import Mathlib.Algebra.Field.Rat
import Mathlib.Algebra.BigOperators.Group.List.Basic
import Mathlib.Data.Nat.Factorial.Basic
import Mathlib.Algebra.CharZero.Defs
import Verif.Multipole.Spec

/-!
# Properties of multipole fields (C47, C48, C92)
-/

set_option linter.unusedSectionVars false

namespace Verif.Multipole
open Verif Verif.Multipole.Spec

section
variable {K : Type} [Field K] [LinearOrder K] [IsStrictOrderedRing K]

theorem smul_eq (k : K) (z : Cx K) : Cx.smul k z = ofReal k * z := by
  ext <;> simp [Cx.smul, ofReal]

/-! ## The factorial -/

theorem factLoop_eq : ∀ (n : Nat) (f : K), factLoop n f = f * ((n.factorial : Nat) : K)
  | 0, f => by simp [factLoop]
  | 1, f => by simp [factLoop]
  | n + 2, f => by
    have : n + 1 + 1 > 1 := by omega
    simp only [factLoop, if_pos this]
    rw [← factLoop, factLoop_eq (n + 1) _, Nat.factorial_succ (n + 1)]
    push_cast
    ring

theorem factorial_eq (n : Nat) : (factorial n : K) = ((n.factorial : Nat) : K) := by
  cases n with
  | zero => simp [factorial, factLoop]
  | succ n =>
    have h : factLoop (n + 1 - 1) ((n + 1 : Nat) : K) = (((n + 1).factorial : Nat) : K) := by
      rw [Nat.add_sub_cancel, factLoop_eq, Nat.factorial_succ]
      push_cast
      ring
    have hne : ((n + 1).factorial : K) ≠ 0 := Nat.cast_ne_zero.2 (Nat.factorial_ne_zero _)
    simp only [factorial, h, if_neg hne]

/-! ## The sum -/

theorem powLoop_eq (z0 : Cx K) : ∀ (n : Nat) (z : Cx K), powLoop z0 n z = z * z0 ^ n
  | 0, z => by simp [powLoop]
  | n + 1, z => by rw [powLoop, powLoop_eq z0 n]; ring

theorem sum_mul_left (a : Cx K) (f : Nat → Cx K) : ∀ l : List Nat, (l.map (fun n => a * f n)).sum = a * (l.map f).sum
  | [] => by simp
  | n :: l => by rw [List.map_cons, List.sum_cons, sum_mul_left a f l, List.map_cons, List.sum_cons, mul_add]

theorem sumLoop_eq (z0 : Cx K) : ∀ (l : List (Cx K)) (b z : Cx K),
    sumLoop z0 l b z = b + z * ((List.range l.length).map (fun n => coeff l n * z0 ^ n)).sum
  | [], b, z => by simp [sumLoop]
  | t :: l, b, z => by
    rw [sumLoop, sumLoop_eq z0 l, List.length_cons, List.range_succ_eq_map, List.map_cons, List.map_map, List.sum_cons]
    have : (fun n => coeff (t :: l) n * z0 ^ n) ∘ Nat.succ = fun n => z0 * (coeff l n * z0 ^ n) := by
      funext n
      simp only [Function.comp, coeff, Nat.succ_eq_add_one, List.getElem?_cons_succ]
      ring
    rw [this, sum_mul_left]
    simp only [coeff, List.getElem?_cons_zero, Option.getD_some, pow_zero]
    ring

theorem series_drop (l : List (Cx K)) (e : Nat) (he : e ≤ l.length) (z : Cx K) :
    z ^ e * ((List.range (l.drop e).length).map (fun n => coeff (l.drop e) n * z ^ n)).sum = series l ((e : Int) - 1) z := by
  have hlen : l.length = e + (l.drop e).length := by rw [List.length_drop]; omega
  rw [series, hlen, List.range_add, List.map_append, List.sum_append, List.map_map]
  have h1 : ((List.range e).map (fun n : Nat => if (e : Int) - 1 < (n : Int) then coeff l n * z ^ n else 0)).sum = 0 := by
    apply List.sum_eq_zero
    intro x hx
    obtain ⟨n, hn, rfl⟩ := List.mem_map.1 hx
    rw [List.mem_range] at hn
    rw [if_neg (by omega)]
  rw [h1, zero_add, ← sum_mul_left]
  congr 1
  apply List.map_congr_left
  intro n _
  simp only [Function.comp]
  rw [if_pos (by omega)]
  simp only [coeff, List.getElem?_drop]
  ring

/-- C47: the field is the scale times the sum of the terms above the excluded ones, at every point. -/
theorem field_is_sum (eps : K) (m : MField K) (hs : eps < |m.b0|) (x y : K) (k : Int) (hk : -1 ≤ k) :
    getField2D eps m x y k = .ok (ofReal m.b0 * series m.terms k ⟨x, y⟩) := by
  have hn : isNull eps m = false := by
    rw [isNull, decide_eq_false_iff_not, sub_zero]
    exact not_le.2 hs
  simp only [getField2D, hn, Bool.false_eq_true, if_false]
  by_cases hlen : k + 1 > m.terms.length
  · rw [if_pos hlen]
    have : series m.terms k (⟨x, y⟩ : Cx K) = 0 := by
      apply List.sum_eq_zero
      intro v hv
      obtain ⟨n, hn, rfl⟩ := List.mem_map.1 hv
      rw [List.mem_range] at hn
      rw [if_neg (by omega)]
    rw [this, mul_zero]
  · rw [if_neg hlen, if_neg (by omega), smul_eq, sumLoop_eq, powLoop_eq, zero_add, one_mul, series_drop _ _ (by omega)]
    congr 3
    omega

/-- C47: a field of negligible scale is nothing, whatever the expansion. -/
theorem field_null (eps : K) (m : MField K) (hs : |m.b0| ≤ eps) (x y : K) (k : Int) :
    getField2D eps m x y k = .ok 0 := by
  have hn : isNull eps m = true := by
    rw [isNull, decide_eq_true_eq, sub_zero]
    exact hs
  simp [getField2D, hn]

/-- The hypotheses are met by a sextupole with a dipole part. -/
example : getField2D (1/1000 : ℚ) ⟨2, [⟨1, 0⟩, ⟨0, 0⟩, ⟨3, 1⟩]⟩ 1 1 (-1) = .ok ⟨-2, 12⟩ ∧
    getField2D (1/1000 : ℚ) ⟨2, [⟨1, 0⟩, ⟨0, 0⟩, ⟨3, 1⟩]⟩ 1 1 1 = .ok ⟨-4, 12⟩ ∧
    getField2D (1/1000 : ℚ) ⟨2, [⟨1, 0⟩, ⟨0, 0⟩, ⟨3, 1⟩]⟩ 1 1 7 = .ok 0 := by
  decide +kernel

theorem series_ext (l l' : List (Cx K)) (h : ∀ n, coeff l n = coeff l' n) (k : Int) (z : Cx K) :
    series l k z = series l' k z := by
  have key : ∀ (l : List (Cx K)) (N : Nat), l.length ≤ N → series l k z =
      ((List.range N).map (fun n : Nat => if k < (n : Int) then coeff l n * z ^ n else 0)).sum := by
    intro l N hN
    obtain ⟨d, rfl⟩ : ∃ d, N = l.length + d := ⟨N - l.length, by omega⟩
    rw [series, List.range_add, List.map_append, List.sum_append, List.map_map]
    have : ((List.range d).map ((fun n : Nat => if k < (n : Int) then coeff l n * z ^ n else 0) ∘ (fun i => l.length + i))).sum = 0 := by
      apply List.sum_eq_zero
      intro v hv
      obtain ⟨n, _, rfl⟩ := List.mem_map.1 hv
      have : coeff l (l.length + n) = 0 := by simp [coeff]
      simp [Function.comp, this]
    rw [this, add_zero]
  rw [key l (max l.length l'.length) (le_max_left ..), key l' (max l.length l'.length) (le_max_right ..)]
  simp only [h]

/-- C47: fields add if their coefficients add. -/
theorem field_add (eps : K) (b0 : K) (hs : eps < |b0|) (l1 l2 l : List (Cx K)) (h : ∀ n, coeff l n = coeff l1 n + coeff l2 n)
    (x y : K) (k : Int) (hk : -1 ≤ k) :
    ∃ a b, getField2D eps ⟨b0, l1⟩ x y k = .ok a ∧ getField2D eps ⟨b0, l2⟩ x y k = .ok b ∧
      getField2D eps ⟨b0, l⟩ x y k = .ok (a + b) := by
  refine ⟨_, _, field_is_sum eps ⟨b0, l1⟩ hs x y k hk, field_is_sum eps ⟨b0, l2⟩ hs x y k hk, ?_⟩
  rw [field_is_sum eps ⟨b0, l⟩ hs x y k hk, ← mul_add]
  congr 2
  have key : ∀ (l : List (Cx K)) (N : Nat), l.length ≤ N → series l k ⟨x, y⟩ =
      ((List.range N).map (fun n : Nat => if k < (n : Int) then coeff l n * (⟨x, y⟩ : Cx K) ^ n else 0)).sum := by
    intro l N hN
    rw [series_ext l (l ++ List.replicate (N - l.length) 0), series]
    · have hl : (l ++ List.replicate (N - l.length) (0 : Cx K)).length = N := by simp; omega
      rw [hl]
      congr 2
      funext n
      have : coeff (l ++ List.replicate (N - l.length) (0 : Cx K)) n = coeff l n := by
        by_cases hn : n < l.length
        · simp [coeff, List.getElem?_append_left hn]
        · simp only [coeff, List.getElem?_append_right (by omega : l.length ≤ n), List.getElem?_replicate,
            List.getElem?_eq_none (by omega : l.length ≤ n)]
          split <;> rfl
      rw [this]
    · intro n
      by_cases hn : n < l.length
      · simp [coeff, List.getElem?_append_left hn]
      · simp only [coeff, List.getElem?_append_right (by omega : l.length ≤ n), List.getElem?_replicate,
          List.getElem?_eq_none (by omega : l.length ≤ n)]
        split <;> rfl
  have h1 : l1.length ≤ max l.length (max l1.length l2.length) := le_trans (le_max_left _ _) (le_max_right _ _)
  have h2 : l2.length ≤ max l.length (max l1.length l2.length) := le_trans (le_max_right _ _) (le_max_right _ _)
  have h3 : l.length ≤ max l.length (max l1.length l2.length) := le_max_left _ _
  rw [key l1 _ h1, key l2 _ h2, key l _ h3, ← List.sum_map_add]
  congr 2
  funext n
  rw [h]
  split
  · ring
  · simp

/-! ## Coefficients -/

theorem coeff_grow (np : Nat) (l : List (Cx K)) (n : Nat) : coeff (grow np l) n = coeff l n := by
  by_cases hn : n < l.length
  · simp [coeff, grow, List.getElem?_append_left hn]
  · simp only [coeff, grow, List.getElem?_append_right (by omega : l.length ≤ n), List.getElem?_replicate,
      List.getElem?_eq_none (by omega : l.length ≤ n)]
    split <;> rfl

theorem length_grow (np : Nat) (l : List (Cx K)) : np < (grow np l).length := by
  simp only [grow, List.length_append, List.length_replicate]; omega

theorem coeff_set (l : List (Cx K)) (np n : Nat) (c : Cx K) (h : np < l.length) :
    coeff (l.set np c) n = if n = np then c else coeff l n := by
  by_cases hn : n = np
  · subst hn
    simp [coeff, h]
  · simp [coeff, hn, List.getElem?_set_ne (Ne.symm hn)]

/-- C47: a component that has been set is read back, at any radius; the others stay. -/
theorem component_roundtrip (m : MField K) (hb : m.b0 ≠ 0) (np : Nat) (bn an r0 : K) (hr : r0 ≠ 0) :
    ∃ m', setComponent m np bn an r0 = .ok m' ∧ m'.b0 = m.b0 ∧
      (getComponent m' np r0).1 = ⟨bn, an⟩ ∧
      ∀ n ≠ np, ∀ r, (getComponent m' n r).1 = (getComponent m n r).1 := by
  refine ⟨{ m with terms := (grow np m.terms).set np ⟨bn / (m.b0 * r0 ^ np), an / (m.b0 * r0 ^ np)⟩ },
    by rw [setComponent, if_neg hb], rfl, ?_, ?_⟩
  · have hp : r0 ^ np ≠ 0 := pow_ne_zero _ hr
    have := coeff_set (grow np m.terms) np np ⟨bn / (m.b0 * r0 ^ np), an / (m.b0 * r0 ^ np)⟩ (length_grow np m.terms)
    rw [if_pos rfl] at this
    have h2 := coeff_grow np ((grow np m.terms).set np ⟨bn / (m.b0 * r0 ^ np), an / (m.b0 * r0 ^ np)⟩) np
    rw [this] at h2
    simp only [coeff] at h2
    simp only [getComponent, getCoefficient, h2, Cx.smul]
    ext
    · dsimp only
      field_simp
    · dsimp only
      field_simp
  · intro n hn r
    simp only [getComponent, getCoefficient]
    congr 2
    have h2 := coeff_grow n ((grow np m.terms).set np ⟨bn / (m.b0 * r0 ^ np), an / (m.b0 * r0 ^ np)⟩) n
    have h4 := coeff_set (grow np m.terms) np n ⟨bn / (m.b0 * r0 ^ np), an / (m.b0 * r0 ^ np)⟩ (length_grow np m.terms)
    rw [if_neg hn, coeff_grow] at h4
    rw [h4] at h2
    have h3 := coeff_grow n m.terms n
    simp only [coeff] at h2 h3
    rw [h2, h3]

/-- A sextupole component set in the field of a dipole. -/
example : ∃ m', setComponent (⟨2, [⟨1, 0⟩]⟩ : MField ℚ) 2 3 4 (1/2) = .ok m' ∧
    (getComponent m' 2 (1/2)).1 = ⟨3, 4⟩ ∧ (getComponent m' 0 7).1 = ⟨2, 0⟩ :=
  ⟨⟨2, [⟨1, 0⟩, 0, ⟨6, 8⟩]⟩, by decide +kernel⟩

/-- C47: reading a coefficient does not alter the field. -/
theorem reading_keeps_field (eps : K) (m : MField K) (hs : eps < |m.b0|) (np : Nat) (r0 x y : K) (k : Int) (hk : -1 ≤ k) :
    getField2D eps (getCoefficient m np r0).2 x y k = getField2D eps m x y k := by
  rw [field_is_sum eps m hs x y k hk]
  have : (getCoefficient m np r0).2.b0 = m.b0 := rfl
  rw [field_is_sum eps (getCoefficient m np r0).2 (by rw [this]; exact hs) x y k hk, this]
  congr 2
  exact series_ext _ _ (fun n => coeff_grow np m.terms n) k _

/-- C92 is violated: the highest non-zero multipole changes when a coefficient is read, and counts zeros. -/
theorem highest_violated :
    let m : MField ℚ := ⟨1, [⟨1, 0⟩]⟩
    highest m = 0 ∧ (getCoefficient m 5 1).1 = 0 ∧ highest (getCoefficient m 5 1).2 = 5 := by
  decide +kernel

/-- C92: the lowest multipole is the first with a coefficient, if there is any. -/
theorem lowest_spec (m : MField K) (n : Nat) :
    lowest m = .ok n ↔ coeff m.terms n ≠ 0 ∧ ∀ i < n, coeff m.terms i = 0 := by
  have key : ∀ (l : List (Cx K)) (j : Nat), lowLoop l j = .ok n ↔
      j ≤ n ∧ coeff l (n - j) ≠ 0 ∧ ∀ i < n - j, coeff l i = 0 := by
    intro l
    induction l with
    | nil =>
      intro j
      simp [lowLoop, coeff]
    | cons c l ih =>
      intro j
      rw [lowLoop]
      by_cases hc : c = 0
      · rw [if_pos hc, ih (j + 1)]
        constructor
        · rintro ⟨h1, h2, h3⟩
          have hnj : n - j = (n - (j + 1)) + 1 := by omega
          refine ⟨by omega, ?_, ?_⟩
          · rw [hnj]
            simpa [coeff] using h2
          · intro i hi
            cases i with
            | zero => simp [coeff, hc]
            | succ i =>
              have := h3 i (by omega)
              simpa [coeff] using this
        · rintro ⟨h1, h2, h3⟩
          have hne : n ≠ j := by
            rintro rfl
            rw [Nat.sub_self] at h2
            exact h2 (by simp [coeff, hc])
          have hnj : n - j = (n - (j + 1)) + 1 := by omega
          rw [hnj] at h2
          refine ⟨by omega, by simpa [coeff] using h2, ?_⟩
          intro i hi
          have := h3 (i + 1) (by omega)
          simpa [coeff] using this
      · rw [if_neg hc]
        constructor
        · intro h
          injection h with h
          subst h
          refine ⟨Nat.le_refl _, ?_, ?_⟩
          · rw [Nat.sub_self]
            simpa [coeff] using hc
          · intro i hi
            omega
        · rintro ⟨h1, h2, h3⟩
          by_cases hj : n = j
          · rw [hj]
          · have := h3 0 (by omega)
            simp [coeff] at this
            exact absurd this hc
  have := key m.terms 0
  simpa [lowest] using this

/-- C92: without a non-zero coefficient the query reads past the end of the expansion. -/
theorem lowest_null (m : MField K) : lowest m = .ub ↔ ∀ n, coeff m.terms n = 0 := by
  have key : ∀ (l : List (Cx K)) (j : Nat), lowLoop l j = .ub ↔ ∀ n, coeff l n = 0 := by
    intro l
    induction l with
    | nil => intro j; simp [lowLoop, coeff]
    | cons c l ih =>
      intro j
      rw [lowLoop]
      by_cases hc : c = 0
      · rw [if_pos hc, ih]
        constructor
        · intro h n
          cases n with
          | zero => simp [coeff, hc]
          | succ n => simpa [coeff] using h n
        · intro h n
          simpa [coeff] using h (n + 1)
      · rw [if_neg hc]
        constructor
        · intro h; cases h
        · intro h
          exact absurd (by simpa [coeff] using h 0) hc
  exact key m.terms 0

/-- Both cases. -/
example : lowest (⟨1, [0, 0, ⟨1, 2⟩]⟩ : MField ℚ) = .ok 2 ∧ lowest (mkNull (1 : ℚ) 4) = .ub := by decide +kernel

/-! ## Normalised strengths -/

theorem coeff_deriv (l : List (Cx K)) (n : Nat) : coeff (deriv l) n = ofReal ((n + 1 : Nat) : K) * coeff l (n + 1) := by
  cases l with
  | nil => simp [deriv, coeff]
  | cons c l =>
    simp only [deriv, coeff, List.getElem?_mapIdx, List.getElem?_cons_succ]
    cases l[n]? <;> simp

theorem coeff_deriv_iterate (l : List (Cx K)) : ∀ (j n : Nat),
    ofReal ((n.factorial : Nat) : K) * coeff (deriv^[j] l) n = ofReal (((n + j).factorial : Nat) : K) * coeff l (n + j)
  | 0, n => by simp
  | j + 1, n => by
    rw [Function.iterate_succ_apply', coeff_deriv]
    have := coeff_deriv_iterate l j (n + 1)
    rw [Nat.factorial_succ] at this
    rw [show n + (j + 1) = n + 1 + j by omega, ← this]
    have : (ofReal (((n + 1) * n.factorial : Nat) : K) : Cx K) = ofReal ((n.factorial : Nat) : K) * ofReal ((n + 1 : Nat) : K) := by
      ext <;> simp [ofReal] <;> ring
    rw [this]
    ring

/-- C47: the normalised strength is the derivative of the field at the axis over the rigidity. -/
theorem kn_is_derivative (m : MField K) (np : Nat) (rig : K) (hr : rig ≠ 0) :
    getKn m np rig = .ok (ofReal (m.b0 / rig) * coeff (deriv^[np] m.terms) 0) := by
  have h := coeff_deriv_iterate m.terms np 0
  have h1 : (ofReal ((Nat.factorial 0 : Nat) : K) : Cx K) = 1 := by ext <;> simp [ofReal]
  rw [h1, one_mul, Nat.zero_add] at h
  rw [getKn, if_neg hr, h, coeff]
  cases m.terms[np]? with
  | none => simp
  | some c =>
    simp only [Option.getD_some, smul_eq, factorial_eq]
    congr 1
    ext <;> simp [ofReal] <;> ring

/-- The strength of an octupole given by its third derivative. -/
example : getKn (mkGrad 3 (12 : ℚ) false) 3 2 = .ok ⟨6, 0⟩ ∧ (mkGrad 3 (12 : ℚ) false).b0 = 2 := by decide +kernel

/-- C47: a magnet made with a gradient has that derivative, and no other term. -/
theorem grad_ctor (np : Nat) (bn : K) (skew : Bool) (rig : K) (hr : rig ≠ 0) (n : Nat) :
    getKn (mkGrad np bn skew) n rig = .ok (if n = np then (if skew then ⟨0, bn / rig⟩ else ⟨bn / rig, 0⟩) else 0) := by
  have hf : (factorial np : K) ≠ 0 := by
    rw [factorial_eq]
    exact Nat.cast_ne_zero.2 (Nat.factorial_ne_zero _)
  simp only [getKn, if_neg hr, mkGrad]
  by_cases hn : n = np
  · subst hn
    simp only [List.getElem?_set, List.length_replicate, if_true, Nat.lt_succ_self, Cx.smul]
    cases skew
    · simp only [Bool.false_eq_true, if_false]
      congr 1
      ext
      · dsimp only; field_simp
      · simp
    · simp only [if_true]
      congr 1
      ext
      · simp
      · dsimp only; field_simp
  · simp only [if_neg hn, List.getElem?_set_ne (Ne.symm hn), List.getElem?_replicate]
    split
    · rename_i h
      split at h
      · obtain rfl : _ = _ := (Option.some.inj h).symm
        congr 1
        ext <;> simp [Cx.smul]
      · cases h
    · rfl

/-- C47: a magnet made with field components at a radius has those components there. -/
theorem norm_ctor (absz : K) (np : Nat) (bn an r0 : K) (ha : absz ≠ 0) (hr : r0 ≠ 0) (n : Nat) :
    (getComponent (mkNorm absz np bn an r0) n r0).1 = if n = np then ⟨bn, an⟩ else 0 := by
  have hp : r0 ^ np ≠ 0 := pow_ne_zero _ hr
  have h := coeff_grow n (mkNorm absz np bn an r0).terms n
  have h2 := coeff_set (List.replicate (np + 1) 0) np n (⟨bn / absz, an / absz⟩ : Cx K) (by simp)
  have h3 : coeff (List.replicate (np + 1) (0 : Cx K)) n = 0 := by
    simp only [coeff, List.getElem?_replicate]
    split <;> rfl
  rw [h3] at h2
  rw [show (mkNorm absz np bn an r0).terms = (List.replicate (np + 1) 0).set np ⟨bn / absz, an / absz⟩ from rfl, h2] at h
  simp only [coeff] at h
  have hb : (mkNorm absz np bn an r0).b0 = absz / r0 ^ np := rfl
  have ht : (mkNorm absz np bn an r0).terms = (List.replicate (np + 1) 0).set np ⟨bn / absz, an / absz⟩ := rfl
  simp only [getComponent, getCoefficient, hb, ht, h]
  by_cases hn : n = np
  · subst hn
    simp only [if_true, Cx.smul]
    ext
    · dsimp only; field_simp
    · dsimp only; field_simp
  · simp only [if_neg hn]
    ext <;> simp [Cx.smul]

/-- Components 3 and 4 at a radius of a half. -/
example : (getComponent (mkNorm (5 : ℚ) 2 3 4 (1/2)) 2 (1/2)).1 = ⟨3, 4⟩ ∧ (mkNorm (5 : ℚ) 2 3 4 (1/2)).b0 = 20 := by
  decide +kernel

/-! ## Force -/

/-- C47: the force is the Lorentz force in the field, and does no work. -/
theorem force_lorentz (eps : K) (m : MField K) (p v : Vec K) (q : K) :
    ∃ b f, getBField eps m p = .ok b ∧ getForce eps m p v q = .ok f ∧
      f = ⟨q * (cross v b).x, q * (cross v b).y, q * (cross v b).z⟩ ∧ f.x * v.x + f.y * v.y + f.z * v.z = 0 := by
  obtain ⟨c, hc⟩ : ∃ c, getField2D eps m p.x p.y (-1) = .ok c := by
    by_cases hs : eps < |m.b0|
    · exact ⟨_, field_is_sum eps m hs _ _ _ (by omega)⟩
    · exact ⟨_, field_null eps m (not_lt.1 hs) _ _ _⟩
  refine ⟨⟨c.im, c.re, 0⟩, _, by simp [getBField, hc, Outcome.bind], by simp [getForce, hc, Outcome.bind]; rfl, ?_, ?_⟩
  · ext <;> simp [cross] <;> ring
  · dsimp only
    ring

/-! ## Rotation -/

theorem conj_mul (a b : Cx K) : conj (a * b) = conj a * conj b := by
  ext <;> simp [conj] <;> ring

theorem conj_pow (a : Cx K) : ∀ n : Nat, conj (a ^ n) = conj a ^ n
  | 0 => by ext <;> simp [conj]
  | n + 1 => by rw [pow_succ, pow_succ, conj_mul, conj_pow a n]

theorem conj_add (a b : Cx K) : conj (a + b) = conj a + conj b := by
  ext <;> simp [conj]; ring

theorem coeff_rotLoop : ∀ (l : List (Cx K)) (e : Bool) (n : Nat),
    coeff (rotLoop e l) n = ofReal (if e then (-1) ^ n else -(-1) ^ n) * conj (coeff l n)
  | [], e, n => by
    have : conj (0 : Cx K) = 0 := by ext <;> simp [conj]
    simp [rotLoop, coeff, this]
  | z :: l, e, 0 => by
    simp only [rotLoop, coeff, List.getElem?_cons_zero, Option.getD_some, pow_zero]
    cases e <;> ext <;> simp [ofReal, conj]
  | z :: l, e, n + 1 => by
    have := coeff_rotLoop l (!e) n
    have h2 : coeff (rotLoop e (z :: l)) (n + 1) = coeff (rotLoop (!e) l) n := by simp [rotLoop, coeff]
    have h3 : coeff (z :: l) (n + 1) = coeff l n := by simp [coeff]
    rw [h2, this, h3, pow_succ]
    congr 2
    cases e <;> simp

theorem length_rotLoop : ∀ (l : List (Cx K)) (e : Bool), (rotLoop e l).length = l.length
  | [], _ => rfl
  | _ :: l, e => by rw [rotLoop, List.length_cons, length_rotLoop l, List.length_cons]

theorem series_rot (l : List (Cx K)) (x y : K) :
    series (rotLoop false l) (-1) ⟨x, y⟩ = -conj (series l (-1) ⟨-x, y⟩) := by
  have hsum : ∀ (f : Nat → Cx K) (ns : List Nat), -conj ((ns.map f).sum) = (ns.map (fun n => -conj (f n))).sum := by
    intro f ns
    induction ns with
    | nil => ext <;> simp [conj]
    | cons n ns ih =>
      rw [List.map_cons, List.sum_cons, List.map_cons, List.sum_cons, ← ih, conj_add]
      ring
  rw [series, series, hsum, length_rotLoop]
  congr 1
  apply List.map_congr_left
  intro n _
  rw [if_pos (by omega), if_pos (by omega), coeff_rotLoop, conj_mul, conj_pow]
  have hz : (⟨x, y⟩ : Cx K) = ofReal (-1) * conj (⟨-x, y⟩ : Cx K) := by ext <;> simp [ofReal, conj]
  have hone : (ofReal (1 : K) : Cx K) = 1 := by ext <;> simp [ofReal]
  have hmul : ∀ a b : K, (ofReal (a * b) : Cx K) = ofReal a * ofReal b := by intro a b; ext <;> simp [ofReal]
  have hneg : ∀ a : K, (ofReal (-a) : Cx K) = -ofReal a := by intro a; ext <;> simp [ofReal]
  have hpow : ∀ k : Nat, (ofReal (-1 : K) : Cx K) ^ k = ofReal ((-1) ^ k) := by
    intro k
    induction k with
    | zero => simp [hone]
    | succ k ih => rw [pow_succ, ih, ← hmul, pow_succ]
  have hsq : (ofReal ((-1 : K) ^ n) : Cx K) * ofReal ((-1) ^ n) = 1 := by
    rw [← hmul, ← mul_pow]
    simp [hone]
  rw [hz, mul_pow, hpow]
  simp only [Bool.false_eq_true, if_false, hneg]
  linear_combination (-conj (coeff l n) * conj (⟨-x, y⟩ : Cx K) ^ n) * hsq

/-- C48: the rotated field is the geometric rotation with the opposite sign, at every point.  Missing: the
sign, which is wrong (`rotation_violated`). -/
theorem rotation_partial (eps : K) (m : MField K) (x y : K) :
    ∃ f : K → K → K × K, (∀ a b, getBField eps m ⟨a, b, 0⟩ = .ok ⟨(f a b).1, (f a b).2, 0⟩) ∧
      getBField eps (rotateY180 m) ⟨x, y, 0⟩ = .ok ⟨-(turned f x y).1, -(turned f x y).2, 0⟩ := by
  by_cases hs : eps < |m.b0|
  · refine ⟨fun a b => ((ofReal m.b0 * series m.terms (-1) ⟨a, b⟩).im, (ofReal m.b0 * series m.terms (-1) ⟨a, b⟩).re), ?_, ?_⟩
    · intro a b
      simp [getBField, field_is_sum eps m hs, Outcome.bind]
    · have hs' : eps < |(rotateY180 m).b0| := hs
      simp only [getBField, field_is_sum eps (rotateY180 m) hs' _ _ (-1) (by omega), Outcome.bind]
      simp only [rotateY180, series_rot, turned]
      congr 1
      ext <;> simp [ofReal, conj]
  · have h0 : ∀ a b, getField2D eps m a b (-1) = .ok 0 := fun a b => field_null eps m (not_lt.1 hs) a b _
    have h1 : ∀ a b, getField2D eps (rotateY180 m) a b (-1) = .ok 0 :=
      fun a b => field_null eps (rotateY180 m) (not_lt.1 hs) a b _
    refine ⟨fun _ _ => (0, 0), ?_, ?_⟩
    · intro a b
      simp [getBField, h0, Outcome.bind]
    · simp [getBField, h1, Outcome.bind, turned]

theorem rotLoop_twice : ∀ (l : List (Cx K)) (e : Bool), rotLoop e (rotLoop e l) = l
  | [], _ => rfl
  | z :: l, e => by
    rw [rotLoop, rotLoop, rotLoop_twice l]
    cases e <;> simp

/-- C48: rotating twice restores the field. -/
theorem rotation_twice (m : MField K) : rotateY180 (rotateY180 m) = m := by
  obtain ⟨b, l⟩ := m
  simp only [rotateY180, rotLoop_twice]

/-- C48: rotating a bend twice restores it, and rotating it keeps the ratio of field on axis to curvature. -/
theorem bend_rotation {P : Type} (b : Bend K P) :
    b.rotateY180.rotateY180 = b ∧
      (coeff b.rotateY180.field.terms 0).re * b.h = (coeff b.field.terms 0).re * b.rotateY180.h ∧
      b.rotateY180.field.b0 = b.field.b0 := by
  obtain ⟨m, h, en, ex⟩ := b
  refine ⟨?_, ?_, rfl⟩
  · simp [Bend.rotateY180, rotation_twice]
  · have := coeff_rotLoop m.terms false 0
    have h0 : (coeff (rotateY180 m).terms 0).re = -(coeff m.terms 0).re := by
      show (coeff (rotLoop false m.terms) 0).re = _
      rw [this]
      simp [ofReal, conj]
    simp only [Bend.rotateY180, h0]
    ring

end

/-- C48 is violated: the vertical field of a dipole, unchanged by a rotation about the vertical axis, changes
sign. -/
theorem rotation_violated :
    let m : MField ℚ := ⟨1, [⟨1, 0⟩]⟩
    getBField (1/1000) m ⟨0, 0, 0⟩ = .ok ⟨0, 1, 0⟩ ∧ getBField (1/1000) (rotateY180 m) ⟨0, 0, 0⟩ = .ok ⟨0, -1, 0⟩ ∧
      turned (fun _ _ => ((0 : ℚ), (1 : ℚ))) 0 0 = (0, 1) := by
  decide +kernel

/-- A quadrupole: the gradient, which should change sign, does not. -/
example : getBField (1/1000) (rotateY180 ⟨1, [0, ⟨1, 0⟩]⟩) (⟨1, 0, 0⟩ : Vec ℚ) = .ok ⟨0, 1, 0⟩ := by decide +kernel

end Verif.Multipole
