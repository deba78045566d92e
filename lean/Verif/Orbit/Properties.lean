import Mathlib.Algebra.Order.BigOperators.Ring.Finset
import Mathlib.Tactic.Ring
import Mathlib.Tactic.FieldSimp
import Mathlib.Tactic.Linarith
import Mathlib.Tactic.NormNum
import Mathlib.Tactic.FinCases
import Mathlib.Data.Rat.Defs
import Mathlib.Algebra.Order.Ring.Rat
import Verif.Orbit.Model
import Verif.Orbit.Spec
import Verif.LU.Properties

/-!
# Properties: closed orbit, transfer matrix and dispersion (C175-C177)
-/

set_option linter.unusedSectionVars false

namespace Verif.Orbit

open Finset

section General

variable {K : Type} [Field K] [LinearOrder K] [IsStrictOrderedRing K]

/-! ## Sums -/

omit [LinearOrder K] [IsStrictOrderedRing K] in
theorem sum_front {n c : Nat} (hc : c ≤ n) (h : Fin n → K) (h0 : ∀ i : Fin n, c ≤ i.val → h i = 0) :
    ∑ j, h j = ∑ j : Fin c, h (Fin.castLE hc j) := by
  obtain ⟨k, rfl⟩ := Nat.exists_eq_add_of_le hc
  rw [Fin.sum_univ_add, show ∑ i : Fin k, h (Fin.natAdd c i) = 0 from sum_eq_zero fun i _ => h0 _ (by simp), add_zero]
  rfl

/-- The matrix of a turn less one, on the first `c` coordinates. -/
def lessOne {c : Nat} (hc : c ≤ 6) (r : Matrix (Fin 6) (Fin 6) K) : Matrix (Fin c) (Fin c) K := fun m k =>
  r (Fin.castLE hc m) (Fin.castLE hc k) - if m = k then 1 else 0

theorem quotient_linear {f : PS K → PS K} {r d} (hf : Spec.Linear f r d) {delta : K} (h : delta ≠ 0) (p : PS K) (m k : Fin 6) :
    quotient f delta p m k = r m k := by
  rw [quotient, hf, hf, add_sub_add_right_eq_sub, ← sum_sub_distrib, div_eq_iff h, sum_eq_single k]
  · simp only [shifted, if_true]; ring
  · intro b _ hb
    rw [shifted, if_neg (fun e => hb (Fin.ext e)), sub_self]
  · intro hk; exact absurd (mem_univ k) hk

theorem dg_linear {c : Nat} (hc : c ≤ 6) {f : PS K → PS K} {r d} (hf : Spec.Linear f r d) {delta : K} (h : delta ≠ 0) (p : PS K) :
    dg hc f delta p = lessOne hc r := by
  funext m k
  have := quotient_linear hf h p (Fin.castLE hc m) (Fin.castLE hc k)
  rw [dg, lessOne, ← this]
  rfl

theorem lessOne_apply {c : Nat} (hc : c ≤ 6) (r : Matrix (Fin 6) (Fin 6) K) (x : Fin c → K) (i : Fin c) :
    ∑ j, lessOne hc r i j * x j = ∑ j, r (Fin.castLE hc i) (Fin.castLE hc j) * x j - x i := by
  simp only [lessOne, sub_mul, sum_sub_distrib]
  congr 1
  rw [sum_eq_single i (fun b _ hb => by rw [if_neg (Ne.symm hb), zero_mul]) (fun h => absurd (mem_univ i) h), if_pos rfl, one_mul]

/-- Two particles which differ in the first `c` coordinates only. -/
theorem gap_diff {c : Nat} (hc : c ≤ 6) {f : PS K → PS K} {r d} (hf : Spec.Linear f r d) {p q : PS K} (h : Spec.SameRest c q p) (i : Fin c) :
    gap hc f p i - gap hc f q i = ∑ j, lessOne hc r i j * (p (Fin.castLE hc j) - q (Fin.castLE hc j)) := by
  rw [lessOne_apply hc r (fun j => p (Fin.castLE hc j) - q (Fin.castLE hc j)), gap, gap, hf, hf,
    ← sum_front hc (fun j => r (Fin.castLE hc i) j * (p j - q j)) (fun j hj => by rw [h j hj, sub_self, mul_zero])]
  simp only [mul_sub, sum_sub_distrib]
  ring

theorem same_correct {c : Nat} (p : PS K) (g : Fin c → K) : Spec.SameRest c (correct p g) p := fun i hi => by
  rw [correct, dif_neg (by omega)]

theorem closed_gap {c : Nat} (hc : c ≤ 6) (f : PS K → PS K) (p : PS K) : Spec.Closed c f p ↔ ∀ i, gap hc f p i = 0 := by
  constructor
  · intro h i
    rw [gap, h _ (by simp), sub_self]
  · intro h i hi
    have := h ⟨i, hi⟩
    exact sub_eq_zero.1 this

/-- A right hand side within reach is reached. -/
theorem least_exact {c : Nat} {a : Matrix (Fin c) (Fin c) K} {b x y : Fin c → K} (h : Spec.LeastSquares a b x)
    (hy : ∀ m, b m = ∑ j, a m j * y j) (m : Fin c) : ∑ j, a m j * x j = b m := by
  have h0 : ∑ m, (∑ j, a m j * x j - b m) * (∑ j, a m j * x j - b m) = 0 := by
    have e : ∀ m, (∑ j, a m j * x j - b m) * (∑ j, a m j * x j - b m) =
        ∑ k, (x k - y k) * (a m k * (∑ j, a m j * x j - b m)) := fun m => by
      have : (∑ j, a m j * x j - b m) = ∑ k, (x k - y k) * a m k := by
        rw [hy m, ← sum_sub_distrib]
        exact sum_congr rfl fun j _ => by ring
      calc _ = (∑ k, (x k - y k) * a m k) * (∑ j, a m j * x j - b m) := by rw [← this]
        _ = _ := by rw [sum_mul]; exact sum_congr rfl fun k _ => by ring
    simp only [e]
    rw [sum_comm]
    apply sum_eq_zero
    intro k _
    rw [← mul_sum, h k, mul_zero]
  have h1 := (sum_eq_zero_iff_of_nonneg (fun m _ => mul_self_nonneg (∑ j, a m j * x j - b m))).1 h0 m (mem_univ m)
  exact sub_eq_zero.1 (mul_self_eq_zero.1 h1)

/-- One pass in a linear lattice which has a closed orbit. -/
theorem pass_closed {c : Nat} (hc : c ≤ 6) {f : PS K → PS K} {r d} (hf : Spec.Linear f r d) {p q : PS K} (hq : Spec.Closed c f q)
    (hr : Spec.SameRest c q p) {x : Fin c → K} (hx : Spec.LeastSquares (lessOne hc r) (gap hc f p) x) :
    Spec.Closed c f (correct p x) := by
  have h1 : ∀ m, gap hc f p m = ∑ j, lessOne hc r m j * (p (Fin.castLE hc j) - q (Fin.castLE hc j)) := fun m => by
    rw [← gap_diff hc hf hr, (closed_gap hc f q).1 hq m, sub_zero]
  have h2 := least_exact hx h1
  rw [closed_gap hc]
  intro i
  have h3 := gap_diff hc hf (same_correct p x) i
  have h4 : ∀ j : Fin c, p (Fin.castLE hc j) - correct p x (Fin.castLE hc j) = x j := fun j => by
    simp [correct]
  simp only [h4] at h3
  rw [h2 i] at h3
  linarith

theorem same_trans {c : Nat} {p q s : PS K} (h1 : Spec.SameRest c p q) (h2 : Spec.SameRest c q s) : Spec.SameRest c p s :=
  fun i hi => (h1 i hi).trans (h2 i hi)

theorem same_symm {c : Nat} {p q : PS K} (h1 : Spec.SameRest c p q) : Spec.SameRest c q p := fun i hi => (h1 i hi).symm

/-- From a closed orbit all passes lead to closed orbits; if the solver answers zero to zero the first is the last. -/
theorem passes_closed {c : Nat} (hc : c ≤ 6) (solve : Solver K c) {f : PS K → PS K} {r d} (hf : Spec.Linear f r d) {delta : K}
    (hd : delta ≠ 0) (tol : K) (ht : 0 ≤ tol)
    (h0 : solve (lessOne hc r) (fun _ => 0) = .ok fun _ => 0) :
    ∀ (n : Nat) (s : State K), Spec.Closed c f s.p → ∃ s', passes hc solve f delta tol n s = .ok s' ∧ Spec.Closed c f s'.p ∧
      Spec.SameRest c s'.p s.p ∧ (0 < n → s'.w ≤ tol) ∧ s'.iter ≤ s.iter + 1
  | 0, s, h => ⟨s, rfl, h, fun _ _ => rfl, fun h => absurd h (lt_irrefl 0), Nat.le_succ _⟩
  | n + 1, s, h => by
    rw [passes]
    split
    · have hg : gap hc f s.p = fun _ => 0 := funext fun i => (closed_gap hc f s.p).1 h i
      have hp : pass hc solve f delta s = .ok ⟨correct s.p fun _ : Fin c => (0 : K), 0, s.iter + 1⟩ := by
        rw [pass, if_neg hd, dg_linear hc hf hd, hg, h0]
        simp [Outcome.bind]
      have hcor : correct s.p (fun _ : Fin c => (0 : K)) = s.p := by
        funext i; simp [correct]
      rw [hp, hcor]
      refine ⟨⟨s.p, 0, s.iter + 1⟩, ?_, h, fun _ _ => rfl, fun _ => ht, le_refl _⟩
      show passes hc solve f delta tol n ⟨s.p, 0, s.iter + 1⟩ = _
      cases n with
      | zero => rfl
      | succ n => rw [passes, if_neg (not_lt.2 ht)]
    · exact ⟨s, rfl, h, fun _ _ => rfl, fun _ => by linarith, Nat.le_succ _⟩

/-- C175: in a linear lattice which has a closed orbit (one or many) with the given values of the coordinates left out, the
routine finds one, keeps the coordinates left out and, given two passes, says so with `w`. -/
theorem linear_closed {c : Nat} (hc : c ≤ 6) (solve : Solver K c) {f : PS K → PS K} {r d} (hf : Spec.Linear f r d) {delta : K}
    (hd : delta ≠ 0) {tol : K} (ht : 0 ≤ tol) (ht1 : tol < 1) {maxIter : Nat} (hm : 2 ≤ maxIter)
    (hs : ∀ b, ∃ x, solve (lessOne hc r) b = .ok x ∧ Spec.LeastSquares (lessOne hc r) b x)
    (h0 : solve (lessOne hc r) (fun _ => 0) = .ok fun _ => 0) {p q : PS K} (hq : Spec.Closed c f q) (hr : Spec.SameRest c q p) :
    ∃ s, findOrbit hc solve f delta tol maxIter p = .ok s ∧ Spec.Closed c f s.p ∧ Spec.SameRest c s.p p ∧
      (3 ≤ maxIter → s.w ≤ tol) ∧ s.iter ≤ 3 := by
  obtain ⟨n, rfl⟩ : ∃ n, maxIter = n + 2 := ⟨maxIter - 2, by omega⟩
  obtain ⟨x, hx, hl⟩ := hs (gap hc f p)
  have hp : pass hc solve f delta ⟨p, 1, 1⟩ = .ok ⟨correct p x, ∑ i, x i * x i, 2⟩ := by
    rw [pass, if_neg hd]
    simp only [dg_linear hc hf hd, hx]
    rfl
  have h1 := pass_closed hc hf hq hr hl
  obtain ⟨s, e, h2, h3, h4, h5⟩ := passes_closed hc solve hf hd tol ht h0 n ⟨correct p x, ∑ i, x i * x i, 2⟩ h1
  refine ⟨s, ?_, h2, same_trans h3 (same_correct p x), fun h => h4 (by omega), h5⟩
  rw [findOrbit, show n + 2 - 1 = n + 1 from rfl, passes, if_pos ht1, hp]
  exact e

/-- C175: in any lattice, if the routine stops with `w` within the tolerance, then the result is a correction by at most
that much of a particle whose gap is at most the gradient times the correction. -/
theorem stop_partial {c : Nat} (hc : c ≤ 6) (solve : Solver K c) (f : PS K → PS K) (delta : K) {tol : K} (ht1 : tol < 1)
    (hs : ∀ a b x, solve a b = .ok x → ∀ m, ∑ j, a m j * x j = b m) {maxIter : Nat} {p : PS K} {s : State K}
    (h : findOrbit hc solve f delta tol maxIter p = .ok s) (hw : s.w ≤ tol) :
    ∃ (q : PS K) (x : Fin c → K), s.p = correct q x ∧ ∑ i, x i * x i = s.w ∧ Spec.SameRest c q p ∧
      ∑ i, (gap hc f q i) ^ 2 ≤ (∑ i, ∑ j, (dg hc f delta q i j) ^ 2) * tol := by
  have key : ∀ (n : Nat) (s0 : State K), tol < s0.w → Spec.SameRest c s0.p p → passes hc solve f delta tol n s0 = .ok s →
      ∃ (q : PS K) (x : Fin c → K), s.p = correct q x ∧ ∑ i, x i * x i = s.w ∧ Spec.SameRest c q p ∧
      ∑ i, (gap hc f q i) ^ 2 ≤ (∑ i, ∑ j, (dg hc f delta q i j) ^ 2) * tol := by
    intro n
    induction n with
    | zero =>
      intro s0 h1 _ h2
      rw [passes, Outcome.ok.injEq] at h2
      subst h2
      linarith
    | succ n ih =>
      intro s0 h1 hsr h2
      rw [passes, if_pos h1, pass] at h2
      split at h2
      · cases h2
      · cases hx : solve (dg hc f delta s0.p) (gap hc f s0.p) with
        | throw e => rw [hx] at h2; cases h2
        | ub => rw [hx] at h2; cases h2
        | ok x =>
          rw [hx] at h2
          simp only [Outcome.bind] at h2
          by_cases h3 : tol < ∑ i, x i * x i
          · exact ih _ h3 (same_trans (same_correct _ _) hsr) h2
          · have e : s = ⟨correct s0.p x, ∑ i, x i * x i, s0.iter + 1⟩ := by
              cases n with
              | zero => rw [passes, Outcome.ok.injEq] at h2; exact h2.symm
              | succ n => rw [passes, if_neg h3, Outcome.ok.injEq] at h2; exact h2.symm
            subst e
            refine ⟨s0.p, x, rfl, rfl, hsr, ?_⟩
            have hsol := hs _ _ _ hx
            rw [sum_mul]
            apply sum_le_sum
            intro i _
            rw [← hsol i]
            refine (sum_mul_sq_le_sq_mul_sq univ (fun j => dg hc f delta s0.p i j) x).trans ?_
            apply mul_le_mul_of_nonneg_left _ (sum_nonneg fun j _ => sq_nonneg _)
            have : ∑ i, x i ^ 2 = ∑ i, x i * x i := sum_congr rfl fun i _ => sq _
            rw [this]
            exact hw
  exact key _ _ ht1 (fun _ _ => rfl) h

/-- C175: with a limit of one pass nothing is done, while `iter` says one. -/
theorem count_violated {c : Nat} (hc : c ≤ 6) (solve : Solver K c) (f : PS K → PS K) (delta tol : K) (p : PS K) :
    findOrbit hc solve f delta tol 1 p = .ok ⟨p, 1, 1⟩ := rfl

/-! ## C176 -/

/-- C176: in a linear lattice the matrix is exact, whatever the orbit and the step. -/
theorem tm_linear {f : PS K → PS K} {r d} (hf : Spec.Linear f r d) {delta : K} (h : delta ≠ 0) (orbit : PS K) :
    findTM f delta orbit = .ok r := by
  rw [findTM, if_neg h]
  congr 1
  funext m k
  exact quotient_linear hf h orbit m k

/-- C176: in a lattice of second order the error is the step times the second order. -/
theorem tm_quadratic (f : PS K → PS K) (a b : Matrix (Fin 6) (Fin 6) K) (orbit : PS K)
    (hf : ∀ (k : Fin 6) (x : K) (m : Fin 6), f (fun i => if i = k then orbit i + x else orbit i) m = f orbit m + x * a m k + x ^ 2 * b m k)
    {delta : K} (h : delta ≠ 0) : findTM f delta orbit = .ok fun m k => a m k + delta * b m k := by
  rw [findTM, if_neg h]
  congr 1
  funext m k
  have e : shifted delta orbit k.val = fun i => if i = k then orbit i + delta else orbit i := by
    funext i; simp only [shifted, Fin.ext_iff]
  rw [quotient, e, hf]
  field_simp
  ring

omit [IsStrictOrderedRing K] in
/-- After any calls: `radstepsize` has no value unless a call gave it one, and a value other than zero goes with zero
steps. -/
theorem calls_inv (cs : List (Call K)) (t : TM K) (h : ∀ x, t.radstepsize = some x → x ≠ 0 → t.radnumsteps = some 0) :
    (∀ x, (cs.foldl TM.call t).radstepsize = some x → x ≠ 0 → (cs.foldl TM.call t).radnumsteps = some 0) ∧
    ((cs.foldl TM.call t).radstepsize = none ↔
      t.radstepsize = none ∧ ∀ c ∈ cs, (∃ x, c = .delta x) ∨ c = .radiation false) := by
  induction cs generalizing t with
  | nil => exact ⟨h, by simp⟩
  | cons c cs ih =>
    rw [List.foldl_cons]
    have key : (∀ x, (t.call c).radstepsize = some x → x ≠ 0 → (t.call c).radnumsteps = some 0) ∧
        ((t.call c).radstepsize = none ↔ t.radstepsize = none ∧ ((∃ x, c = .delta x) ∨ c = .radiation false)) := by
      cases c with
      | radiation b =>
        cases b
        · exact ⟨h, by simp [TM.call, TM.setRadiation]⟩
        · refine ⟨?_, by simp [TM.call, TM.setRadiation, TM.setNum]⟩
          intro x hx h0
          simp only [TM.call, TM.setRadiation, TM.setNum, if_true, Option.some.injEq] at hx
          exact absurd hx.symm h0
      | step x => exact ⟨fun _ _ _ => rfl, by simp [TM.call, TM.setStep]⟩
      | num n =>
        refine ⟨?_, by simp [TM.call, TM.setNum]⟩
        intro x hx h0
        simp only [TM.call, TM.setNum, Option.some.injEq] at hx
        exact absurd hx.symm h0
      | delta x => exact ⟨h, by simp [TM.call, TM.setDelta]⟩
    obtain ⟨i1, i2⟩ := ih (t.call c) key.1
    refine ⟨i1, i2.trans ?_⟩
    rw [key.2]
    simp only [List.mem_cons, forall_eq_or_imp, and_assoc]

/-- C176: the closed orbit below the matrix is undefined exactly if no call has given the size or the number of the steps of
radiation (even without radiation); otherwise it is sought with the settings of the matrix. -/
theorem settings_partial (cs : List (Call K)) :
    ((cs.foldl TM.call TM.new).orbit = .ub ↔ ∀ c ∈ cs, (∃ x, c = .delta x) ∨ c = .radiation false) ∧
    ∀ o, (cs.foldl TM.call TM.new).orbit = .ok o → o.radiation = (cs.foldl TM.call TM.new).radiation ∧
      o.radstepsize = (cs.foldl TM.call TM.new).radstepsize ∧ o.radnumsteps = (cs.foldl TM.call TM.new).radnumsteps ∧
      o.bendscale = (cs.foldl TM.call TM.new).bendscale := by
  obtain ⟨h1, h2⟩ := calls_inv cs (TM.new : TM K) (fun x hx => by cases hx)
  generalize cs.foldl TM.call (TM.new : TM K) = t at h1 h2 ⊢
  rw [show ((TM.new : TM K).radstepsize = none) = True from by simp [TM.new], true_and] at h2
  rw [← h2, TM.orbit]
  cases ht : t.radstepsize with
  | none => exact ⟨by simp, fun o ho => by cases ho⟩
  | some x =>
    refine ⟨?_, ?_⟩
    · simp only [reduceCtorEq, iff_false]
      split <;> exact fun h => by cases h
    · intro o ho
      simp only at ho
      split at ho
      · rename_i h0
        injection ho with ho
        subst ho; subst h0
        exact ⟨rfl, rfl, rfl, rfl⟩
      · rename_i h0
        injection ho with ho
        subst ho
        exact ⟨rfl, rfl, (h1 x ht h0).symm, rfl⟩

omit [IsStrictOrderedRing K] in
/-- C176: without radiation `FindTM(M)` reads a number which was never set. -/
theorem unset_violated (solve : Solver K 6) (track : Bool → Option K → Option Int → K → PS K → PS K) (tol : K) (maxIter : Nat) :
    (TM.new : TM K).find solve track tol maxIter = .ub := rfl

omit [IsStrictOrderedRing K] in
/-- C176: the step set by `SetDelta` does not reach the closed orbit. -/
theorem delta_violated (t : TM K) (x : K) (o : COSettings K) (h : (t.setDelta x).orbit = .ok o) : o.delta = 1 / 1000000000 := by
  rw [TM.orbit] at h
  split at h
  · cases h
  · split at h <;> (injection h with h; subst h; rfl)

/-- C176: with the numbers set, `FindTM(M)` is exact in a linear lattice if the solver always answers. -/
theorem find_linear (t : TM K) (o : COSettings K) (ho : t.orbit = .ok o) (solve : Solver K 6)
    (track : Bool → Option K → Option Int → K → PS K → PS K) {r d}
    (hf : Spec.Linear (track t.radiation t.radstepsize t.radnumsteps t.bendscale) r d) (hd : t.delta ≠ 0) (tol : K) (maxIter : Nat)
    (hs : ∀ a b, ∃ x, solve a b = .ok x) : t.find solve track tol maxIter = .ok r := by
  have hp : ∀ (n : Nat) (f : PS K → PS K) (dl : K), dl ≠ 0 → ∀ s : State K, ∃ s', passes (le_refl 6) solve f dl tol n s = .ok s' := by
    intro n f dl hdl
    induction n with
    | zero => exact fun s => ⟨s, rfl⟩
    | succ n ih =>
      intro s
      rw [passes]
      split
      · obtain ⟨x, hx⟩ := hs (dg (le_refl 6) f dl s.p) (gap (le_refl 6) f s.p)
        rw [pass, if_neg hdl, hx]
        exact ih _
      · exact ⟨s, rfl⟩
  have hod : o.delta ≠ 0 := by
    rw [delta_violated t t.delta o (by simpa [TM.setDelta] using ho)]
    norm_num
  obtain ⟨s, e⟩ := hp (maxIter - 1) (track o.radiation o.radstepsize o.radnumsteps o.bendscale) o.delta hod ⟨fun _ => 0, 1, 1⟩
  rw [TM.find, ho]
  show (findOrbit (le_refl 6) solve (track o.radiation o.radstepsize o.radnumsteps o.bendscale) o.delta tol maxIter
    (fun _ => 0)).bind _ = _
  rw [findOrbit, e]
  exact tm_linear hf hd s.p

/-! ## C177 -/

/-- C177: in a linear lattice with a closed orbit and a dispersion the routine finds a dispersion which repeats itself. -/
theorem dispersion_linear (solve : Solver K 4) {f : PS K → PS K} {r d} (hf : Spec.Linear f r d) {step : K} (hst : step ≠ 0)
    {tol : K} (ht : 0 ≤ tol) (ht1 : tol < 1) {maxIter : Nat} (hm : 2 ≤ maxIter)
    (hs : ∀ b, ∃ x, solve (lessOne (by decide) r) b = .ok x ∧ Spec.LeastSquares (lessOne (by decide) r) b x)
    (h0 : solve (lessOne (by decide) r) (fun _ => 0) = .ok fun _ => 0) {delta : K} (hd : delta ≠ 0) {q : PS K} (hq : Spec.Closed 4 f q)
    (hq4 : q 4 = 0) (hq5 : q 5 = 0) {D : Fin 4 → K} (hD : Spec.Periodic r D) :
    ∃ D', findDispersion solve f step tol maxIter delta = .ok D' ∧ Spec.Periodic r D' := by
  have orbit : ∀ x : K, ∃ s, findOrbit (c := 4) (by decide) solve f step tol maxIter (atDp x) = .ok s ∧ Spec.Closed 4 f s.p ∧
      Spec.SameRest 4 s.p (atDp x) := by
    intro x
    have hc : Spec.Closed 4 f (fun i => if h : i.val < 4 then q i + x * D ⟨i.val, h⟩ else atDp x i) := by
      intro i hi
      have h1 := hq i hi
      rw [hf] at h1 ⊢
      rw [Fin.sum_univ_six] at h1 ⊢
      have h2 := hD ⟨i.val, hi⟩
      rw [Fin.sum_univ_four] at h2
      rw [hq4, hq5] at h1
      have e0 : (Fin.castLE (by decide : 4 ≤ 6) ⟨i.val, hi⟩ : Fin 6) = i := rfl
      have c0 : (Fin.castLE (by decide : 4 ≤ 6) (0 : Fin 4) : Fin 6) = 0 := rfl
      have c1 : (Fin.castLE (by decide : 4 ≤ 6) (1 : Fin 4) : Fin 6) = 1 := rfl
      have c2 : (Fin.castLE (by decide : 4 ≤ 6) (2 : Fin 4) : Fin 6) = 2 := rfl
      have c3 : (Fin.castLE (by decide : 4 ≤ 6) (3 : Fin 4) : Fin 6) = 3 := rfl
      rw [e0, c0, c1, c2, c3] at h2
      rw [dif_pos (by decide), dif_pos (by decide), dif_pos (by decide), dif_pos (by decide), dif_neg (by decide),
        dif_neg (by decide)]
      beta_reduce
      rw [dif_pos hi]
      have a4 : (atDp x : PS K) 4 = 0 := by simp [atDp]
      have a5 : (atDp x : PS K) 5 = x := by simp [atDp]
      rw [a4, a5]
      show r i 0 * (q 0 + x * D 0) + r i 1 * (q 1 + x * D 1) + r i 2 * (q 2 + x * D 2) + r i 3 * (q 3 + x * D 3) + r i 4 * 0 +
        r i 5 * x + d i = q i + x * D ⟨i.val, hi⟩
      rw [← h2, ← h1]
      ring
    have hr : Spec.SameRest 4 (fun i => if h : i.val < 4 then q i + x * D ⟨i.val, h⟩ else atDp x i) (atDp x) := fun i hi => by
      simp only
      rw [dif_neg (by omega)]
    obtain ⟨s, e, h1, h2, _⟩ := linear_closed (by decide) solve hf hst ht ht1 hm hs h0 hc hr
    exact ⟨s, e, h1, h2⟩
  obtain ⟨sp, ep, cp, rp⟩ := orbit (-delta)
  obtain ⟨sq, eq, cq, rq⟩ := orbit delta
  refine ⟨_, by rw [findDispersion, ep]; simp only [Outcome.bind]; rw [eq]; simp only; rw [if_neg hd], ?_⟩
  intro i
  have h1 := cp (Fin.castLE (by decide) i) (by simp)
  have h2 := cq (Fin.castLE (by decide) i) (by simp)
  rw [hf, Fin.sum_univ_six] at h1 h2
  have p4 : sp.p 4 = 0 := (rp 4 (by decide)).trans (by simp [atDp])
  have p5 : sp.p 5 = -delta := (rp 5 (by decide)).trans (by simp [atDp])
  have q4 : sq.p 4 = 0 := (rq 4 (by decide)).trans (by simp [atDp])
  have q5 : sq.p 5 = delta := (rq 5 (by decide)).trans (by simp [atDp])
  rw [p4, p5] at h1
  rw [q4, q5] at h2
  rw [Fin.sum_univ_four]
  have c0 : (Fin.castLE (by decide : 4 ≤ 6) (0 : Fin 4) : Fin 6) = 0 := rfl
  have c1 : (Fin.castLE (by decide : 4 ≤ 6) (1 : Fin 4) : Fin 6) = 1 := rfl
  have c2 : (Fin.castLE (by decide : 4 ≤ 6) (2 : Fin 4) : Fin 6) = 2 := rfl
  have c3 : (Fin.castLE (by decide : 4 ≤ 6) (3 : Fin 4) : Fin 6) = 3 := rfl
  simp only [c0, c1, c2, c3]
  rw [← h1, ← h2]
  field_simp
  ring

/-- The sum of the squares of the jumps. -/
def jumps : K → List (K × K) → K
  | _, [] => 0
  | a, (l, b) :: r => l * (b - a) ^ 2 / 12 + jumps b r

theorem orbitSums_eq (a : K) (l : List (K × K)) :
    (orbitSums a l).1 + jumps a l = Spec.squareIntegral a l ∧ (orbitSums a l).2 = Spec.total l := by
  induction l generalizing a with
  | nil => simp [orbitSums, jumps, Spec.squareIntegral, Spec.total]
  | cons x l ih =>
    obtain ⟨dl, b⟩ := x
    obtain ⟨h1, h2⟩ := ih b
    refine ⟨?_, ?_⟩
    · rw [orbitSums, jumps, Spec.squareIntegral, ← h1]
      ring
    · rw [orbitSums, Spec.total, List.map_cons, List.sum_cons]
      simp only
      rw [h2]
      rfl

/-- C177: the RMS orbit is that of an orbit which is constant within each component; for an orbit linear within the
components it is short by a twelfth of the squares of the jumps. -/
theorem rms_orbit (x0 : K) (l : List (K × K)) (v : K) (h : rmsOrbit x0 l = .ok v) :
    Spec.total l ≠ 0 ∧ v * Spec.total l + jumps x0 l = Spec.squareIntegral x0 l := by
  rw [rmsOrbit] at h
  obtain ⟨h1, h2⟩ := orbitSums_eq x0 l
  split at h
  · cases h
  · rename_i hn
    injection h with h
    rw [← h, ← h2, div_mul_cancel₀ _ hn]
    exact ⟨hn, h1⟩

/-- C177: a constant orbit is its own RMS. -/
theorem rms_orbit_constant (a : K) (ls : List K) (h : (ls.map fun l => (l, a)).map (·.1) ≠ [] → ls.sum ≠ 0) (h1 : ls ≠ []) :
    rmsOrbit a (ls.map fun l => (l, a)) = .ok (a ^ 2) := by
  have e : ∀ ls : List K, orbitSums a (ls.map fun l => (l, a)) = (ls.sum * a ^ 2, ls.sum) := by
    intro ls
    induction ls with
    | nil => simp [orbitSums]
    | cons l ls ih =>
      rw [List.map_cons, orbitSums, ih, List.sum_cons]
      simp only [Prod.mk.injEq, and_true]
      ring
  have hn : ls.sum ≠ 0 := h (by simpa using h1)
  rw [rmsOrbit, e]
  simp only
  rw [if_neg hn, mul_comm, mul_div_assoc, div_self hn, mul_one]

/-- The dispersions behind the components. -/
def behind (delta : K) (l : List (K × K × K)) : List (K × K) := l.map fun x => (x.1, (x.2.2 - x.2.1) / 2 / delta)

theorem dispersionSums_eq (delta prev : K) (l : List (K × K × K)) :
    dispersionSums delta prev l = (Spec.trapezia prev (behind delta l), Spec.total (behind delta l)) := by
  induction l generalizing prev with
  | nil => simp [dispersionSums, behind, Spec.trapezia, Spec.total]
  | cons x l ih =>
    obtain ⟨dl, a, b⟩ := x
    rw [dispersionSums]
    rw [ih]
    simp only [behind, List.map_cons, Spec.trapezia, Spec.total, List.sum_cons, Prod.mk.injEq, and_true]
    ring

/-- C177: the RMS dispersion is that of the trapezia except that the first component is taken to begin with none: half the
square of the dispersion at the start, `d0`, times the length of the first component is missing. -/
theorem rms_dispersion_partial (delta d0 : K) (x : K × K × K) (l : List (K × K × K)) (v : K)
    (h : rmsDispersion delta (x :: l) = .ok v) :
    v * Spec.total (behind delta (x :: l)) + x.1 * d0 ^ 2 / 2 = Spec.trapezia d0 (behind delta (x :: l)) := by
  rw [rmsDispersion, dispersionSums_eq] at h
  simp only at h
  split at h
  · cases h
  · rename_i hn
    injection h with h
    rw [← h, div_mul_cancel₀ _ (fun e => hn (Or.inr e))]
    simp only [behind, List.map_cons, Spec.trapezia]
    ring

omit [LinearOrder K] [IsStrictOrderedRing K] in
/-- C177: a line of the file has the place before the component and the dispersion behind it. -/
theorem rows_partial (delta len : K) (l : List (K × K × K)) (i : Nat) (h : i < l.length) :
    (dispersionRows delta len l)[i]? =
      some (len + ((l.take i).map (·.1)).sum, (l[i].2.2 - l[i].2.1) / 2 / delta) := by
  induction l generalizing len i with
  | nil => simp at h
  | cons x l ih =>
    obtain ⟨dl, a, b⟩ := x
    cases i with
    | zero => simp [dispersionRows]
    | succ i =>
      rw [dispersionRows, List.getElem?_cons_succ, ih (len + dl) i (by simpa using h)]
      simp [add_assoc]

end General


/-! ## Examples and violations -/

/-- The coordinates x, x', y, y', ct change sign and the energy falls with every turn. -/
def lossy : PS ℚ → PS ℚ := fun p i => if i = 5 then p 5 - 1 / 1000 else - p i

/-- What the solver answers: the matrix less one is `-1` times the weights 2, 2, 2, 2, 2, 0. -/
def lossySolve : Solver ℚ 6 := fun _ b => .ok (LU.svdSolve (-1) ![2, 2, 2, 2, 2, 0] 1 b)

theorem lossy_linear : Spec.Linear lossy (Matrix.diagonal ![-1, -1, -1, -1, -1, 1]) ![0, 0, 0, 0, 0, -1 / 1000] := by
  intro p i
  fin_cases i <;> simp [lossy, Fin.sum_univ_six, Matrix.diagonal, sub_eq_add_neg] <;> norm_num

theorem lossy_less : lessOne (le_refl 6) (Matrix.diagonal ![-1, -1, -1, -1, -1, 1]) =
    (-1 : Matrix (Fin 6) (Fin 6) ℚ) * Matrix.diagonal ![2, 2, 2, 2, 2, 0] * (1 : Matrix (Fin 6) (Fin 6) ℚ).transpose := by
  rw [Matrix.transpose_one, Matrix.mul_one, neg_one_mul]
  funext m k
  rw [lessOne, Matrix.neg_apply, Matrix.diagonal_apply, Matrix.diagonal_apply]
  by_cases h : m = k
  · subst h
    rw [if_pos rfl, if_pos rfl, if_pos rfl]
    fin_cases m <;> norm_num
  · rw [if_neg (by simpa using h), if_neg h, if_neg h]
    norm_num

theorem lossySolve_eq (a : Matrix (Fin 6) (Fin 6) ℚ) (b : Fin 6 → ℚ) :
    lossySolve a b = .ok ![-b 0 / 2, -b 1 / 2, -b 2 / 2, -b 3 / 2, -b 4 / 2, 0] := by
  rw [lossySolve]
  congr 1
  funext i
  rw [LU.svdSolve, Matrix.one_mulVec, Matrix.transpose_neg, Matrix.transpose_one, Matrix.neg_mulVec, Matrix.one_mulVec]
  fin_cases i <;> simp

theorem passes_go {c : Nat} (hc : c ≤ 6) (solve : Solver ℚ c) (f : PS ℚ → PS ℚ) (delta tol : ℚ) (n : Nat) {s s' : State ℚ} (h : tol < s.w)
    (hp : pass hc solve f delta s = .ok s') : passes hc solve f delta tol (n + 1) s = passes hc solve f delta tol n s' := by
  rw [passes, if_pos h, hp]
  rfl

theorem passes_stop {c : Nat} (hc : c ≤ 6) (solve : Solver ℚ c) (f : PS ℚ → PS ℚ) (delta tol : ℚ) (n : Nat) {s : State ℚ} (h : ¬ tol < s.w) :
    passes hc solve f delta tol (n + 1) s = .ok s := by
  rw [passes, if_neg h]

/-- C175: particles which lose energy with no cavity have no closed orbit, yet the routine ends with `w = 0`. -/
theorem lossy_violated : (∀ p, ¬ Spec.Closed 6 lossy p) ∧
    ∃ s, findOrbit (le_refl 6) lossySolve lossy (1 / 1000000000) (1 / 10 ^ 26) 20 (fun _ => 1) = .ok s ∧ s.w = 0 ∧ s.iter = 3 ∧
      lossy s.p 5 ≠ s.p 5 := by
  refine ⟨fun p h => ?_, ?_⟩
  · have := h 5 (by decide)
    simp [lossy] at this
  · have hp : ∀ s : State ℚ, pass (le_refl 6) lossySolve lossy (1 / 1000000000) s =
        .ok ⟨fun i => if i = 5 then s.p 5 else 0, s.p 0 ^ 2 + s.p 1 ^ 2 + s.p 2 ^ 2 + s.p 3 ^ 2 + s.p 4 ^ 2, s.iter + 1⟩ := by
      intro s
      rw [pass, if_neg (by norm_num), lossySolve_eq]
      simp only [Outcome.bind, Outcome.ok.injEq, State.mk.injEq, and_true]
      refine ⟨?_, ?_⟩
      · funext i
        fin_cases i <;> simp [correct, gap, lossy] <;> ring
      · rw [Fin.sum_univ_six]
        simp [gap, lossy]
        ring
    refine ⟨⟨fun i => if i = 5 then 1 else 0, 0, 3⟩, ?_, rfl, rfl, by simp [lossy]⟩
    have z : ∀ j : Fin 6, j ≠ 5 → (if j = 5 then (1 : ℚ) else 0) = 0 := fun j hj => if_neg hj
    have e1 := hp ⟨fun _ => 1, 1, 1⟩
    have e2 := hp ⟨fun i => if i = 5 then 1 else 0, 1 ^ 2 + 1 ^ 2 + 1 ^ 2 + 1 ^ 2 + 1 ^ 2, 2⟩
    simp only [if_true, z 0 (by decide), z 1 (by decide), z 2 (by decide), z 3 (by decide), z 4 (by decide)] at e2
    rw [show ((0 : ℚ) ^ 2 + 0 ^ 2 + 0 ^ 2 + 0 ^ 2 + 0 ^ 2) = 0 from by norm_num] at e2
    rw [findOrbit, show 20 - 1 = 17 + 1 + 1 from rfl, passes_go _ _ _ _ _ _ (by norm_num) e1, passes_go _ _ _ _ _ _ (by norm_num) e2,
      show 17 = 16 + 1 from rfl, passes_stop _ _ _ _ _ _ (by norm_num)]

/-- The same with no loss: `linear_closed` applies, the energy being free. -/
def turn : PS ℚ → PS ℚ := fun p i => if i = 5 then p 5 else 1 - p i

theorem turn_linear : Spec.Linear turn (Matrix.diagonal ![-1, -1, -1, -1, -1, 1]) ![1, 1, 1, 1, 1, 0] := by
  intro p i
  fin_cases i <;> simp [turn, Fin.sum_univ_six, Matrix.diagonal, sub_eq_add_neg, add_comm]

theorem lossy_least (b : Fin 6 → ℚ) : Spec.LeastSquares (lessOne (le_refl 6) (Matrix.diagonal ![-1, -1, -1, -1, -1, 1])) b
    ![-b 0 / 2, -b 1 / 2, -b 2 / 2, -b 3 / 2, -b 4 / 2, 0] := by
  have e : lessOne (le_refl 6) (Matrix.diagonal ![-1, -1, -1, -1, -1, 1]) = Matrix.diagonal ![(-2 : ℚ), -2, -2, -2, -2, 0] := by
    funext m k
    rw [lessOne, Matrix.diagonal_apply, Matrix.diagonal_apply]
    by_cases h : m = k
    · subst h
      rw [if_pos rfl, if_pos rfl, if_pos rfl]
      fin_cases m <;> norm_num
    · rw [if_neg (by simpa using h), if_neg h, if_neg h]
      norm_num
  rw [e]
  intro k
  rw [sum_eq_single k (fun m _ hm => by rw [Matrix.diagonal_apply, if_neg hm, zero_mul]) (fun h => absurd (mem_univ k) h),
    sum_eq_single k (fun m _ hm => by rw [Matrix.diagonal_apply, if_neg (Ne.symm hm), zero_mul]) (fun h => absurd (mem_univ k) h),
    Matrix.diagonal_apply, if_pos rfl]
  fin_cases k <;> simp <;> ring_nf <;> simp

example : ∃ s, findOrbit (le_refl 6) lossySolve turn (1 / 1000000000) (1 / 10 ^ 26) 20 (fun _ => 3) = .ok s ∧
    Spec.Closed 6 turn s.p ∧ Spec.SameRest 6 s.p (fun _ => 3) ∧ (3 ≤ 20 → s.w ≤ 1 / 10 ^ 26) ∧ s.iter ≤ 3 :=
  linear_closed (le_refl 6) lossySolve turn_linear (by norm_num) (by norm_num) (by norm_num) (by decide)
    (fun b => ⟨_, lossySolve_eq _ b, lossy_least b⟩)
    (by rw [lossySolve_eq]; congr 1; funext i; fin_cases i <;> simp) (q := ![1 / 2, 1 / 2, 1 / 2, 1 / 2, 1 / 2, 3])
    (by intro i _; fin_cases i <;> simp [turn] <;> norm_num) (fun i hi => absurd i.isLt (by omega))

/-- `stop_partial` applies: the solver divides by minus two where the matrix does. -/
example : ∃ s, findOrbit (c := 4) (by decide) (fun a b => if a = -2 then .ok fun i => - b i / 2 else .throw .allZero) turn (1 / 1000) (1 / 10)
    20 (fun _ => 1 / 2) = .ok s ∧ s.w ≤ 1 / 10 := by
  have hd : ∀ p, dg (c := 4) (by decide) turn (1 / 1000) p = -2 := by
    intro p
    rw [dg_linear _ turn_linear (by norm_num)]
    funext m k
    fin_cases m <;> fin_cases k <;> simp [lessOne, Matrix.diagonal, Matrix.ofNat_apply] <;> norm_num
  refine ⟨⟨fun _ => 1 / 2, 0, 2⟩, ?_, by norm_num⟩
  have hp : pass (c := 4) (by decide) (fun a b => if a = -2 then .ok fun i => - b i / 2 else .throw .allZero) turn (1 / 1000)
      ⟨fun _ => 1 / 2, 1, 1⟩ = .ok ⟨fun _ => 1 / 2, 0, 2⟩ := by
    rw [pass, if_neg (by norm_num), hd, if_pos rfl]
    simp only [Outcome.bind, Outcome.ok.injEq, State.mk.injEq, and_true]
    refine ⟨?_, ?_⟩
    · funext i
      fin_cases i <;> simp [correct, gap, turn] <;> norm_num
    · rw [Fin.sum_univ_four]; simp [gap, turn]; norm_num
  rw [findOrbit, show 20 - 1 = 17 + 1 + 1 from rfl, passes_go _ _ _ _ _ _ (by norm_num) hp, passes_stop _ _ _ _ _ _ (by norm_num)]

example (a : Matrix (Fin 4) (Fin 4) ℚ) : ∀ (v x : Fin 4 → ℚ), (if a = -2 then .ok fun i => - v i / 2 else .throw .allZero : Outcome Err _) =
    .ok x → ∀ m, ∑ j, a m j * x j = v m := by
  intro v x h m
  split at h
  · rename_i ha
    injection h with h
    subst h; subst ha
    fin_cases m <;> simp [Fin.sum_univ_four, Matrix.ofNat_apply] <;> ring
  · cases h

example : findTM turn (1 / 1000000000) (fun _ => 7) = .ok (Matrix.diagonal ![-1, -1, -1, -1, -1, 1]) :=
  tm_linear turn_linear (by norm_num) _

/-- A sextupole kick. -/
def sextupole : PS ℚ → PS ℚ := fun p i => if i = 1 then p 1 + 3 * p 0 ^ 2 else p i

example : findTM sextupole (1 / 100) (fun _ => 2) =
    .ok fun m k => (if m = k then 1 else if m = 1 ∧ k = 0 then 12 else 0) + 1 / 100 * (if m = 1 ∧ k = 0 then 3 else 0) :=
  tm_quadratic sextupole (fun m k => if m = k then 1 else if m = 1 ∧ k = 0 then 12 else 0) (fun m k => if m = 1 ∧ k = 0 then 3 else 0)
    (fun _ => 2) (by
      intro k x m
      fin_cases k <;> fin_cases m <;> simp [sextupole] <;> ring) (by norm_num)

example : ((((TM.new : TM ℚ).call (.radiation true)).call (.delta 2)).call (.radiation false)).orbit =
    .ok ⟨false, some 0, some 1, 1 / 1000000000, 0⟩ := by
  simp [TM.call, TM.setRadiation, TM.setNum, TM.setDelta, TM.new, TM.orbit]

example (tol : ℚ) (n : Nat) : ((TM.new : TM ℚ).call (.radiation true)).find lossySolve (fun _ _ _ _ => turn) tol n =
    .ok (Matrix.diagonal ![-1, -1, -1, -1, -1, 1]) :=
  find_linear _ ⟨true, some 0, some 1, 1 / 1000000000, 0⟩
    (by simp [TM.call, TM.setRadiation, TM.setNum, TM.new, TM.orbit]) _ _ turn_linear
    (by simp [TM.call, TM.setRadiation, TM.setNum, TM.new]) _ _ fun _ b => ⟨_, lossySolve_eq _ b⟩

/-- A lattice with dispersion: x goes to minus x with four times dp, whence a dispersion of two. -/
def bent : PS ℚ → PS ℚ := fun p i => if i = 5 then p 5 else if i = 0 then - p 0 + 4 * p 5 else - p i

def bentMatrix : Matrix (Fin 6) (Fin 6) ℚ := fun i j => if i = 0 ∧ j = 5 then 4 else Matrix.diagonal ![-1, -1, -1, -1, -1, 1] i j

theorem bent_linear : Spec.Linear bent bentMatrix (fun _ => 0) := by
  intro p i
  fin_cases i <;> simp [bent, Fin.sum_univ_six, bentMatrix, Matrix.diagonal]

example : ∃ D', findDispersion (fun _ b => .ok fun i => - b i / 2) bent (1 / 1000) (1 / 10 ^ 26) 20 (1 / 1000000) = .ok D' ∧
    Spec.Periodic bentMatrix D' :=
  dispersion_linear _ bent_linear (by norm_num) (by norm_num) (by norm_num) (by decide)
    (fun b => ⟨_, rfl, by
      intro k
      fin_cases k <;> simp [Fin.sum_univ_four, lessOne, bentMatrix, Matrix.diagonal] <;> ring_nf <;> simp⟩)
    (by simp) (by norm_num) (q := fun _ => 0) (by intro i _; fin_cases i <;> simp [bent]) rfl rfl (D := ![2, 0, 0, 0])
    (by intro i; fin_cases i <;> simp [Fin.sum_univ_four, bentMatrix, Matrix.diagonal] <;> norm_num)

example : rmsOrbit (1 : ℚ) [(2, 3), (1, 5)] = .ok 8 := by
  rw [rmsOrbit]; norm_num [orbitSums]

example : rmsOrbit (3 : ℚ) ([1, 2].map fun l => (l, 3)) = .ok (3 ^ 2) :=
  rms_orbit_constant 3 [1, 2] (by norm_num) (by simp)

/-- C177: with the dispersion one everywhere (one component of length one) the RMS dispersion is the root of a half. -/
theorem rms_dispersion_violated : rmsDispersion (1 / 1000 : ℚ) [(1, -1 / 1000, 1 / 1000)] = .ok (1 / 2) := by
  rw [rmsDispersion]; norm_num [dispersionSums]

/-- C177: the dispersion behind a component of length three is written at the place zero. -/
theorem rows_violated : dispersionRows (1 / 1000 : ℚ) 0 [(3, -1 / 1000, 1 / 1000), (2, -2 / 1000, 2 / 1000)] = [(0, 1), (3, 2)] := by
  norm_num [dispersionRows]

end Verif.Orbit
