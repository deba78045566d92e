import Verif.Equilibrium.Model
import Verif.Equilibrium.Spec
import Verif.Transport.Model
import Mathlib.Analysis.Calculus.ContDiff.Basic
import Mathlib.Analysis.SpecialFunctions.Pow.Real
import Mathlib.Analysis.SpecialFunctions.Trigonometric.Deriv

/-!
# Properties C187-C192: equilibrium distribution
-/

namespace Verif.Equilibrium

open Verif

/-! ## C187: integration -/

theorem samples_sum (f : ℝ → ℝ) (delta : ℝ) : ∀ (c : Nat) (x sum : ℝ),
    samples f delta c x sum = sum + ∑ k ∈ Finset.range c, f (x + k * delta)
  | 0, x, sum => by simp [samples]
  | c + 1, x, sum => by
    rw [samples, samples_sum f delta c, Finset.sum_range_succ', add_assoc]
    simp only [Nat.cast_zero, zero_mul, add_zero, Nat.cast_add, Nat.cast_one]
    congr 1
    rw [add_comm]
    congr 1
    refine Finset.sum_congr rfl fun k _ => ?_
    congr 1
    ring

theorem sum_two (g : Nat → ℝ) : ∀ m, ∑ k ∈ Finset.range (2 * m + 1), g k =
    ∑ k ∈ Finset.range (m + 1), g (2 * k) + ∑ k ∈ Finset.range m, g (2 * k + 1)
  | 0 => by simp
  | m + 1 => by
    rw [show 2 * (m + 1) + 1 = 2 * m + 1 + 1 + 1 by ring, Finset.sum_range_succ, Finset.sum_range_succ, sum_two g m,
      Finset.sum_range_succ (fun k => g (2 * k)) (m + 1), Finset.sum_range_succ (fun k => g (2 * k + 1)) m, show 2 * m + 1 + 1 = 2 * (m + 1) by ring]
    ring

/-- Twice the number of trapezia. -/
theorem double (f : ℝ → ℝ) (a b : ℝ) (m : Nat) : trapezoidal_integral f (2 * (m + 1)) a b =
    (trapezoidal_integral f (m + 1) a b + (b - a) / ((m + 1 : Nat) : ℝ) *
      ∑ k ∈ Finset.range (m + 1), f (a + 1 / 2 * ((b - a) / ((m + 1 : Nat) : ℝ)) + k * ((b - a) / ((m + 1 : Nat) : ℝ)))) / 2 := by
  have hm : ((m : ℝ) + 1) ≠ 0 := by positivity
  rw [trapezoidal_integral, trapezoidal_integral, show 2 * (m + 1) - 1 = 2 * m + 1 by omega, sum_two, show m + 1 - 1 = m by omega]
  have e1 : ∀ k : Nat, a + (((2 * k : Nat) : ℝ) + 1) * (b - a) / ((2 * (m + 1) : Nat) : ℝ) =
      a + 1 / 2 * ((b - a) / ((m + 1 : Nat) : ℝ)) + k * ((b - a) / ((m + 1 : Nat) : ℝ)) := fun k => by
    push_cast
    field_simp
    ring
  have e2 : ∀ k : Nat, a + (((2 * k + 1 : Nat) : ℝ) + 1) * (b - a) / ((2 * (m + 1) : Nat) : ℝ) =
      a + ((k : ℝ) + 1) * (b - a) / ((m + 1 : Nat) : ℝ) := fun k => by
    push_cast
    field_simp
    ring
  simp only [e1, e2]
  push_cast
  field_simp
  ring

/-- The calls with 1, …, `n`. -/
noncomputable def calls (f : ℝ → ℝ) (a b answer : ℝ) : Nat → ℝ
  | 0 => answer
  | n + 1 => trapezium f a b (n + 1) (calls f a b answer n)

/-- C187: successive calls of `trapezium` with 1, …, n give the trapezoidal rule with 2^(n-1) trapezia, whatever was in the
static before. -/
theorem trapezium_rule (f : ℝ → ℝ) (a b answer : ℝ) : ∀ n, calls f a b answer (n + 1) = trapezoidal_integral f (2 ^ n) a b
  | 0 => by
    rw [calls, trapezium, if_pos rfl, pow_zero, trapezoidal_integral_one]
    ring
  | n + 1 => by
    obtain ⟨m, hm⟩ : ∃ m, 2 ^ n = m + 1 := ⟨2 ^ n - 1, by have : 0 < 2 ^ n := by positivity
                                                          omega⟩
    rw [calls, trapezium_rule f a b answer n, trapezium, if_neg (by omega), show n + 1 + 1 - 2 = n by omega, pow_succ, mul_comm (2 ^ n) 2, hm,
      double]
    simp only []
    rw [samples_sum, zero_add]

/-- C187: the error of the value after `n + 1` calls falls with 4^n. -/
theorem trapezium_error (f : ℝ → ℝ) (a b answer : ℝ) (hf : ContDiffOn ℝ 2 f (Set.uIcc a b)) (ze : ℝ)
    (hz : ∀ x, |iteratedDerivWithin 2 f (Set.uIcc a b) x| ≤ ze) (n : Nat) :
    |calls f a b answer (n + 1) - ∫ x in a..b, f x| ≤ |b - a| ^ 3 * ze / (12 * 4 ^ n) := by
  have h := trapezoidal_error_le_of_c2 hf hz (N := 2 ^ n) (by positivity)
  rw [trapezoidal_error] at h
  rw [trapezium_rule]
  refine h.trans_eq ?_
  push_cast
  rw [← pow_mul, mul_comm n 2, pow_mul]
  norm_num

example : ∀ n, calls (fun x => x) 0 2 5 (n + 1) = 2 := by
  intro n
  rw [trapezium_rule]
  have h := trapezoidal_error_le_of_c2 (f := fun x : ℝ => x) (a := 0) (b := 2) contDiffOn_id (ζ := 0) (fun x => by
    have h2 : iteratedDerivWithin 2 (fun x : ℝ => x) (Set.uIcc 0 2) x = 0 := by
      have hu : UniqueDiffOn ℝ (Set.uIcc (0 : ℝ) 2) := uniqueDiffOn_uIcc (by norm_num)
      by_cases hx : x ∈ Set.uIcc (0 : ℝ) 2
      · rw [iteratedDerivWithin_succ, derivWithin_congr (f := fun _ => (1 : ℝ))]
        · simp
        · intro y hy
          rw [iteratedDerivWithin_one]
          exact derivWithin_id' y _ (hu y hy)
        · rw [iteratedDerivWithin_one]
          exact derivWithin_id' x _ (hu x hx)
      · rw [iteratedDerivWithin_succ]
        apply derivWithin_zero_of_notMem_closure
        rwa [IsClosed.closure_eq isCompact_uIcc.isClosed]
    rw [h2, abs_zero]) (N := 2 ^ n) (by positivity)
  rw [trapezoidal_error, integral_id] at h
  norm_num at h
  linarith

/-- C187, violation: the static is shared, so two integrals which are refined in turn spoil each other. -/
theorem shared_static_violated : ∃ f g : ℝ → ℝ, trapezium f 0 1 2 (trapezium g 0 1 1 (trapezium f 0 1 1 0)) ≠ trapezoidal_integral f 2 0 1 := by
  refine ⟨fun _ => 1, fun _ => 0, ?_⟩
  have : trapezoidal_integral (fun _ => (1 : ℝ)) 2 0 1 = 1 := by
    rw [trapezoidal_integral]
    norm_num
  rw [this]
  simp only [trapezium]
  norm_num [samples]

theorem extrapolate_ub (xs ys : List ℝ) (order garbage : Int) : extrapolate xs ys order garbage = .ub := by
  rw [extrapolate, Interpolation.mkArbArray]
  cases h : (Interpolation.mkArb xs ys order : Outcome Err (Interpolation.Arb ℝ)) with
  | ok r => rfl
  | throw e => rw [Interpolation.mkArb] at h; split at h <;> simp at h
  | ub => rfl

theorem slice_none (v : Nat → Option ℝ) (p : Nat) (h : v p = none) : slice v p 5 = .ub := by
  rw [slice, show List.range 5 = [0, 1, 2, 3, 4] from rfl]
  simp [h]

/-- C187, violation: `romberg` is undefined for every function and interval: it reads elements of the arrays which have not
been written, and the interpolation has no data. -/
theorem romberg_violated (f : ℝ → ℝ) (a b : ℝ) (garbage : Int) (answer : ℝ) : romberg f a b garbage answer = .ub := by
  have step : ∀ c j s h an, j < 5 → (h j).isSome → rombergFrom f a b garbage (c + 1) j s h an =
      rombergFrom f a b garbage c (j + 1) (put s j (trapezium f a b j an)) (put h (j + 1) (1 / 4 * (h j).getD 0)) (trapezium f a b j an) := by
    intro c j s h an hj hs
    rw [rombergFrom]
    obtain ⟨x, hx⟩ := Option.isSome_iff_exists.1 hs
    simp only [hx, Option.getD_some]
    rw [if_neg (by omega)]
  rw [romberg, step 29 1 _ _ _ (by norm_num) (by simp [put]), step 28 2 _ _ _ (by norm_num) (by simp [put]),
    step 27 3 _ _ _ (by norm_num) (by simp [put]), step 26 4 _ _ _ (by norm_num) (by simp [put]), rombergFrom, if_pos (by norm_num)]
  rw [slice_none]
  · rfl
  · rfl

/-! ## C188: the integrand -/

/-- The root of the gradient. -/
theorem root_sq (b : ℝ) : root b * root b = b := by
  rw [root]
  split
  · rename_i h
    rw [← Complex.ofReal_mul, Real.mul_self_sqrt h]
  · rename_i h
    have h' : 0 ≤ -b := by linarith
    rw [show (Real.sqrt (-b) : ℂ) * Complex.I * (Real.sqrt (-b) * Complex.I) = ((Real.sqrt (-b) * Real.sqrt (-b) : ℝ) : ℂ) * (Complex.I * Complex.I)
      by push_cast; ring, Real.mul_self_sqrt h', Complex.I_mul_I]
    push_cast
    ring

/-- C188: the elements do not depend on the sign of the root. -/
theorem row_even (h tanE1 : ℝ) (k : ℂ) (s : ℝ) : rowGrad h tanE1 (-k) s = rowGrad h tanE1 k s := by
  rw [rowGrad, rowGrad]
  simp only [neg_mul, Complex.cos_neg, Complex.sin_neg, div_neg, neg_neg, neg_div]
  refine Prod.ext ?_ (Prod.ext ?_ ?_)
  · rfl
  · rfl
  · show -((-(h / k : ℂ)) ^ 2 * (s - Complex.sin (k * s) / k)) = _
    rw [neg_sq]

/-- C188: with the gradient `k1` the elements are those of the bend of the library with the pole face at its entrance, but for the
gradient `k1 - h²`. -/
theorem row_bend_partial (h th k1 s : ℝ) (hh : h ≠ 0) (hk : k1 ≠ 0) (hs : s ≠ 0) :
    let R := Transport.sectorBend 6 s h (k1 - h * h)
    let E := Transport.poleFaceRot h th 0 0
    rowGrad h (Real.tan th) (root k1) s =
      (((R 4 0 * E 0 0 + R 4 1 * E 1 0 : ℝ) : ℂ), ((R 4 0 * E 0 1 + R 4 1 * E 1 1 : ℝ) : ℂ), ((R 4 5 : ℝ) : ℂ)) := by
  intro R E
  have e00 : E 0 0 = 1 := by simp [E, Transport.poleFaceRot, Transport.set, Transport.initR]
  have e10 : E 1 0 = h * Real.tan th := by simp [E, Transport.poleFaceRot, Transport.set]
  have e01 : E 0 1 = 0 := by simp [E, Transport.poleFaceRot, Transport.set, Transport.initR]
  have e11 : E 1 1 = 1 := by simp [E, Transport.poleFaceRot, Transport.set, Transport.initR]
  have hR : R = Transport.sbrD 6 s h k1 (Transport.sbrY s (-(k1 - h * h)) (Transport.sbrX s k1 Transport.initR)) := by
    simp only [R, Transport.sectorBend, Transport.sbr]
    rw [if_neg hs, sub_add_cancel]
  rw [e00, e10, e01, e11]
  rcases lt_or_gt_of_ne hk with hn | hp
  · have hq : 0 < Real.sqrt (-k1) := Real.sqrt_pos.2 (by linarith)
    have hqc : (Real.sqrt (-k1) : ℂ) ≠ 0 := by exact_mod_cast hq.ne'
    have hsq : (k1 : ℂ) = -((Real.sqrt (-k1) : ℂ) ^ 2) := by
      rw [← Complex.ofReal_pow, Real.sq_sqrt (by linarith)]; push_cast; ring
    have hroot : root k1 = Real.sqrt (-k1) * Complex.I := by rw [root, if_neg (by linarith)]
    have r40 : R 4 0 = -h * Real.sinh (Real.sqrt (-k1) * s) / Real.sqrt (-k1) := by
      rw [hR, Transport.sbrD, if_pos rfl, if_pos ⟨hh, hk⟩, if_neg (by linarith)]
      simp [Transport.set]
    have r41 : R 4 1 = -h * (1 - Real.cosh (Real.sqrt (-k1) * s)) / k1 := by
      rw [hR, Transport.sbrD, if_pos rfl, if_pos ⟨hh, hk⟩, if_neg (by linarith)]
      simp [Transport.set]
    have r45 : R 4 5 = -h * h * (Real.sqrt (-k1) * s - Real.sinh (Real.sqrt (-k1) * s)) / (k1 * Real.sqrt (-k1)) := by
      rw [hR, Transport.sbrD, if_pos rfl, if_pos ⟨hh, hk⟩, if_neg (by linarith)]
      simp [Transport.set]
    rw [r40, r41, r45, rowGrad, hroot]
    have a1 : Complex.sin (Real.sqrt (-k1) * Complex.I * s) = Complex.sinh (Real.sqrt (-k1) * s) * Complex.I := by
      rw [← Complex.sin_mul_I]; congr 1; ring
    have a2 : Complex.cos (Real.sqrt (-k1) * Complex.I * s) = Complex.cosh (Real.sqrt (-k1) * s) := by
      rw [← Complex.cos_mul_I]; congr 1; ring
    simp only [a1, a2]
    push_cast
    rw [hsq]
    generalize (Real.sqrt (-k1) : ℂ) = q at *
    have hI := Complex.I_sq
    have hI0 := Complex.I_ne_zero
    refine Prod.ext ?_ (Prod.ext ?_ ?_)
    · simp only []
      field_simp
      rw [hI]
      ring
    · simp only []
      field_simp
      rw [hI]
      ring
    · simp only []
      field_simp
      rw [hI]
      ring
  · have hq : 0 < Real.sqrt k1 := Real.sqrt_pos.2 hp
    have hqc : (Real.sqrt k1 : ℂ) ≠ 0 := by exact_mod_cast hq.ne'
    have hsq : (k1 : ℂ) = (Real.sqrt k1 : ℂ) ^ 2 := by
      rw [← Complex.ofReal_pow, Real.sq_sqrt hp.le]
    have hroot : root k1 = Real.sqrt k1 := by rw [root, if_pos hp.le]
    have r40 : R 4 0 = -h * Real.sin (Real.sqrt k1 * s) / Real.sqrt k1 := by
      rw [hR, Transport.sbrD, if_pos rfl, if_pos ⟨hh, hk⟩, if_pos hp]
      simp [Transport.set]
    have r41 : R 4 1 = -h * (1 - Real.cos (Real.sqrt k1 * s)) / k1 := by
      rw [hR, Transport.sbrD, if_pos rfl, if_pos ⟨hh, hk⟩, if_pos hp]
      simp [Transport.set]
    have r45 : R 4 5 = -h * h * (Real.sqrt k1 * s - Real.sin (Real.sqrt k1 * s)) / (k1 * Real.sqrt k1) := by
      rw [hR, Transport.sbrD, if_pos rfl, if_pos ⟨hh, hk⟩, if_pos hp]
      simp [Transport.set]
    rw [r40, r41, r45, rowGrad, hroot]
    push_cast
    rw [hsq]
    generalize (Real.sqrt k1 : ℂ) = q at *
    refine Prod.ext ?_ (Prod.ext ?_ ?_)
    · simp only []
      field_simp
    · simp only []
      field_simp
      ring
    · simp only []
      field_simp

example : rowGrad 2 (Real.tan 0) (root 3) 1 = (((Transport.sectorBend 6 1 2 (3 - 2 * 2) 4 0 * Transport.poleFaceRot 2 0 0 0 0 0 +
    Transport.sectorBend 6 1 2 (3 - 2 * 2) 4 1 * Transport.poleFaceRot 2 0 0 0 1 0 : ℝ) : ℂ),
    ((Transport.sectorBend 6 1 2 (3 - 2 * 2) 4 0 * Transport.poleFaceRot 2 0 0 0 0 1 +
    Transport.sectorBend 6 1 2 (3 - 2 * 2) 4 1 * Transport.poleFaceRot 2 0 0 0 1 1 : ℝ) : ℂ), ((Transport.sectorBend 6 1 2 (3 - 2 * 2) 4 5 : ℝ) : ℂ)) :=
  row_bend_partial 2 0 3 1 (by norm_num) (by norm_num) (by norm_num)

/-- C188, violation: the focusing of the bend itself is missing; half a turn in a bend without gradient has R51 = 0 in the library,
the integrand takes -π. -/
theorem weak_focusing_violated : Transport.sectorBend 6 Real.pi 1 0 4 0 = 0 ∧ (rowZero 1 0 Real.pi).1 = -Real.pi := by
  constructor
  · rw [Transport.sectorBend, Transport.sbr, if_neg Real.pi_ne_zero]
    simp only [Transport.sbrD]
    rw [if_pos trivial, if_pos ⟨one_ne_zero, by norm_num⟩, if_pos (by norm_num)]
    simp [Transport.set]
  · simp [rowZero]

theorem sin_cubic (z : ℂ) (hz : ‖z‖ ≤ 1) : ‖Complex.sin z - (z - z ^ 3 / 6)‖ ≤ ‖z‖ ^ 4 * (5 / 96) := by
  have h1 : ‖z * Complex.I‖ = ‖z‖ := by rw [norm_mul, Complex.norm_I, mul_one]
  have h2 : ‖-z * Complex.I‖ = ‖z‖ := by rw [norm_mul, Complex.norm_I, mul_one, norm_neg]
  have b1 := Complex.exp_bound (x := z * Complex.I) (by rw [h1]; exact hz) (n := 4) (by norm_num)
  have b2 := Complex.exp_bound (x := -z * Complex.I) (by rw [h2]; exact hz) (n := 4) (by norm_num)
  rw [h1] at b1
  rw [h2] at b2
  have e : Complex.sin z - (z - z ^ 3 / 6) = ((Complex.exp (-z * Complex.I) - ∑ m ∈ Finset.range 4, (-z * Complex.I) ^ m / (m.factorial : ℂ)) -
      (Complex.exp (z * Complex.I) - ∑ m ∈ Finset.range 4, (z * Complex.I) ^ m / (m.factorial : ℂ))) * Complex.I / 2 := by
    rw [Complex.sin]
    have hI := Complex.I_sq
    have hI4 : Complex.I ^ 4 = 1 := Complex.I_pow_four
    simp only [Finset.sum_range_succ, Finset.sum_range_zero, Nat.factorial]
    push_cast
    linear_combination (-z) * hI - (z ^ 3 / 6) * hI4
  rw [e, norm_div, norm_mul, Complex.norm_I, mul_one]
  have : ‖(2 : ℂ)‖ = 2 := by simp
  rw [this]
  have h3 := norm_sub_le (Complex.exp (-z * Complex.I) - ∑ m ∈ Finset.range 4, (-z * Complex.I) ^ m / (m.factorial : ℂ))
    (Complex.exp (z * Complex.I) - ∑ m ∈ Finset.range 4, (z * Complex.I) ^ m / (m.factorial : ℂ))
  norm_num [Nat.factorial] at b1 b2
  norm_num [Nat.factorial] at h3 ⊢
  linarith

open Filter Topology in
theorem limit_one (s : ℝ) : Tendsto (fun k : ℂ => Complex.sin (k * s) / k) (𝓝[≠] 0) (𝓝 (s : ℂ)) := by
  have h : HasDerivAt (fun k : ℂ => Complex.sin (k * s)) (Complex.cos (0 * s) * (1 * s)) 0 :=
    HasDerivAt.comp (0 : ℂ) (h₂ := Complex.sin) (h := fun k : ℂ => k * s) (Complex.hasDerivAt_sin (0 * (s : ℂ)))
      ((hasDerivAt_id (0 : ℂ)).mul_const (s : ℂ))
  have h2 := h.tendsto_slope_zero
  simp only [zero_add, zero_mul, Complex.sin_zero, sub_zero, Complex.cos_zero, one_mul, smul_eq_mul] at h2
  refine h2.congr fun k => ?_
  rw [div_eq_inv_mul]

open Filter Topology in
theorem limit_three (s : ℝ) : Tendsto (fun k : ℂ => ((s : ℂ) - Complex.sin (k * s) / k) / k ^ 2) (𝓝[≠] 0) (𝓝 ((s : ℂ) ^ 3 / 6)) := by
  rw [tendsto_iff_norm_sub_tendsto_zero]
  have hb : Tendsto (fun k : ℂ => ‖k‖ * |s| ^ 4 * (5 / 96)) (𝓝[≠] 0) (𝓝 0) := by
    have : Tendsto (fun k : ℂ => ‖k‖ * |s| ^ 4 * (5 / 96)) (𝓝 0) (𝓝 (‖(0 : ℂ)‖ * |s| ^ 4 * (5 / 96))) :=
      ((continuous_norm.mul continuous_const).mul continuous_const).tendsto 0
    rw [norm_zero, zero_mul, zero_mul] at this
    exact this.mono_left nhdsWithin_le_nhds
  refine squeeze_zero' (Eventually.of_forall fun k => norm_nonneg _) ?_ hb
  have hsmall : ∀ᶠ k : ℂ in 𝓝[≠] 0, ‖k * s‖ < 1 := by
    have : Tendsto (fun k : ℂ => ‖k * (s : ℂ)‖) (𝓝 0) (𝓝 ‖(0 : ℂ) * s‖) := ((continuous_id.mul continuous_const).norm).tendsto 0
    rw [zero_mul, norm_zero] at this
    exact nhdsWithin_le_nhds (this.eventually (gt_mem_nhds one_pos))
  filter_upwards [hsmall, self_mem_nhdsWithin] with k h1 h0
  have hk : k ≠ 0 := h0
  have hkn := norm_pos_iff.2 hk
  have e : ((s : ℂ) - Complex.sin (k * s) / k) / k ^ 2 - (s : ℂ) ^ 3 / 6 = -(Complex.sin (k * s) - (k * s - (k * s) ^ 3 / 6)) / k ^ 3 := by
    field_simp
    ring
  rw [e, norm_div, norm_neg, norm_pow, div_le_iff₀ (by positivity)]
  refine (sin_cubic (k * s) h1.le).trans_eq ?_
  rw [norm_mul, Complex.norm_real, Real.norm_eq_abs]
  ring

open Filter Topology in
/-- C188: with the gradient going to zero the elements go to those of the class for bends without gradient. -/
theorem row_limit (h tanE1 s : ℝ) : Tendsto (fun k => rowGrad h tanE1 k s) (𝓝[≠] 0) (𝓝 (rowZero h tanE1 s)) := by
  have h1 := limit_one s
  have h2 := limit_one (s / 2)
  have h3 := limit_three s
  have t52 : Tendsto (fun k : ℂ => -(1 - Complex.cos (k * s)) * h / k / k) (𝓝[≠] 0) (𝓝 (-s * s * h / 2 : ℂ)) := by
    have := ((h2.mul h2).const_mul 2).const_mul (-(h : ℂ))
    have e : -(h : ℂ) * (2 * (((s / 2 : ℝ) : ℂ) * ((s / 2 : ℝ) : ℂ))) = -s * s * h / 2 := by push_cast; ring
    rw [e] at this
    refine this.congr fun k => ?_
    · have hc : Complex.cos (k * s) = 1 - 2 * (Complex.sin (k * ((s / 2 : ℝ) : ℂ)) * Complex.sin (k * ((s / 2 : ℝ) : ℂ))) := by
        rw [show k * (s : ℂ) = 2 * (k * ((s / 2 : ℝ) : ℂ)) by push_cast; ring, Complex.cos_two_mul]
        have := Complex.sin_sq_add_cos_sq (k * ((s / 2 : ℝ) : ℂ))
        linear_combination 2 * this
      rw [hc]
      ring
  have t51 : Tendsto (fun k : ℂ => -Complex.sin (k * s) * h / k + h * tanE1 * (-(1 - Complex.cos (k * s)) * h / k / k)) (𝓝[≠] 0)
      (𝓝 (-s * h + h * tanE1 * (-s * s * h / 2) : ℂ)) := by
    have := (h1.const_mul (-(h : ℂ))).add (t52.const_mul ((h : ℂ) * tanE1))
    rw [show -(h : ℂ) * s = -s * h by ring] at this
    refine this.congr fun k => ?_
    ring
  have t56 : Tendsto (fun k : ℂ => -((h : ℂ) / k) ^ 2 * (s - Complex.sin (k * s) / k)) (𝓝[≠] 0) (𝓝 ((-s * s * h / 2) * s * h / 3 : ℂ)) := by
    have := h3.const_mul (-(h : ℂ) ^ 2)
    rw [show -(h : ℂ) ^ 2 * ((s : ℂ) ^ 3 / 6) = (-s * s * h / 2) * s * h / 3 by ring] at this
    refine this.congr fun k => ?_
    rw [div_pow]
    ring
  exact t51.prodMk_nhds (t52.prodMk_nhds t56)

/-! ## C189: tunes and damping -/

/-- C189: the tune lies in [0, 1) and gives, with the modulus, the eigenvalue back. -/
theorem tune_spec (lam : ℂ) : 0 ≤ tune lam ∧ tune lam < 1 ∧ (‖lam‖ : ℂ) * Complex.exp (2 * Real.pi * tune lam * Complex.I) = lam := by
  have hp := Real.pi_pos
  have h1 := Complex.neg_pi_lt_arg lam
  have h2 := Complex.arg_le_pi lam
  have h3 := Complex.norm_mul_exp_arg_mul_I lam
  rw [tune]
  split
  · rename_i h
    have hlo : -(1 / 2) < Complex.arg lam / (2 * Real.pi) := by rw [lt_div_iff₀ (by positivity)]; linarith
    refine ⟨by linarith, by linarith, ?_⟩
    rw [← h3]
    have : Complex.exp (2 * Real.pi * ((1 + Complex.arg (‖lam‖ * Complex.exp (Complex.arg lam * Complex.I)) / (2 * Real.pi) : ℝ) : ℂ) * Complex.I) =
        Complex.exp (Complex.arg lam * Complex.I) := by
      rw [h3]
      rw [show (2 * Real.pi * ((1 + Complex.arg lam / (2 * Real.pi) : ℝ) : ℂ) * Complex.I : ℂ) = Complex.arg lam * Complex.I + 2 * Real.pi * Complex.I by
        have : (Real.pi : ℂ) ≠ 0 := by exact_mod_cast hp.ne'
        push_cast
        field_simp
        ring, Complex.exp_add, Complex.exp_two_pi_mul_I, mul_one]
    rw [this, h3, h3]
  · rename_i h
    have hhi : Complex.arg lam / (2 * Real.pi) ≤ 1 / 2 := by rw [div_le_iff₀ (by positivity)]; linarith
    refine ⟨by linarith, by linarith, ?_⟩
    rw [show (2 * Real.pi * ((Complex.arg lam / (2 * Real.pi) : ℝ) : ℂ) * Complex.I : ℂ) = Complex.arg lam * Complex.I by
      have : (Real.pi : ℂ) ≠ 0 := by exact_mod_cast hp.ne'
      push_cast
      field_simp]
    exact h3

/-- The tune of a quarter turn back. -/
example : tune (-Complex.I) = 3 / 4 := by
  have hp := Real.pi_pos
  rw [tune, Complex.arg_neg_I, if_pos (by rw [div_neg_iff]; right; constructor <;> linarith)]
  field_simp
  norm_num

/-- C189: the damping constant is positive exactly if the motion is damped; after the damping time an amplitude has fallen to
1/e. -/
theorem damping_spec (lam : ℂ) (h0 : lam ≠ 0) : ∃ a, damping lam = .ok a ∧ ‖lam‖ = Real.exp (-a) ∧ (0 < a ↔ ‖lam‖ < 1) ∧
    ∀ l c : ℝ, l ≠ 0 → c ≠ 0 → a ≠ 0 → ∃ T, dampingTime l c a = .ok T ∧ ‖lam‖ ^ (T / (l / c)) = Real.exp (-1) := by
  have hn := norm_pos_iff.2 h0
  have he : ‖lam‖ = Real.exp (- -Real.log ‖lam‖) := by rw [neg_neg, Real.exp_log hn]
  refine ⟨-Real.log ‖lam‖, by rw [damping, if_neg hn.ne'], he, ?_, fun l c hl hc ha => ?_⟩
  · rw [neg_pos]
    exact Real.log_neg_iff hn
  · refine ⟨_, by rw [dampingTime, if_neg ha], ?_⟩
    rw [Real.rpow_def_of_pos hn]
    congr 1
    have : Real.log ‖lam‖ ≠ 0 := by simpa using ha
    field_simp

example : ∃ a, damping (1 / 2) = .ok a ∧ 0 < a := by
  obtain ⟨a, h, _, h2, _⟩ := damping_spec (1 / 2) (by norm_num)
  exact ⟨a, h, h2.2 (by norm_num)⟩

/-! ## C190: emittance -/

/-- C190, violation: with any bend which has a field the emittance is undefined. -/
theorem emittance_violated (garbage : Int) (answer f damp : ℝ) (comps : List (Option (Bend × Vec))) (b : Bend) (ek : Vec)
    (hm : some (b, ek) ∈ comps) (hb : b.h ≠ 0) : emittance garbage answer f comps damp = .ub := by
  have hi : ∀ b ek, integral b ek garbage answer = .ub := fun b ek => by
    rw [integral]
    split <;> exact romberg_violated ..
  have : ∀ (cs : List (Option (Bend × Vec))) sum, some (b, ek) ∈ cs → sumE5 garbage answer cs sum = .ub := by
    intro cs
    induction cs with
    | nil => intro sum h; simp at h
    | cons c cs ih =>
      intro sum h
      cases c with
      | none =>
        rw [sumE5]
        exact ih sum (by simpa using h)
      | some p =>
        obtain ⟨b', ek'⟩ := p
        rw [sumE5]
        by_cases hz : b'.h = 0
        · rw [if_pos hz]
          rcases List.mem_cons.1 h with h | h
          · simp only [Option.some.injEq, Prod.mk.injEq] at h
            rw [h.1] at hb
            exact absurd hz hb
          · exact ih sum h
        · rw [if_neg hz, hi]
          rfl
  rw [emittance, this comps 0 hm]
  rfl

example : emittance 0 0 1 [none, some (⟨1 / 10, 0, 0, 1⟩, fun _ => 1)] 1 = .ub :=
  emittance_violated 0 0 1 1 _ ⟨1 / 10, 0, 0, 1⟩ (fun _ => 1) (by simp) (by norm_num)

/-- C190: without any field the emittance is zero, if the damping constants have been calculated; in a new object they are zero and
the quotient has no value. -/
theorem emittance_field_free_partial (garbage : Int) (answer f damp : ℝ) (comps : List (Option (Bend × Vec)))
    (h : ∀ b ek, some (b, ek) ∈ comps → b.h = 0) :
    emittance garbage answer f comps damp = if damp = 0 then .ub else .ok 0 := by
  have : ∀ (cs : List (Option (Bend × Vec))), (∀ b ek, some (b, ek) ∈ cs → b.h = 0) → sumE5 garbage answer cs 0 = .ok 0 := by
    intro cs
    induction cs with
    | nil => intro _; rfl
    | cons c cs ih =>
      intro h
      cases c with
      | none => rw [sumE5]; exact ih fun b ek hm => h b ek (List.mem_cons_of_mem _ hm)
      | some p =>
        obtain ⟨b, ek⟩ := p
        rw [sumE5, if_pos (h b ek (List.mem_cons_self ..))]
        exact ih fun b ek hm => h b ek (List.mem_cons_of_mem _ hm)
  rw [emittance, this comps h]
  simp [Outcome.bind]

example : emittance 0 0 1 [none, some (⟨0, 3, 0, 1⟩, fun _ => 1)] 2 = .ok 0 := by
  rw [emittance_field_free_partial]
  · simp
  · intro b ek hm
    simp at hm
    rw [hm.1]

/-! ## C191: the elements R53 and R54 -/

section
variable {K : Type} [Field K]

/-- C191: the new elements make the row of the time symplectic with the two vertical rows and change nothing else. -/
theorem repair_rows (M : Matrix (Fin 6) (Fin 6) K) (hd : M 2 3 * M 3 2 - M 2 2 * M 3 3 ≠ 0) :
    Spec.form (repair M 2) (repair M 4) = 0 ∧ Spec.form (repair M 3) (repair M 4) = 0 ∧
    ∀ i j, ¬(i = 4 ∧ (j = 2 ∨ j = 3)) → repair M i j = M i j := by
  have other : ∀ i j, ¬(i = 4 ∧ (j = 2 ∨ j = 3)) → repair M i j = M i j := by
    intro i j h
    rw [repair]
    simp only []
    rw [if_neg fun h' => h ⟨h'.1, .inr h'.2⟩, if_neg fun h' => h ⟨h'.1, .inl h'.2⟩]
  have e2 : repair M 4 2 = new42 M := by
    rw [repair]
    simp
  have e3 : repair M 4 3 = new43 M := by
    rw [repair]
    simp [new43]
  refine ⟨?_, ?_, other⟩
  · rw [Spec.form, e2, e3]
    simp only [other 2 _ (by simp), other 4 0 (by decide), other 4 1 (by decide), other 4 4 (by decide), other 4 5 (by decide)]
    rw [new42, new43]
    generalize hD : M 2 3 * M 3 2 - M 2 2 * M 3 3 = D at hd ⊢
    field_simp
    rw [← hD]
    ring
  · rw [Spec.form, e2, e3]
    simp only [other 3 _ (by simp), other 4 0 (by decide), other 4 1 (by decide), other 4 4 (by decide), other 4 5 (by decide)]
    rw [new42, new43]
    generalize hD : M 2 3 * M 3 2 - M 2 2 * M 3 3 = D at hd ⊢
    field_simp
    rw [← hD]
    ring

/-- C191: a matrix whose rows are symplectic already is not changed. -/
theorem repair_fixed (M : Matrix (Fin 6) (Fin 6) K) (hd : M 2 3 * M 3 2 - M 2 2 * M 3 3 ≠ 0) (h2 : Spec.form (M 2) (M 4) = 0)
    (h3 : Spec.form (M 3) (M 4) = 0) : repair M = M := by
  obtain ⟨r2, r3, other⟩ := repair_rows M hd
  rw [Spec.form] at r2 r3 h2 h3
  simp only [other 2 _ (by simp), other 3 _ (by simp), other 4 0 (by decide), other 4 1 (by decide), other 4 4 (by decide), other 4 5 (by decide)] at r2 r3
  have a2 : M 2 2 * (repair M 4 3 - M 4 3) - M 2 3 * (repair M 4 2 - M 4 2) = 0 := by linear_combination r2 - h2
  have a3 : M 3 2 * (repair M 4 3 - M 4 3) - M 3 3 * (repair M 4 2 - M 4 2) = 0 := by linear_combination r3 - h3
  have x : (M 2 3 * M 3 2 - M 2 2 * M 3 3) * (repair M 4 2 - M 4 2) = 0 := by linear_combination M 2 2 * a3 - M 3 2 * a2
  have y : (M 2 3 * M 3 2 - M 2 2 * M 3 3) * (repair M 4 3 - M 4 3) = 0 := by linear_combination M 2 3 * a3 - M 3 3 * a2
  have x' := sub_eq_zero.1 ((mul_eq_zero.1 x).resolve_left hd)
  have y' := sub_eq_zero.1 ((mul_eq_zero.1 y).resolve_left hd)
  ext i j
  by_cases h : i = 4 ∧ (j = 2 ∨ j = 3)
  · obtain ⟨rfl, rfl | rfl⟩ := h
    · exact x'
    · exact y'
  · exact other i j h

/-- A matrix with coupling of the vertical plane to the energy. -/
def coupled : Matrix (Fin 6) (Fin 6) ℚ := fun i j => if i = j then 1 else if i = 2 ∧ j = 5 then 3 else if i = 3 ∧ j = 5 then 2 else 0

example : repair coupled 4 2 = -2 ∧ repair coupled 4 3 = 3 ∧ Spec.form (repair coupled 2) (repair coupled 4) = 0 := by
  refine ⟨?_, ?_, (repair_rows coupled (by simp [coupled])).1⟩
  · simp [repair, new42, coupled]
    norm_num
  · simp [repair, new43, coupled]

end

/-! ## C192: moments -/

theorem moment_sum (em : Fin 3 → ℝ) (v : Fin 3 → Vec) (i j : Fin 6) :
    beamMoment em v i j = ∑ k, 2 * em k * (v k i * (starRingEnd ℂ) (v k j)).re := by
  rw [beamMoment, show List.finRange 3 = [0, 1, 2] from rfl, Fin.sum_univ_three]
  simp only [List.foldl_cons, List.foldl_nil, Complex.mul_re, Complex.conj_re, Complex.conj_im]
  ring

/-- C192: the moments are symmetric, and no combination of the coordinates has a negative spread. -/
theorem moments_positive (em : Fin 3 → ℝ) (hem : ∀ k, 0 ≤ em k) (v : Fin 3 → Vec) (c : Fin 6 → ℝ) :
    (∀ i j, beamMoment em v i j = beamMoment em v j i) ∧ 0 ≤ ∑ i, ∑ j, c i * c j * beamMoment em v i j := by
  constructor
  · intro i j
    rw [beamMoment, beamMoment]
    congr 1
    funext m k
    ring
  · have pair : ∀ p : Fin 6 → ℝ, (∑ i, c i * p i) ^ 2 = ∑ i, ∑ j, c i * c j * (p i * p j) := fun p => by
      rw [sq, Finset.sum_mul_sum]
      exact Finset.sum_congr rfl fun i _ => Finset.sum_congr rfl fun j _ => by ring
    have : ∑ i, ∑ j, c i * c j * beamMoment em v i j = ∑ k, 2 * em k * ((∑ i, c i * (v k i).re) ^ 2 + (∑ i, c i * (v k i).im) ^ 2) := by
      simp only [moment_sum, pair, ← Finset.sum_add_distrib]
      simp only [Finset.mul_sum]
      rw [Finset.sum_comm]
      simp only [fun y : Fin 6 => Finset.sum_comm (s := Finset.univ) (t := Finset.univ)
        (f := fun (x : Fin 6) (k : Fin 3) => c x * c y * (2 * em k * (v k x * (starRingEnd ℂ) (v k y)).re))]
      rw [Finset.sum_comm]
      refine Finset.sum_congr rfl fun k _ => ?_
      rw [Finset.sum_comm]
      refine Finset.sum_congr rfl fun x _ => Finset.sum_congr rfl fun y _ => ?_
      rw [Complex.mul_re, Complex.conj_re, Complex.conj_im]
      ring
    rw [this]
    refine Finset.sum_nonneg fun k _ => ?_
    have := hem k
    positivity

/-- C192: if the vectors are eigenvectors of a real matrix with eigenvalues of modulus one, the moments are those of a matched beam:
transport with the matrix gives them back. -/
theorem moments_matched (em : Fin 3 → ℝ) (v : Fin 3 → Vec) (lam : Fin 3 → ℂ) (M : Matrix (Fin 6) (Fin 6) ℝ)
    (hv : ∀ k i, ∑ a, (M i a : ℂ) * v k a = lam k * v k i) (hl : ∀ k, ‖lam k‖ = 1) (i j : Fin 6) :
    ∑ a, ∑ b, M i a * M j b * beamMoment em v a b = beamMoment em v i j := by
  have key : ∀ k, ∑ a, ∑ b, M i a * M j b * (v k a * (starRingEnd ℂ) (v k b)).re = (v k i * (starRingEnd ℂ) (v k j)).re := by
    intro k
    have h1 : (∑ a, (M i a : ℂ) * v k a) * (starRingEnd ℂ) (∑ b, (M j b : ℂ) * v k b) = v k i * (starRingEnd ℂ) (v k j) := by
      rw [hv, hv, map_mul]
      have : lam k * (starRingEnd ℂ) (lam k) = 1 := by
        rw [Complex.mul_conj, Complex.normSq_eq_norm_sq, hl]; norm_num
      linear_combination (v k i * (starRingEnd ℂ) (v k j)) * this
    rw [← h1, map_sum, Finset.sum_mul_sum, Complex.re_sum]
    refine Finset.sum_congr rfl fun a _ => ?_
    rw [Complex.re_sum]
    refine Finset.sum_congr rfl fun b _ => ?_
    rw [map_mul, Complex.conj_ofReal, show (M i a : ℂ) * v k a * ((M j b : ℂ) * (starRingEnd ℂ) (v k b)) =
      ((M i a * M j b : ℝ) : ℂ) * (v k a * (starRingEnd ℂ) (v k b)) by push_cast; ring, Complex.re_ofReal_mul]
  simp only [moment_sum]
  simp only [← key]
  simp only [Finset.mul_sum]
  rw [Finset.sum_comm (s := (Finset.univ : Finset (Fin 3)))]
  refine Finset.sum_congr rfl fun a _ => ?_
  rw [Finset.sum_comm (s := (Finset.univ : Finset (Fin 3)))]
  refine Finset.sum_congr rfl fun b _ => Finset.sum_congr rfl fun k _ => ?_
  ring

theorem form_turn (x y : Vec) : ∑ j, x j * Spec.turn y j = Spec.form x y := by
  rw [Spec.form, Fin.sum_univ_six]
  simp only [Spec.turn]
  ring

/-- C192: for vectors normalised as `EigenSystem` does it the emittances are those of the beam: `σ S v = i ε v`. -/
theorem moments_emittance (em : Fin 3 → ℝ) (v : Fin 3 → Vec) (k : Fin 3)
    (h0 : ∀ m, Spec.form (v m) (v k) = 0)
    (h1 : ∀ m, Spec.form (fun i => (starRingEnd ℂ) (v m i)) (v k) = if m = k then Complex.I else 0) (i : Fin 6) :
    ∑ j, (beamMoment em v i j : ℂ) * Spec.turn (v k) j = Complex.I * em k * v k i := by
  have e : ∀ j, (beamMoment em v i j : ℂ) = ∑ m, (em m : ℂ) * (v m i * (starRingEnd ℂ) (v m j) + (starRingEnd ℂ) (v m i) * v m j) := fun j => by
    rw [moment_sum]
    push_cast
    refine Finset.sum_congr rfl fun m _ => ?_
    have := Complex.add_conj (v m i * (starRingEnd ℂ) (v m j))
    rw [map_mul, Complex.conj_conj] at this
    push_cast at this
    linear_combination -(em m : ℂ) * this
  simp only [e, Finset.sum_mul]
  rw [Finset.sum_comm]
  have : ∀ m, ∑ j, (em m : ℂ) * (v m i * (starRingEnd ℂ) (v m j) + (starRingEnd ℂ) (v m i) * v m j) * Spec.turn (v k) j =
      if m = k then Complex.I * em m * v m i else 0 := fun m => by
    rw [show (∑ j, (em m : ℂ) * (v m i * (starRingEnd ℂ) (v m j) + (starRingEnd ℂ) (v m i) * v m j) * Spec.turn (v k) j) =
      (em m : ℂ) * (v m i * (∑ j, (fun i => (starRingEnd ℂ) (v m i)) j * Spec.turn (v k) j) + (starRingEnd ℂ) (v m i) * ∑ j, v m j * Spec.turn (v k) j) from ?_,
      form_turn, form_turn, h0, h1]
    · split
      · ring
      · ring
    · rw [mul_add, ← mul_assoc, ← mul_assoc, Finset.mul_sum, Finset.mul_sum, ← Finset.sum_add_distrib]
      refine Finset.sum_congr rfl fun j _ => ?_
      ring
  simp only [this]
  simp

/-- The vector of plane `k` of a ring without coupling, with beta function one. -/
noncomputable def plain (k : Fin 3) : Vec := fun i =>
  if i.val = 2 * k.val then ((1 / Real.sqrt 2 : ℝ) : ℂ) else if i.val = 2 * k.val + 1 then ((1 / Real.sqrt 2 : ℝ) : ℂ) * Complex.I else 0

example : beamMoment (fun k => k.val + 1) plain 2 2 = 2 ∧ beamMoment (fun k => k.val + 1) plain 2 3 = 0 := by
  have h : (1 / Real.sqrt 2 : ℝ) * (1 / Real.sqrt 2) = 1 / 2 := by
    rw [div_mul_div_comm, Real.mul_self_sqrt (by norm_num)]; norm_num
  constructor
  · rw [moment_sum, Fin.sum_univ_three]
    simp [plain]
    have h2 : Real.sqrt 2 * Real.sqrt 2 = 2 := Real.mul_self_sqrt (by norm_num)
    field_simp
    norm_num
  · rw [moment_sum, Fin.sum_univ_three]
    simp [plain]

/-- A quarter turn in every plane. -/
def quarter : Matrix (Fin 6) (Fin 6) ℝ := fun i a => if i.val % 2 = 0 then (if a.val = i.val + 1 then 1 else 0) else if a.val + 1 = i.val then -1 else 0

example (em : Fin 3 → ℝ) (i j : Fin 6) : ∑ a, ∑ b, quarter i a * quarter j b * beamMoment em plain a b = beamMoment em plain i j := by
  refine moments_matched em plain (fun _ => Complex.I) quarter (fun k i => ?_) (fun _ => Complex.norm_I) i j
  have hI := Complex.I_mul_I
  rw [Fin.sum_univ_six]
  fin_cases k <;> fin_cases i <;> simp [quarter, plain] <;> first | ring1 | linear_combination (-(Real.sqrt 2 : ℂ)⁻¹) * hI

example (m k : Fin 3) : Spec.form (plain m) (plain k) = 0 ∧
    Spec.form (fun i => (starRingEnd ℂ) (plain m i)) (plain k) = if m = k then Complex.I else 0 := by
  have h : ((1 / Real.sqrt 2 : ℝ) : ℂ) * ((1 / Real.sqrt 2 : ℝ) : ℂ) = 1 / 2 := by
    rw [← Complex.ofReal_mul, div_mul_div_comm, Real.mul_self_sqrt (by norm_num)]; norm_num
  fin_cases m <;> fin_cases k <;> constructor <;> simp [Spec.form, plain] <;> push_cast at h <;> first | ring1 | linear_combination (2 * Complex.I) * h

end Verif.Equilibrium
