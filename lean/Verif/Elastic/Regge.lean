import Verif.Elastic.Amplitude
import Mathlib.Analysis.SpecialFunctions.Gaussian.FourierTransform
import Mathlib.Analysis.Calculus.Deriv.Add
import Mathlib.Analysis.SpecialFunctions.ExpDeriv
import Mathlib.Analysis.SpecialFunctions.Sqrt
import Mathlib.Tactic.FieldSimp
import Mathlib.Tactic.LinearCombination

/-!
# Properties of the amplitudes of elastic scattering
-/

namespace Verif.Elastic
open Finset Real MeasureTheory

namespace Spec

/-- Form factor: three exponentials. -/
noncomputable def form (t : ℝ) : ℝ := ∑ i ∈ range 3, Q i * exp (-(q i * t))

/-- A Regge pole of the trajectory 1 + eps - apr t, with the power of -i nu that makes it even under crossing. -/
noncomputable def pole (u : Nat) (nu t : ℝ) : ℂ :=
  -(((X u * form t : ℝ) : ℂ) * (-Complex.I * ((apr u * nu : ℝ) : ℂ)) ^ ((1 + eps u - apr u * t : ℝ) : ℂ))

/-- One more factor i for the odd trajectory. -/
noncomputable def sign (u : Nat) : ℂ := if u = 3 then Complex.I else 1

/-- The four single exchanges. -/
noncomputable def single (nu t : ℝ) : ℂ := ∑ u ∈ range 4, sign u * pole u nu t

end Spec
open Spec

theorem apr_pos (u : Nat) : 0 < apr u := by
  unfold apr
  split <;> norm_num

theorem q_pos (i : Nat) : 0 < q i := by
  unfold q
  split <;> norm_num

theorem F1_eq (t : ℝ) : F1 t = form t := by
  simp [F1, form, Finset.sum_range_succ, List.range_succ, neg_mul]

/-- **C322.** The form factor is one at zero, positive and falls. -/
theorem form_factor : F1 0 = 1 ∧ (∀ t, 0 < F1 t) ∧ StrictAnti F1 := by
  have e : ∀ t, F1 t = 26 / 100 * exp (-(838 / 100 * t)) + 56 / 100 * exp (-(378 / 100 * t)) + 18 / 100 * exp (-(136 / 100 * t)) := by
    intro t
    rw [F1_eq]
    simp [form, Finset.sum_range_succ, Q, q]
  refine ⟨?_, fun t => ?_, fun a b hab => ?_⟩
  · rw [e]; norm_num
  · rw [e]; positivity
  · rw [e, e]
    have h1 : exp (-(838 / 100 * b)) < exp (-(838 / 100 * a)) := exp_lt_exp.mpr (by linarith)
    have h2 : exp (-(378 / 100 * b)) < exp (-(378 / 100 * a)) := exp_lt_exp.mpr (by linarith)
    have h3 : exp (-(136 / 100 * b)) < exp (-(136 / 100 * a)) := exp_lt_exp.mpr (by linarith)
    linarith

theorem power_eq (r a : ℝ) (hr : 0 < r) : (-Complex.I * (r : ℂ)) ^ (a : ℂ) = ((r ^ a : ℝ) : ℂ) * ((cos (1 / 2 * π * a) : ℝ) - (sin (1 / 2 * π * a) : ℝ) * Complex.I) := by
  have hne : (-Complex.I * (r : ℂ)) ≠ 0 := mul_ne_zero (neg_ne_zero.mpr Complex.I_ne_zero) (by exact_mod_cast hr.ne')
  rw [Complex.cpow_def_of_ne_zero hne, mul_comm (-Complex.I) (r : ℂ), Complex.log_ofReal_mul hr (neg_ne_zero.mpr Complex.I_ne_zero), Complex.log_neg_I, add_mul,
    Complex.exp_add]
  have e1 : Complex.exp ((log r : ℝ) * (a : ℂ)) = ((r ^ a : ℝ) : ℂ) := by
    rw [Real.rpow_def_of_pos hr]
    push_cast
    rfl
  have e2 : -((π : ℂ) / 2) * Complex.I * (a : ℂ) = ((-(1 / 2 * π * a) : ℝ) : ℂ) * Complex.I := by push_cast; ring
  rw [e1, e2, Complex.exp_mul_I, ← Complex.ofReal_cos, ← Complex.ofReal_sin, Real.cos_neg, Real.sin_neg]
  push_cast
  ring

/-- **C322.** The exchanges of pomerons and of the even trajectory are Regge poles. -/
theorem even_pole (u : Nat) (nu t : ℝ) (hn : 0 < nu) : (evenRe u nu t : ℂ) + (evenIm u nu t : ℂ) * Complex.I = pole u nu t := by
  unfold pole evenRe evenIm
  rw [power_eq _ _ (mul_pos (apr_pos u) hn), F1_eq, mul_comm nu (apr u)]
  unfold traj
  push_cast
  ring

/-- **C322.** The exchange of the odd trajectory is a Regge pole turned by a quarter. -/
theorem odd_pole (nu t : ℝ) (hn : 0 < nu) : (minusRe nu t : ℂ) + (minusIm nu t : ℂ) * Complex.I = Complex.I * pole 3 nu t := by
  unfold pole minusRe minusIm
  rw [power_eq _ _ (mul_pos (apr_pos 3) hn), F1_eq, mul_comm nu (apr 3)]
  unfold traj
  push_cast
  linear_combination (-((X 3 : ℂ) * (form t : ℂ) * (((apr 3 * nu) ^ (1 + eps 3 - apr 3 * t) : ℝ) : ℂ) * Complex.sin (1 / 2 * π * (1 + eps 3 - apr 3 * t)))) * Complex.I_sq

/-! ## Double exchange -/

/-- The coefficients of the exponentials of a single exchange. -/
noncomputable def coef (nu : ℝ) (p : Nat × Nat) : ℂ := sign p.1 * (X p.1 : ℂ) * (Q p.2 : ℂ) * Complex.exp (LL nu p.1)

theorem single_eq (nu t : ℝ) (hn : 0 < nu) : single nu t = -∑ p ∈ range 4 ×ˢ range 3, coef nu p * Complex.exp (-(D nu p.1 p.2) * (t : ℂ)) := by
  unfold single
  rw [Finset.sum_product, ← Finset.sum_neg_distrib]
  apply Finset.sum_congr rfl
  intro u _
  unfold pole
  have hr := mul_pos (apr_pos u) hn
  have hne : (-Complex.I * ((apr u * nu : ℝ) : ℂ)) ≠ 0 := mul_ne_zero (neg_ne_zero.mpr Complex.I_ne_zero) (by exact_mod_cast hr.ne')
  have ha : (apr u : ℂ) ≠ 0 := by exact_mod_cast (apr_pos u).ne'
  have hL : L nu u = (apr u : ℂ) * ((log (apr u * nu) : ℝ) - ((π : ℂ) / 2) * Complex.I) := by
    unfold L
    apply Complex.ext
    · simp
    · simp; ring
  have hpow : (-Complex.I * ((apr u * nu : ℝ) : ℂ)) ^ ((1 + eps u - apr u * t : ℝ) : ℂ) = Complex.exp (LL nu u) * Complex.exp (-(L nu u) * (t : ℂ)) := by
    rw [Complex.cpow_def_of_ne_zero hne, mul_comm (-Complex.I) _, Complex.log_ofReal_mul hr (neg_ne_zero.mpr Complex.I_ne_zero), Complex.log_neg_I,
      ← Complex.exp_add]
    congr 1
    unfold LL
    rw [hL]
    push_cast
    field_simp
    ring
  rw [hpow]
  have hform : ((X u * form t : ℝ) : ℂ) = ∑ i ∈ range 3, (X u : ℂ) * (Q i : ℂ) * Complex.exp (-((q i : ℂ) * (t : ℂ))) := by
    unfold form
    push_cast
    rw [Finset.mul_sum]
    apply Finset.sum_congr rfl
    intro i _
    ring
  rw [hform, mul_neg, Finset.sum_mul, Finset.mul_sum]
  congr 1
  apply Finset.sum_congr rfl
  intro i _
  unfold coef D
  simp only
  rw [neg_add, add_mul, Complex.exp_add, neg_mul]
  ring

theorem foldl_add (f : Nat → ℂ) (n : Nat) (s : ℂ) : (List.range n).foldl (fun S k => S + f k) s = s + ∑ k ∈ range n, f k := by
  induction n with
  | zero => simp
  | succ n ih => rw [List.range_succ, List.foldl_append, ih, Finset.sum_range_succ]; simp [add_assoc]

theorem loops_add (z : Nat → Nat → Nat → Nat → ℂ) : loops (· + ·) z = ∑ u ∈ range 4, ∑ v ∈ range 4, ∑ i ∈ range 3, ∑ j ∈ range 3, z u v i j := by
  unfold loops
  simp only [foldl_add, zero_add]

theorem loops_mul (z : Nat → Nat → Nat → Nat → ℂ) : loops (· * ·) z = 0 := by
  have h : ∀ (f : Nat → ℂ → ℂ), (∀ k, f k 0 = 0) → ∀ n, (List.range n).foldl (fun S k => f k S) 0 = 0 := by
    intro f hf n
    induction n with
    | zero => rfl
    | succ n ih => rw [List.range_succ, List.foldl_append, ih]; simp [hf]
  unfold loops
  refine h (fun u S => _) (fun u => ?_) 4
  refine h (fun v S => _) (fun v => ?_) 4
  refine h (fun i S => _) (fun i => ?_) 3
  exact h (fun j S => S * z u v i j) (fun j => zero_mul _) 3

theorem term_eq (nu t : ℝ) (u v i j : Nat) : term X nu t u v i j
    = coef nu (u, i) * coef nu (v, j) * Complex.exp (-(D nu u i * D nu v j / (D nu u i + D nu v j)) * (t : ℂ)) / (D nu u i + D nu v j)
      * ((1 / (16 * π * nu) : ℝ) : ℂ) := by
  unfold term coef sign
  simp only
  rw [Complex.exp_add, show D nu u i * D nu v j / (D nu u i + D nu v j) * ((-t : ℝ) : ℂ) = -(D nu u i * D nu v j / (D nu u i + D nu v j)) * (t : ℂ) by
    push_cast; ring]
  split_ifs <;> push_cast <;> ring

theorem gauss_line (d e : ℂ) (h : 0 < (d + e).re) (a : ℝ) :
    (∫ x : ℝ, Complex.exp (-d * ((x ^ 2 : ℝ) : ℂ)) * Complex.exp (-e * (((a - x) ^ 2 : ℝ) : ℂ)))
      = (π / (d + e)) ^ (1 / 2 : ℂ) * Complex.exp (-(d * e / (d + e)) * ((a ^ 2 : ℝ) : ℂ)) ∧
    Integrable fun x : ℝ => Complex.exp (-d * ((x ^ 2 : ℝ) : ℂ)) * Complex.exp (-e * (((a - x) ^ 2 : ℝ) : ℂ)) := by
  have hre : (-(d + e)).re < 0 := by rw [Complex.neg_re]; linarith
  have hne : d + e ≠ 0 := by
    intro h0
    rw [h0] at h
    simp at h
  have e1 : (fun x : ℝ => Complex.exp (-d * ((x ^ 2 : ℝ) : ℂ)) * Complex.exp (-e * (((a - x) ^ 2 : ℝ) : ℂ)))
      = fun x : ℝ => Complex.exp (-(d + e) * (x : ℂ) ^ 2 + 2 * e * a * (x : ℂ) + -e * (a : ℂ) ^ 2) := by
    funext x
    rw [← Complex.exp_add]
    congr 1
    push_cast
    ring
  rw [e1]
  refine ⟨?_, integrable_cexp_quadratic' hre _ _⟩
  rw [integral_cexp_quadratic hre, neg_neg]
  congr 2
  push_cast
  field_simp
  ring

theorem gauss_plane (d e : ℂ) (h : 0 < (d + e).re) (a b : ℝ) :
    ∫ x : ℝ, (Complex.exp (-d * ((x ^ 2 : ℝ) : ℂ)) * Complex.exp (-e * (((a - x) ^ 2 : ℝ) : ℂ)))
      * ∫ y : ℝ, Complex.exp (-d * ((y ^ 2 : ℝ) : ℂ)) * Complex.exp (-e * (((b - y) ^ 2 : ℝ) : ℂ))
      = π / (d + e) * Complex.exp (-(d * e / (d + e)) * ((a ^ 2 + b ^ 2 : ℝ) : ℂ)) := by
  rw [integral_mul_const, (gauss_line d e h a).1, (gauss_line d e h b).1]
  have hs : ((π : ℂ) / (d + e)) ^ (1 / 2 : ℂ) * ((π : ℂ) / (d + e)) ^ (1 / 2 : ℂ) = π / (d + e) := by
    have hne : d + e ≠ 0 := by
      intro h0
      rw [h0] at h
      simp at h
    rw [← Complex.cpow_add _ _ (div_ne_zero (by exact_mod_cast pi_ne_zero) hne)]
    norm_num
  rw [mul_mul_mul_comm, hs, ← Complex.exp_add]
  congr 2
  push_cast
  ring

theorem D_re (nu : ℝ) (h : ∀ u, u < 4 → 1 ≤ apr u * nu) (u i : Nat) (hu : u < 4) : 0 < (D nu u i).re := by
  unfold D L
  have := log_nonneg (h u hu)
  have := mul_nonneg (apr_pos u).le this
  have := q_pos i
  simp
  linarith

/-- **C323.** The double exchange is the convolution of two single exchanges over the plane of transverse momenta. -/
theorem double_exchange (nu a b : ℝ) (hn : 0 < nu) (h : ∀ u, u < 4 → 1 ≤ apr u * nu) :
    twopom nu (a ^ 2 + b ^ 2) = Complex.I / ((16 * π ^ 2 * nu : ℝ) : ℂ) * ∫ x : ℝ, ∫ y : ℝ, single nu (x ^ 2 + y ^ 2) * single nu ((a - x) ^ 2 + (b - y) ^ 2) := by
  set S := range 4 ×ˢ range 3 with hS
  have hre : ∀ p ∈ S, ∀ p' ∈ S, 0 < (D nu p.1 p.2 + D nu p'.1 p'.2).re := by
    intro p hp p' hp'
    rw [hS, Finset.mem_product] at hp hp'
    have := D_re nu h p.1 p.2 (by simpa using hp.1)
    have := D_re nu h p'.1 p'.2 (by simpa using hp'.1)
    rw [Complex.add_re]
    linarith
  set E : Nat × Nat → Nat × Nat → ℝ → ℝ → ℂ := fun p p' c x =>
    Complex.exp (-(D nu p.1 p.2) * ((x ^ 2 : ℝ) : ℂ)) * Complex.exp (-(D nu p'.1 p'.2) * (((c - x) ^ 2 : ℝ) : ℂ)) with hE
  have hprod : ∀ x y : ℝ, single nu (x ^ 2 + y ^ 2) * single nu ((a - x) ^ 2 + (b - y) ^ 2)
      = ∑ p ∈ S, ∑ p' ∈ S, (coef nu p * coef nu p' * E p p' a x) * E p p' b y := by
    intro x y
    rw [single_eq nu _ hn, single_eq nu _ hn, neg_mul_neg, Finset.sum_mul_sum]
    apply Finset.sum_congr rfl
    intro p _
    apply Finset.sum_congr rfl
    intro p' _
    rw [hE]
    simp only
    push_cast
    rw [mul_add, mul_add, Complex.exp_add, Complex.exp_add]
    ring
  have hin : ∀ x : ℝ, (∫ y : ℝ, single nu (x ^ 2 + y ^ 2) * single nu ((a - x) ^ 2 + (b - y) ^ 2))
      = ∑ p ∈ S, ∑ p' ∈ S, coef nu p * coef nu p' * (E p p' a x * ∫ y : ℝ, E p p' b y) := by
    intro x
    simp only [hprod]
    rw [integral_finset_sum]
    · apply Finset.sum_congr rfl
      intro p hp
      rw [integral_finset_sum]
      · apply Finset.sum_congr rfl
        intro p' hp'
        rw [integral_const_mul]
        ring
      · intro p' hp'
        exact (gauss_line _ _ (hre p hp p' hp') b).2.const_mul _
    · intro p hp
      apply integrable_finset_sum
      intro p' hp'
      exact (gauss_line _ _ (hre p hp p' hp') b).2.const_mul _
  have hout : (∫ x : ℝ, ∫ y : ℝ, single nu (x ^ 2 + y ^ 2) * single nu ((a - x) ^ 2 + (b - y) ^ 2))
      = ∑ p ∈ S, ∑ p' ∈ S, coef nu p * coef nu p' * (π / (D nu p.1 p.2 + D nu p'.1 p'.2)
        * Complex.exp (-(D nu p.1 p.2 * D nu p'.1 p'.2 / (D nu p.1 p.2 + D nu p'.1 p'.2)) * ((a ^ 2 + b ^ 2 : ℝ) : ℂ))) := by
    simp only [hin]
    rw [integral_finset_sum]
    · apply Finset.sum_congr rfl
      intro p hp
      rw [integral_finset_sum]
      · apply Finset.sum_congr rfl
        intro p' hp'
        rw [integral_const_mul]
        congr 1
        exact gauss_plane _ _ (hre p hp p' hp') a b
      · intro p' hp'
        exact ((gauss_line _ _ (hre p hp p' hp') a).2.mul_const _).const_mul _
    · intro p hp
      apply integrable_finset_sum
      intro p' hp'
      exact ((gauss_line _ _ (hre p hp p' hp') a).2.mul_const _).const_mul _
  rw [hout]
  unfold twopom
  rw [loops_add, hS]
  have hreorder : ∀ z : Nat → Nat → Nat → Nat → ℂ, ∑ u ∈ range 4, ∑ v ∈ range 4, ∑ i ∈ range 3, ∑ j ∈ range 3, z u v i j
      = ∑ p ∈ range 4 ×ˢ range 3, ∑ p' ∈ range 4 ×ˢ range 3, z p.1 p'.1 p.2 p'.2 := by
    intro z
    rw [Finset.sum_product]
    apply Finset.sum_congr rfl
    intro u _
    simp only [Finset.sum_product]
    rw [Finset.sum_comm]
  rw [hreorder, Finset.mul_sum, Finset.sum_mul]
  apply Finset.sum_congr rfl
  intro p _
  rw [Finset.mul_sum, Finset.sum_mul]
  apply Finset.sum_congr rfl
  intro p' _
  rw [term_eq]
  have hp0 : (π : ℂ) ≠ 0 := by exact_mod_cast pi_ne_zero
  have hn0 : (nu : ℂ) ≠ 0 := by exact_mod_cast hn.ne'
  push_cast
  field_simp

example : ∀ u, u < 4 → 1 ≤ apr u * 23 := by
  intro u hu
  interval_cases u <;> norm_num [apr]

/-- **C323 fails:** the double exchange of protons and antiprotons is always zero, as the terms are multiplied into a sum that starts with zero. -/
theorem double_exchange_bar_violated (nu t : ℝ) : twopombar nu t = 0 := by
  unfold twopombar
  rw [loops_mul, zero_mul]

/-! ## Cross section -/

/-- The amplitude of nuclear scattering: single and double exchanges and three gluons. -/
noncomputable def Spec.nuclear (nu t : ℝ) : ℂ := (single nu t + (lam : ℂ) * twopom nu t) / (nu : ℂ) + (ggg t : ℂ)

theorem nuclear_eq (nu t : ℝ) (hn : 0 < nu) : (nuclear nu t).re = re0 nu t ∧ (nuclear nu t).im = im0 nu t := by
  have h : nuclear nu t = (re0 nu t : ℂ) + (im0 nu t : ℂ) * Complex.I := by
    unfold nuclear re0 im0 single
    have h0 := even_pole 0 nu t hn
    have h1 := even_pole 1 nu t hn
    have h2 := even_pole 2 nu t hn
    have h3 := odd_pole nu t hn
    have hn0 : (nu : ℂ) ≠ 0 := by exact_mod_cast hn.ne'
    simp only [Finset.sum_range_succ, Finset.sum_range_zero, Spec.sign]
    norm_num
    rw [← h0, ← h1, ← h2, ← h3]
    nth_rewrite 1 [← Complex.re_add_im (twopom nu t)]
    field_simp
    ring
  rw [h]
  constructor <;> simp

/-- **C324.** Without the Coulomb part the cross section is the square of the modulus of the amplitude, and so not negative. -/
theorem nuclear_cross (t sqrts : ℝ) (hn : 0 < tnuOf t sqrts) :
    pomeron false t sqrts = Complex.normSq (nuclear (tnuOf t sqrts) t) * (389 / 1000) / (16 * π) / 1000 ∧ 0 ≤ pomeron false t sqrts := by
  have h : pomeron false t sqrts = Complex.normSq (nuclear (tnuOf t sqrts) t) * (389 / 1000) / (16 * π) / 1000 := by
    obtain ⟨e1, e2⟩ := nuclear_eq _ t hn
    rw [Complex.normSq_apply, e1, e2]
    unfold pomeron alphaOf
    simp only [Bool.false_eq_true, if_false]
    have hs : √(1 / 4 * (389 / 1000)) ^ 2 = 1 / 4 * (389 / 1000) := sq_sqrt (by norm_num)
    rw [mul_pow, mul_pow, hs]
    have := pi_ne_zero
    field_simp
    ring
  refine ⟨h, ?_⟩
  rw [h]
  have := Complex.normSq_nonneg (nuclear (tnuOf t sqrts) t)
  positivity

/-- **C324.** With it: the Coulomb amplitude, turned by the small phase to first order, is added to that of nuclear scattering. -/
theorem coulomb_cross (t sqrts : ℝ) (hn : 0 < tnuOf t sqrts) (hi : im0 (tnuOf t sqrts) t ≠ 0) :
    let ac := -(72973525376 / 10000000000000) * F1 t / t
    let beta := 72973525376 / 10000000000000 * phase t sqrts
    pomeron true t sqrts = (Complex.normSq (((2 * π * ac : ℝ) : ℂ) * (1 + (beta : ℂ) * Complex.I) + (√(1 / 4 * (389 / 1000)) : ℂ) * nuclear (tnuOf t sqrts) t)
      - (2 * π * ac * beta) ^ 2) / (4 * π) / 1000 := by
  intro ac beta
  obtain ⟨e1, e2⟩ := nuclear_eq _ t hn
  have hsp : 0 < √(1 / 4 * (389 / 1000)) := sqrt_pos.mpr (by norm_num)
  have hre : (((2 * π * ac : ℝ) : ℂ) * (1 + (beta : ℂ) * Complex.I) + (√(1 / 4 * (389 / 1000)) : ℂ) * nuclear (tnuOf t sqrts) t).re
      = 2 * π * ac + √(1 / 4 * (389 / 1000)) * re0 (tnuOf t sqrts) t := by
    rw [Complex.add_re, Complex.mul_re, Complex.mul_re, e1]
    generalize √(1 / 4 * (389 / 1000)) = r
    simp
  have him : (((2 * π * ac : ℝ) : ℂ) * (1 + (beta : ℂ) * Complex.I) + (√(1 / 4 * (389 / 1000)) : ℂ) * nuclear (tnuOf t sqrts) t).im
      = 2 * π * ac * beta + √(1 / 4 * (389 / 1000)) * im0 (tnuOf t sqrts) t := by
    rw [Complex.add_im, Complex.mul_im, Complex.mul_im, e2]
    generalize √(1 / 4 * (389 / 1000)) = r
    simp
  rw [Complex.normSq_apply, hre, him]
  unfold pomeron alphaOf
  simp only [if_true]
  change (4 * π ^ 2 * ac ^ 2 + _ + _ + 2 * (_ + beta) * 2 * π * ac * _) / (4 * π) / 1000 = _
  generalize √(1 / 4 * (389 / 1000)) = r at *
  have := pi_ne_zero
  have hr : re0 (tnuOf t sqrts) t * r / (im0 (tnuOf t sqrts) t * r) * (im0 (tnuOf t sqrts) t * r) = re0 (tnuOf t sqrts) t * r :=
    div_mul_cancel₀ _ (mul_ne_zero hi hsp.ne')
  congr 2
  linear_combination (4 * π * ac) * hr

example : 0 < tnuOf 1 10 := by
  unfold tnuOf
  norm_num

/-! ## Three gluons -/

theorem t0_pos : 0 < t0 := by unfold t0; norm_num

theorem ggg_right (t : ℝ) (h : t0 ≤ t) : ggg t = √(9 / 100 * 16 * π / (389 / 1000)) / t ^ 4 := by
  unfold ggg
  simp only
  by_cases h' : t > t0
  · rw [if_pos h']
  · have : t = t0 := le_antisymm (not_lt.mp h') h
    subst this
    rw [if_neg h']
    have := t0_pos.ne'
    have e : 4 - 4 * t0 / t0 = 0 := by field_simp; norm_num
    rw [e, exp_zero, mul_one]

theorem ggg_left (t : ℝ) (h : t ≤ t0) : ggg t = √(9 / 100 * 16 * π / (389 / 1000)) * exp (4 - 4 * t / t0) / t0 ^ 4 := by
  unfold ggg
  simp only
  rw [if_neg (not_lt.mpr h)]

/-- **C325.** The exchange of three gluons has no jump and no kink: it has a derivative everywhere, also where the formula changes. -/
theorem gluons_smooth (t : ℝ) : ∃ d, HasDerivAt ggg d t ∧ d < 0 := by
  set C := √(9 / 100 * 16 * π / (389 / 1000)) with hC
  have hCp : 0 < C := sqrt_pos.mpr (by positivity)
  have h0 := t0_pos
  have hl : ∀ t : ℝ, HasDerivAt (fun t => C * exp (4 - 4 * t / t0) / t0 ^ 4) (C * (exp (4 - 4 * t / t0) * (-(4 / t0))) / t0 ^ 4) t := by
    intro t
    have h1 : HasDerivAt (fun t : ℝ => 4 - 4 * t / t0) (-(4 / t0)) t := by
      have := ((hasDerivAt_id t).const_mul (4 / t0)).const_sub 4
      refine (this.congr_deriv (by simp)).congr_of_eventuallyEq ?_
      filter_upwards with x
      simp only [id]
      ring
    exact (h1.exp.const_mul C).div_const _
  have hr : ∀ t : ℝ, t ≠ 0 → HasDerivAt (fun t => C / t ^ 4) (-(C * 4) / t ^ 5) t := by
    intro t ht
    have h1 := (hasDerivAt_pow 4 t)
    have h2 := (hasDerivAt_const t C).div h1 (pow_ne_zero 4 ht)
    refine h2.congr_deriv ?_
    field_simp
    push_cast
    ring
  rcases lt_trichotomy t t0 with h | h | h
  · refine ⟨_, (hl t).congr_of_eventuallyEq ?_, ?_⟩
    · filter_upwards [Iio_mem_nhds h] with x hx
      exact ggg_left x (le_of_lt hx)
    · have : 0 < C * (exp (4 - 4 * t / t0) * (4 / t0)) / t0 ^ 4 := by positivity
      have e : C * (exp (4 - 4 * t / t0) * (-(4 / t0))) / t0 ^ 4 = -(C * (exp (4 - 4 * t / t0) * (4 / t0)) / t0 ^ 4) := by ring
      rw [e]
      linarith
  · subst h
    refine ⟨-(C * 4) / t0 ^ 5, ?_, ?_⟩
    · have e : C * (exp (4 - 4 * t0 / t0) * (-(4 / t0))) / t0 ^ 4 = -(C * 4) / t0 ^ 5 := by
        have e1 : 4 - 4 * t0 / t0 = 0 := by field_simp; norm_num
        rw [e1, exp_zero]
        field_simp
      have hL : HasDerivWithinAt ggg (-(C * 4) / t0 ^ 5) (Set.Iic t0) t0 := by
        have := (hl t0).congr_deriv e
        exact this.hasDerivWithinAt.congr (fun x hx => ggg_left x hx) (ggg_left t0 le_rfl)
      have hR : HasDerivWithinAt ggg (-(C * 4) / t0 ^ 5) (Set.Ici t0) t0 :=
        (hr t0 h0.ne').hasDerivWithinAt.congr (fun x hx => ggg_right x hx) (ggg_right t0 le_rfl)
      have := hL.union hR
      rw [Set.Iic_union_Ici] at this
      exact hasDerivWithinAt_univ.mp this
    · have : 0 < C * 4 / t0 ^ 5 := by positivity
      rw [neg_div]
      linarith
  · have ht : 0 < t := h0.trans h
    refine ⟨_, (hr t ht.ne').congr_of_eventuallyEq ?_, ?_⟩
    · filter_upwards [Ioi_mem_nhds h] with x hx
      exact ggg_right x (le_of_lt hx)
    · have : 0 < C * 4 / t ^ 5 := by positivity
      rw [neg_div]
      linarith

end Verif.Elastic
