import Verif.Elastic.Regge
import Mathlib.Analysis.Real.Pi.Bounds
import Mathlib.Analysis.SpecialFunctions.Trigonometric.Bounds

/-!
# A case in which the imaginary part of the amplitude does not vanish
-/

namespace Verif.Elastic
open Finset Real Verif.Elastic.Spec

/-- The modulus of an exchange at t zero. -/
noncomputable def size (nu : ℝ) (u : Nat) : ℝ := X u * (apr u * nu) ^ (1 + eps u)

theorem size_nonneg (nu : ℝ) (hn : 0 < nu) (u : Nat) : 0 ≤ size nu u := by
  unfold size
  have h : 0 ≤ X u := by unfold X; split <;> norm_num
  have := rpow_nonneg (mul_pos (apr_pos u) hn).le (1 + eps u)
  positivity

theorem Q_nonneg (i : Nat) : 0 ≤ Q i := by unfold Q; split <;> norm_num

theorem norm_coef (nu : ℝ) (hn : 0 < nu) (p : Nat × Nat) : ‖coef nu p‖ = size nu p.1 * Q p.2 := by
  have hX : 0 ≤ X p.1 := by unfold X; split <;> norm_num
  have hs : ‖Spec.sign p.1‖ = 1 := by unfold Spec.sign; split_ifs <;> simp
  have hr := mul_pos (apr_pos p.1) hn
  have ha := (apr_pos p.1).ne'
  unfold coef size
  rw [norm_mul, norm_mul, norm_mul, hs, Complex.norm_exp, Complex.norm_real, Complex.norm_real, norm_of_nonneg hX, norm_of_nonneg (Q_nonneg _),
    rpow_def_of_pos hr]
  have : (LL nu p.1).re = log (apr p.1 * nu) * (1 + eps p.1) := by
    unfold LL L
    rw [Complex.re_ofReal_mul]
    simp only
    field_simp
  rw [this]
  ring

theorem norm_twopom (nu : ℝ) (hn : 0 < nu) (h : ∀ u, u < 4 → 1 ≤ apr u * nu) :
    ‖twopom nu 0‖ ≤ ∑ u ∈ range 4, ∑ v ∈ range 4, ∑ i ∈ range 3, ∑ j ∈ range 3, size nu u * size nu v * (Q i * Q j / (q i + q j)) / (16 * π * nu) := by
  unfold twopom
  rw [loops_add, norm_mul, Complex.norm_I, mul_one]
  refine (norm_sum_le _ _).trans (Finset.sum_le_sum fun u hu => ?_)
  refine (norm_sum_le _ _).trans (Finset.sum_le_sum fun v hv => ?_)
  refine (norm_sum_le _ _).trans (Finset.sum_le_sum fun i _ => ?_)
  refine (norm_sum_le _ _).trans (Finset.sum_le_sum fun j _ => ?_)
  rw [term_eq, Complex.ofReal_zero, mul_zero, Complex.exp_zero, mul_one, norm_mul, norm_div, norm_mul, norm_coef nu hn, norm_coef nu hn, Complex.norm_real]
  have hp : 0 < 16 * π * nu := by positivity
  rw [norm_of_nonneg (by positivity : (0 : ℝ) ≤ 1 / (16 * π * nu))]
  have hq : q i + q j ≤ ‖D nu u i + D nu v j‖ := by
    refine le_trans ?_ (Complex.re_le_norm _)
    unfold D L
    have := mul_nonneg (apr_pos u).le (log_nonneg (h u (by simpa using hu)))
    have := mul_nonneg (apr_pos v).le (log_nonneg (h v (by simpa using hv)))
    simp
    linarith
  have hq0 : 0 < q i + q j := add_pos (q_pos i) (q_pos j)
  have h1 : 0 ≤ size nu u * Q i * (size nu v * Q j) :=
    mul_nonneg (mul_nonneg (size_nonneg nu hn u) (Q_nonneg i)) (mul_nonneg (size_nonneg nu hn v) (Q_nonneg j))
  calc size nu u * Q i * (size nu v * Q j) / ‖D nu u i + D nu v j‖ * (1 / (16 * π * nu))
      ≤ size nu u * Q i * (size nu v * Q j) / (q i + q j) * (1 / (16 * π * nu)) := by gcongr
    _ = _ := by ring

theorem pow_bound (x p c : ℝ) (a b : ℕ) (hx : 1 ≤ x) (hb : b ≠ 0) (hc : 0 ≤ c) (hp : p ≤ (a : ℝ) / b) (h : x ^ a ≤ c ^ b) : x ^ p ≤ c := by
  refine (rpow_le_rpow_of_exponent_le hx hp).trans ?_
  have h1 : (x ^ ((a : ℝ) / b)) ^ b = x ^ a := by
    rw [← rpow_natCast (x ^ ((a : ℝ) / b)) b, ← rpow_mul (by linarith), div_mul_cancel₀ _ (by exact_mod_cast hb), rpow_natCast]
  exact le_of_pow_le_pow_left₀ hb hc (by rw [h1]; exact h)

theorem im_pos : 0 < im0 23 0 := by
  have hap : ∀ u, u < 4 → 1 ≤ apr u * 23 := by
    intro u hu
    interval_cases u <;> norm_num [apr]
  have s0 : size 23 0 ≤ 1800 := by
    have : (apr 0 * 23) ^ (1 + eps 0) ≤ (788 / 100 : ℝ) :=
      pow_bound _ _ _ 10 9 (hap 0 (by norm_num)) (by norm_num) (by norm_num) (by norm_num [eps]) (by norm_num [apr])
    unfold size
    have hX : X 0 = 228359 / 1000 := rfl
    rw [hX]
    linarith
  have s1 : size 23 1 ≤ 207 := by
    have : (apr 1 * 23) ^ (1 + eps 1) ≤ (1067 / 1000 : ℝ) :=
      pow_bound _ _ _ 2 1 (hap 1 (by norm_num)) (by norm_num) (by norm_num) (by norm_num [eps]) (by norm_num [apr])
    unfold size
    have hX : X 1 = 193811 / 1000 := rfl
    rw [hX]
    linarith
  have s2 : size 23 2 ≤ 2260 := by
    have : (apr 2 * 23) ^ (1 + eps 2) ≤ (435 / 100 : ℝ) :=
      pow_bound _ _ _ 1 2 (hap 2 (by norm_num)) (by norm_num) (by norm_num) (by norm_num [eps]) (by norm_num [apr])
    unfold size
    have hX : X 2 = 518686 / 1000 := rfl
    rw [hX]
    linarith
  have s3 : size 23 3 ≤ 91 := by
    have : (apr 3 * 23) ^ (1 + eps 3) ≤ (84 / 10 : ℝ) :=
      pow_bound _ _ _ 7 10 (hap 3 (by norm_num)) (by norm_num) (by norm_num) (by norm_num [eps]) (by norm_num [apr])
    unfold size
    have hX : X 3 = 107843 / 10000 := rfl
    rw [hX]
    linarith
  have n0 := size_nonneg 23 (by norm_num) 0
  have n1 := size_nonneg 23 (by norm_num) 1
  have n2 := size_nonneg 23 (by norm_num) 2
  have n3 := size_nonneg 23 (by norm_num) 3
  have l0 : 1460 ≤ size 23 0 := by
    have : (apr 0 * 23) ^ (1 : ℝ) ≤ (apr 0 * 23) ^ (1 + eps 0) := rpow_le_rpow_of_exponent_le (hap 0 (by norm_num)) (by norm_num [eps])
    rw [rpow_one] at this
    unfold size
    have hX : X 0 = 228359 / 1000 := rfl
    have hA : apr 0 = 278037 / 1000000 := rfl
    rw [hX]
    rw [hA] at this ⊢
    linarith
  have htw : |(twopom 23 0).im| ≤ 2260 := by
    refine (Complex.abs_im_le_norm _).trans ((norm_twopom 23 (by norm_num) hap).trans ?_)
    have e : ∑ u ∈ range 4, ∑ v ∈ range 4, ∑ i ∈ range 3, ∑ j ∈ range 3, size 23 u * size 23 v * (Q i * Q j / (q i + q j)) / (16 * π * 23)
        = (size 23 0 + size 23 1 + size 23 2 + size 23 3) ^ 2 * (∑ i ∈ range 3, ∑ j ∈ range 3, Q i * Q j / (q i + q j)) / (16 * π * 23) := by
      simp only [Finset.sum_range_succ, Finset.sum_range_zero]
      ring
    rw [e]
    have hsum : ∑ i ∈ range 3, ∑ j ∈ range 3, Q i * Q j / (q i + q j) ≤ (131 / 1000 : ℝ) := by
      simp only [Finset.sum_range_succ, Finset.sum_range_zero, Q, q]
      norm_num
    have hsum0 : 0 ≤ ∑ i ∈ range 3, ∑ j ∈ range 3, Q i * Q j / (q i + q j) :=
      Finset.sum_nonneg fun i _ => Finset.sum_nonneg fun j _ => div_nonneg (mul_nonneg (Q_nonneg i) (Q_nonneg j)) (add_pos (q_pos i) (q_pos j)).le
    have hT : (size 23 0 + size 23 1 + size 23 2 + size 23 3) ^ 2 ≤ 4358 ^ 2 := by
      apply pow_le_pow_left₀ (by linarith)
      linarith
    rw [div_le_iff₀ (by positivity)]
    have := pi_gt_three
    calc _ ≤ (4358 : ℝ) ^ 2 * (131 / 1000) := by gcongr
      _ ≤ _ := by nlinarith
  have hF : F1 0 = 1 := form_factor.1
  have hsin0 : (98 / 100 : ℝ) ≤ sin (1 / 2 * π * traj 0 0) := by
    have e : 1 / 2 * π * traj 0 0 = 1 / 2 * π * (106231 / 1000000) + π / 2 := by
      unfold traj
      have : eps 0 = 106231 / 1000000 := rfl
      rw [this]
      ring
    rw [e, sin_add_pi_div_two]
    have h := one_sub_sq_div_two_le_cos (x := 1 / 2 * π * (106231 / 1000000))
    have h4 := pi_lt_d2
    have h3 := pi_gt_three
    have : (1 / 2 * π * (106231 / 1000000)) ^ 2 ≤ (168 / 1000) ^ 2 := by
      apply pow_le_pow_left₀ (by positivity)
      linarith
    linarith
  have hsin : ∀ u, 1 / 2 * π * traj u 0 ∈ Set.Icc 0 π → 0 ≤ sin (1 / 2 * π * traj u 0) := fun u hu => sin_nonneg_of_mem_Icc hu
  have hp := pi_pos
  have i0 : evenIm 0 23 0 = size 23 0 * sin (1 / 2 * π * traj 0 0) := by
    unfold evenIm size
    rw [hF, mul_comm (23 : ℝ)]
    have : traj 0 0 = 1 + eps 0 := by unfold traj; ring
    rw [this]
    ring
  have i1 : 0 ≤ evenIm 1 23 0 := by
    have h1 := hsin 1 ⟨by norm_num [traj, eps]; positivity, by norm_num [traj, eps]; linarith⟩
    unfold evenIm
    rw [hF]
    have : 0 ≤ X 1 := by norm_num [X]
    have : 0 ≤ (23 * apr 1) ^ traj 1 0 := rpow_nonneg (mul_nonneg (by norm_num) (apr_pos 1).le) _
    positivity
  have i2 : 0 ≤ evenIm 2 23 0 := by
    have h1 := hsin 2 ⟨by norm_num [traj, eps]; positivity, by norm_num [traj, eps]; linarith⟩
    unfold evenIm
    rw [hF]
    have : 0 ≤ X 2 := by norm_num [X]
    have : 0 ≤ (23 * apr 2) ^ traj 2 0 := rpow_nonneg (mul_nonneg (by norm_num) (apr_pos 2).le) _
    positivity
  have i3 : -91 ≤ minusIm 23 0 := by
    have e : minusIm 23 0 = -(size 23 3 * cos (1 / 2 * π * traj 3 0)) := by
      unfold minusIm size
      rw [hF, mul_comm (23 : ℝ)]
      have : traj 3 0 = 1 + eps 3 := by unfold traj; ring
      rw [this]
      ring
    rw [e]
    have := cos_le_one (1 / 2 * π * traj 3 0)
    nlinarith
  unfold im0
  apply div_pos _ (by norm_num)
  rw [i0]
  have h1 := mul_le_mul l0 hsin0 (by norm_num) n0
  have h2 := (abs_le.mp htw).1
  have hl : lam = 521223 / 1000000 := rfl
  rw [hl]
  linarith

theorem im_continuous (nu : ℝ) (hn : 0 < nu) : Continuous (im0 nu) := by
  have hF : Continuous F1 := by
    have : F1 = form := funext F1_eq
    rw [this]
    unfold form
    fun_prop
  have ht : ∀ u, Continuous (traj u) := by
    intro u
    unfold traj
    fun_prop
  have hp : ∀ u, Continuous fun t => (nu * apr u) ^ traj u t := fun u =>
    continuous_const.rpow (ht u) fun t => Or.inl (mul_pos hn (apr_pos u)).ne'
  have he : ∀ u, Continuous (evenIm u nu) := by
    intro u
    have := ht u
    have := hp u
    unfold evenIm
    fun_prop
  have hm : Continuous (minusIm nu) := by
    have := ht 3
    have := hp 3
    unfold minusIm
    fun_prop
  have htw : Continuous (twopom nu) := by
    have : twopom nu = fun t => (∑ u ∈ range 4, ∑ v ∈ range 4, ∑ i ∈ range 3, ∑ j ∈ range 3, term X nu t u v i j) * Complex.I := by
      funext t
      unfold twopom
      rw [loops_add]
    rw [this]
    simp only [term_eq]
    refine Continuous.mul ?_ continuous_const
    refine continuous_finsetSum _ fun u _ => continuous_finsetSum _ fun v _ => continuous_finsetSum _ fun i _ => continuous_finsetSum _ fun j _ => ?_
    refine Continuous.mul (Continuous.div_const ?_ _) continuous_const
    fun_prop
  have h0 := he 0
  have h1 := he 1
  have h2 := he 2
  have h3 : Continuous fun t => (twopom nu t).im := Complex.continuous_im.comp htw
  exact (((((h0.add h1).add h2).add hm).add (continuous_const.mul h3))).div_const nu

/-- There are collisions that meet the conditions of `coulomb_cross`. -/
theorem coulomb_case : ∃ t sqrts : ℝ, 0 < t ∧ 0 < tnuOf t sqrts ∧ im0 (tnuOf t sqrts) t ≠ 0 := by
  have hc := (im_continuous 23 (by norm_num)).continuousAt (x := 0)
  have hev := hc.eventually (lt_mem_nhds im_pos)
  obtain ⟨e, he, h⟩ := Metric.eventually_nhds_iff.mp hev
  set m : ℝ := 93827203 / 100000000 with hm
  refine ⟨e / 2, √(23 + m * m + m * m + 1 / 2 * (e / 2)), by linarith, ?_, ?_⟩ <;>
    have hv : tnuOf (e / 2) √(23 + m * m + m * m + 1 / 2 * (e / 2)) = 23 := by
      unfold tnuOf
      rw [mul_self_sqrt (by positivity), ← hm]
      ring
  · rw [hv]; norm_num
  · rw [hv]
    refine (h ?_).ne'
    rw [dist_zero_right, norm_of_nonneg (by linarith)]
    linarith

end Verif.Elastic
