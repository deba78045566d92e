import Mathlib.Algebra.Field.GeomSum
import Verif.Tunes.Lemmas

/-!
# Lemmas: the transform of a tone with the filter of Hanning
-/

namespace Verif.Tunes

open Verif Spec

/-- `exp(2 i alpha)`. -/
noncomputable def unit (al : ℝ) : ℂ := Complex.exp ((2 * al : ℝ) * Complex.I)

theorem unit_mul (a b : ℝ) : unit a * unit b = unit (a + b) := by
  rw [unit, unit, unit, ← Complex.exp_add]
  congr 1
  push_cast
  ring

theorem unit_pow (a : ℝ) (k : Nat) : unit a ^ k = unit (k * a) := by
  rw [unit, unit, ← Complex.exp_nat_mul]
  congr 1
  push_cast
  ring

theorem unit_zero : unit 0 = 1 := by simp [unit]

theorem unit_ne (a : ℝ) : unit a ≠ 0 := Complex.exp_ne_zero _

theorem unit_norm (a : ℝ) : ‖unit a‖ = 1 := Complex.norm_exp_ofReal_mul_I _

theorem unit_re (a : ℝ) : (unit a).re = Real.cos (2 * a) := Complex.exp_ofReal_mul_I_re _

theorem unit_im (a : ℝ) : (unit a).im = Real.sin (2 * a) := Complex.exp_ofReal_mul_I_im _

theorem unit_one (a : ℝ) (h : Real.sin a = 0) : unit a = 1 := by
  apply Complex.ext
  · rw [unit_re, Real.cos_two_mul, Complex.one_re]
    have := Real.sin_sq_add_cos_sq a
    rw [h] at this
    linarith
  · rw [unit_im, Real.sin_two_mul, h]
    simp

theorem norm_minus (a : ℝ) : ‖1 - unit a‖ = 2 * |Real.sin a| := by
  have h : ‖1 - unit a‖ ^ 2 = (2 * |Real.sin a|) ^ 2 := by
    rw [Complex.sq_norm, Complex.normSq_apply, Complex.sub_re, Complex.sub_im, unit_re, unit_im, Complex.one_re, Complex.one_im, mul_pow, sq_abs,
      Real.cos_two_mul, Real.sin_two_mul]
    have := Real.sin_sq_add_cos_sq a
    nlinarith
  exact (pow_left_inj₀ (norm_nonneg _) (by positivity) (by norm_num)).1 h

theorem norm_plus (a : ℝ) : ‖1 + unit a‖ = 2 * |Real.cos a| := by
  have h : ‖1 + unit a‖ ^ 2 = (2 * |Real.cos a|) ^ 2 := by
    rw [Complex.sq_norm, Complex.normSq_apply, Complex.add_re, Complex.add_im, unit_re, unit_im, Complex.one_re, Complex.one_im, mul_pow, sq_abs,
      Real.cos_two_mul, Real.sin_two_mul]
    have := Real.sin_sq_add_cos_sq a
    nlinarith
  exact (pow_left_inj₀ (norm_nonneg _) (by positivity) (by norm_num)).1 h

/-- The geometric sum. -/
noncomputable def geom (n : Nat) (y : ℂ) : ℂ := ∑ k ∈ Finset.range n, y ^ k

theorem geom_mul (n : Nat) (y : ℂ) : (1 - y) * geom n y = 1 - y ^ n := by
  rw [geom, mul_neg_geom_sum]

/-- The transform of the filter alone. -/
noncomputable def filtered (n : Nat) (y : ℂ) : ℂ := ∑ k ∈ Finset.range n, ((Real.sin (Real.pi * (k + 1) / n) ^ 2 : ℝ) : ℂ) * y ^ k

theorem filtered_geom (n : Nat) (y : ℂ) : filtered n y = 1 / 2 * geom n y - 1 / 4 * unit (Real.pi / n) * geom n (y * unit (Real.pi / n)) -
    1 / 4 * unit (-(Real.pi / n)) * geom n (y * unit (-(Real.pi / n))) := by
  simp only [filtered, geom, Finset.mul_sum]
  rw [← Finset.sum_sub_distrib, ← Finset.sum_sub_distrib]
  refine Finset.sum_congr rfl fun k _ => ?_
  have h : ((Real.sin (Real.pi * (k + 1) / n) ^ 2 : ℝ) : ℂ) = 1 / 2 - 1 / 4 * unit ((k + 1) * (Real.pi / n)) - 1 / 4 * unit (-((k + 1) * (Real.pi / n))) := by
    rw [show Real.pi * (k + 1) / n = (k + 1) * (Real.pi / n) by ring]
    set x := (k + 1) * (Real.pi / n)
    apply Complex.ext
    · simp only [Complex.sub_re, Complex.mul_re, Complex.ofReal_re, unit_re, unit_im]
      rw [show 2 * -x = -(2 * x) by ring, Real.cos_neg, Real.cos_two_mul]
      have := Real.sin_sq_add_cos_sq x
      norm_num
      linarith
    · simp only [Complex.sub_im, Complex.mul_im, Complex.ofReal_im, unit_re, unit_im]
      rw [show 2 * -x = -(2 * x) by ring, Real.sin_neg]
      norm_num
  rw [h, mul_pow, mul_pow, unit_pow, unit_pow]
  have e1 : unit ((k + 1) * (Real.pi / n)) = unit (Real.pi / n) * unit (k * (Real.pi / n)) := by rw [unit_mul]; congr 1; ring
  have e2 : unit (-((k + 1) * (Real.pi / n))) = unit (-(Real.pi / n)) * unit (k * -(Real.pi / n)) := by rw [unit_mul]; congr 1; ring
  rw [e1, e2]
  ring

theorem unit_turn (n : Nat) (hn : 0 < n) : unit (Real.pi / n) ^ n = 1 ∧ unit (-(Real.pi / n)) ^ n = 1 := by
  have hn' : (n : ℝ) ≠ 0 := by exact_mod_cast hn.ne'
  rw [unit_pow, unit_pow]
  refine ⟨?_, ?_⟩ <;> apply unit_one
  · rw [mul_div_cancel₀ _ hn', Real.sin_pi]
  · rw [mul_neg, mul_div_cancel₀ _ hn', Real.sin_neg, Real.sin_pi, neg_zero]

theorem filtered_mul (n : Nat) (hn : 0 < n) (y : ℂ) :
    (1 - y) * (1 - y * unit (Real.pi / n)) * (1 - y * unit (-(Real.pi / n))) * filtered n y =
      1 / 4 * (1 - y ^ n) * (1 + y) * ((4 * Real.sin (Real.pi / n) ^ 2 : ℝ) : ℂ) := by
  have g0 := geom_mul n y
  have g1 := geom_mul n (y * unit (Real.pi / n))
  have g2 := geom_mul n (y * unit (-(Real.pi / n)))
  obtain ⟨t1, t2⟩ := unit_turn n hn
  rw [mul_pow, t1, mul_one] at g1
  rw [mul_pow, t2, mul_one] at g2
  have hv : unit (Real.pi / n) * unit (-(Real.pi / n)) = 1 := by rw [unit_mul, add_neg_cancel, unit_zero]
  have hg : ((4 * Real.sin (Real.pi / n) ^ 2 : ℝ) : ℂ) = 2 - unit (Real.pi / n) - unit (-(Real.pi / n)) := by
    set x := Real.pi / n
    apply Complex.ext
    · simp only [Complex.sub_re, Complex.ofReal_re, unit_re]
      rw [show 2 * -x = -(2 * x) by ring, Real.cos_neg, Real.cos_two_mul]
      have := Real.sin_sq_add_cos_sq x
      norm_num
      linarith
    · simp only [Complex.sub_im, Complex.ofReal_im, unit_im]
      rw [show 2 * -x = -(2 * x) by ring, Real.sin_neg]
      norm_num
  rw [hg, filtered_geom]
  set w := unit (Real.pi / n)
  set v := unit (-(Real.pi / n))
  set G0 := geom n y
  set G1 := geom n (y * w)
  set G2 := geom n (y * v)
  have step : (1 - y) * (1 - y * w) * (1 - y * v) * (1 / 2 * G0 - 1 / 4 * w * G1 - 1 / 4 * v * G2) =
      1 / 2 * (1 - y * w) * (1 - y * v) * ((1 - y) * G0) - 1 / 4 * w * (1 - y) * (1 - y * v) * ((1 - y * w) * G1) -
        1 / 4 * v * (1 - y) * (1 - y * w) * ((1 - y * v) * G2) := by ring
  rw [step, g0, g1, g2]
  linear_combination (1 - y ^ n) * (1 / 2 * y ^ 2 + 1 / 2 * y * (1 - y)) * hv

/-- The norm of the transform of the filter, for a tone beside the bin. -/
theorem filtered_norm (n : Nat) (hn : 0 < n) (al : ℝ) :
    8 * |Real.sin al| * |Real.sin (al + Real.pi / n)| * |Real.sin (al - Real.pi / n)| * ‖filtered n (unit al)‖ =
      4 * |Real.sin (n * al)| * |Real.cos al| * Real.sin (Real.pi / n) ^ 2 := by
  have h := congrArg norm (filtered_mul n hn (unit al))
  rw [norm_mul, norm_mul, norm_mul, norm_mul, norm_mul, norm_mul, unit_mul, unit_mul, unit_pow, norm_minus, norm_minus, norm_minus,
    norm_minus, norm_plus, Complex.norm_real, Real.norm_eq_abs, abs_of_nonneg (by positivity : (0 : ℝ) ≤ 4 * Real.sin (Real.pi / n) ^ 2),
    ← sub_eq_add_neg] at h
  have h4 : ‖(1 / 4 : ℂ)‖ = 1 / 4 := by norm_num
  rw [h4] at h
  linarith

theorem geom_zero (n : Nat) (hn : 0 < n) (al : ℝ) (h1 : Real.sin (n * al) = 0) (h2 : Real.sin al ≠ 0) : geom n (unit al) = 0 := by
  have h := geom_mul n (unit al)
  rw [unit_pow, unit_one _ h1, sub_self] at h
  refine (mul_eq_zero.1 h).resolve_left ?_
  intro h3
  have := norm_minus al
  rw [h3, norm_zero] at this
  have : |Real.sin al| = 0 := by linarith
  exact h2 (abs_eq_zero.1 this)

theorem geom_one (n : Nat) : geom n 1 = n := by simp [geom]

theorem geom_int (n : Nat) (hn : 0 < n) (r : ℤ) : geom n (unit (r * (Real.pi / n))) = if (n : ℤ) ∣ r then (n : ℂ) else 0 := by
  have hn' : (n : ℝ) ≠ 0 := by exact_mod_cast hn.ne'
  by_cases h : (n : ℤ) ∣ r
  · rw [if_pos h]
    obtain ⟨m, rfl⟩ := h
    rw [unit_one, geom_one]
    rw [show ((n * m : ℤ) : ℝ) * (Real.pi / n) = m * Real.pi by push_cast; field_simp]
    exact Real.sin_int_mul_pi m
  · rw [if_neg h]
    apply geom_zero n hn
    · rw [show (n : ℝ) * (r * (Real.pi / n)) = r * Real.pi by field_simp]
      exact Real.sin_int_mul_pi r
    · intro h2
      obtain ⟨m, hm⟩ := Real.sin_eq_zero_iff.1 h2
      apply h
      refine ⟨m, ?_⟩
      have : (r : ℝ) = n * m := by
        have hp := Real.pi_pos.ne'
        field_simp at hm
        nlinarith
      exact_mod_cast this

/-- The filter at the distance of `r` bins. -/
theorem filtered_int (n : Nat) (hn : 0 < n) (r : ℤ) : filtered n (unit (r * (Real.pi / n))) =
    1 / 2 * (if (n : ℤ) ∣ r then (n : ℂ) else 0) - 1 / 4 * unit (Real.pi / n) * (if (n : ℤ) ∣ r + 1 then (n : ℂ) else 0) -
      1 / 4 * unit (-(Real.pi / n)) * (if (n : ℤ) ∣ r - 1 then (n : ℂ) else 0) := by
  rw [filtered_geom, ← geom_int n hn r, ← geom_int n hn (r + 1), ← geom_int n hn (r - 1), unit_mul, unit_mul]
  congr 4
  · push_cast; ring
  · push_cast; ring

theorem filtered_centre (n : Nat) (hn : 4 ≤ n) : ‖filtered n (unit 0)‖ = n / 2 := by
  have h := filtered_int n (by omega) 0
  rw [if_pos (dvd_zero _), if_neg, if_neg] at h
  · rw [show ((0 : ℤ) : ℝ) * (Real.pi / n) = 0 by simp] at h
    rw [h]
    simp
    ring
  · intro h2
    have := Int.le_of_dvd (by norm_num) ((Int.dvd_neg).2 h2)
    omega
  · intro h2
    have := Int.le_of_dvd (by norm_num) h2
    omega

/-- Every other bin is at most half as high. -/
theorem filtered_off (n : Nat) (hn : 4 ≤ n) (r : ℤ) (hr : ¬ (n : ℤ) ∣ r) : ‖filtered n (unit (r * (Real.pi / n)))‖ ≤ n / 4 := by
  rw [filtered_int n (by omega), if_neg hr]
  have hw := unit_norm (Real.pi / n)
  have hv := unit_norm (-(Real.pi / n))
  by_cases h1 : (n : ℤ) ∣ r + 1
  · have h2 : ¬ (n : ℤ) ∣ r - 1 := fun h2 => by
      have h3 := Int.dvd_sub h1 h2
      have := Int.le_of_dvd (by omega) h3
      omega
    rw [if_pos h1, if_neg h2]
    simp [hw]
    linarith
  · rw [if_neg h1]
    by_cases h2 : (n : ℤ) ∣ r - 1
    · rw [if_pos h2]
      simp [hv]
      linarith
    · rw [if_neg h2]
      simp
      positivity

theorem filtered_one (n : Nat) (hn : 4 ≤ n) : ‖filtered n (unit (Real.pi / n))‖ = n / 4 := by
  have h := filtered_int n (by omega) 1
  rw [if_neg, if_neg, if_pos (by simp)] at h
  · rw [show ((1 : ℤ) : ℝ) * (Real.pi / n) = Real.pi / n by simp] at h
    rw [h]
    simp [unit_norm]
    ring
  · intro h2
    have := Int.le_of_dvd (by norm_num) h2
    omega
  · intro h2
    have := Int.le_of_dvd (by norm_num) h2
    omega

theorem filtered_two (n : Nat) (hn : 4 ≤ n) : filtered n (unit (2 * (Real.pi / n))) = 0 := by
  have h := filtered_int n (by omega) 2
  rw [if_neg, if_neg, if_neg] at h
  · rw [show ((2 : ℤ) : ℝ) * (Real.pi / n) = 2 * (Real.pi / n) by simp] at h
    rw [h]
    simp
  all_goals
    intro h2
    have := Int.le_of_dvd (by norm_num) h2
    omega

theorem theta_bounds (n : Nat) (hn : 4 ≤ n) : 0 < Real.pi / n ∧ Real.pi / n ≤ Real.pi / 4 := by
  have h4 : (4 : ℝ) ≤ n := by exact_mod_cast hn
  have hp := Real.pi_pos
  refine ⟨by positivity, ?_⟩
  exact div_le_div_of_nonneg_left hp.le (by norm_num) h4

/-- The two bins beside a tone. -/
theorem two_bins (n : Nat) (hn : 4 ≤ n) (de : ℝ) (h1 : -1 ≤ de) (h2 : de < 1) : ∃ ka : ℝ, 0 < ka ∧
    ‖filtered n (unit (-(de * (Real.pi / n))))‖ = ka * (Real.sin (2 * (Real.pi / n)) + Real.sin (2 * (Real.pi / n) - 2 * (de * (Real.pi / n)))) ∧
    ‖filtered n (unit (Real.pi / n - de * (Real.pi / n)))‖ = ka * (Real.sin (2 * (Real.pi / n)) + Real.sin (2 * (de * (Real.pi / n)))) := by
  obtain ⟨t0, t4⟩ := theta_bounds n hn
  have hp := Real.pi_pos
  have hnr : (0 : ℝ) < n := by exact_mod_cast (by omega : 0 < n)
  have hS : 0 < Real.sin (2 * (Real.pi / n)) := Real.sin_pos_of_pos_of_lt_pi (by linarith) (by linarith)
  by_cases hm : de = -1
  · subst hm
    have hS4 : 0 ≤ Real.sin (4 * (Real.pi / n)) := Real.sin_nonneg_of_nonneg_of_le_pi (by linarith) (by linarith)
    refine ⟨n / 4 / (Real.sin (2 * (Real.pi / n)) + Real.sin (4 * (Real.pi / n))), by positivity, ?_, ?_⟩
    · rw [show -(-1 * (Real.pi / n)) = Real.pi / n by ring, filtered_one n hn,
        show 2 * (Real.pi / n) - 2 * (-1 * (Real.pi / n)) = 4 * (Real.pi / n) by ring, div_mul_cancel₀ _ (by positivity)]
    · rw [show Real.pi / n - -1 * (Real.pi / n) = 2 * (Real.pi / n) by ring, filtered_two n hn,
        show 2 * (-1 * (Real.pi / n)) = -(2 * (Real.pi / n)) by ring, Real.sin_neg]
      simp
  · by_cases h0 : de = 0
    · subst h0
      refine ⟨n / 4 / Real.sin (2 * (Real.pi / n)), by positivity, ?_, ?_⟩
      · rw [show -(0 * (Real.pi / n)) = 0 by ring, filtered_centre n hn, show 2 * (Real.pi / n) - 2 * (0 * (Real.pi / n)) = 2 * (Real.pi / n) by ring]
        generalize Real.sin (2 * (Real.pi / n)) = S at hS
        field_simp
        ring
      · rw [show Real.pi / n - 0 * (Real.pi / n) = Real.pi / n by ring, filtered_one n hn, show 2 * (0 * (Real.pi / n)) = 0 by ring, Real.sin_zero,
          add_zero, div_mul_cancel₀ _ hS.ne']
    · have hm' : -1 < de := lt_of_le_of_ne h1 (Ne.symm hm)
      have f1 := filtered_norm n (by omega) (-(de * (Real.pi / n)))
      have f2 := filtered_norm n (by omega) (Real.pi / n - de * (Real.pi / n))
      set th := Real.pi / n with hth
      have hnth : (n : ℝ) * th = Real.pi := by rw [hth]; field_simp
      set ph := de * th with hph
      have b1 : -th < ph := by rw [hph]; nlinarith
      have b2 : ph < th := by rw [hph]; nlinarith
      have hph0 : ph ≠ 0 := mul_ne_zero h0 t0.ne'
      have sphi : Real.sin ph ≠ 0 := by
        rcases lt_or_gt_of_ne hph0 with h | h
        · exact (Real.sin_neg_of_neg_of_neg_pi_lt h (by linarith)).ne
        · exact (Real.sin_pos_of_pos_of_lt_pi h (by linarith)).ne'
      have sm : 0 < Real.sin (th - ph) := Real.sin_pos_of_pos_of_lt_pi (by linarith) (by linarith)
      have sp : 0 < Real.sin (th + ph) := Real.sin_pos_of_pos_of_lt_pi (by linarith) (by linarith)
      have s2 : 0 < Real.sin (2 * th - ph) := Real.sin_pos_of_pos_of_lt_pi (by linarith) (by linarith)
      have st : 0 < Real.sin th := Real.sin_pos_of_pos_of_lt_pi (by linarith) (by linarith)
      have c1 : 0 < Real.cos ph := Real.cos_pos_of_mem_Ioo ⟨by linarith, by linarith⟩
      have c2 : 0 < Real.cos (th - ph) := Real.cos_pos_of_mem_Ioo ⟨by linarith, by linarith⟩
      have spd : Real.sin (n * ph) ≠ 0 := by
        rw [hph, show (n : ℝ) * (de * th) = de * (n * th) by ring, hnth]
        rcases lt_or_gt_of_ne h0 with h | h
        · exact (Real.sin_neg_of_neg_of_neg_pi_lt (by nlinarith) (by nlinarith)).ne
        · exact (Real.sin_pos_of_pos_of_lt_pi (by positivity) (by nlinarith)).ne'
      have e1 : Real.sin (-ph) = -Real.sin ph := Real.sin_neg ph
      have e2 : Real.sin (-ph + th) = Real.sin (th - ph) := by congr 1; ring
      have e3 : Real.sin (-ph - th) = -Real.sin (th + ph) := by rw [← Real.sin_neg]; congr 1; ring
      have e4 : Real.sin (n * -ph) = -Real.sin (n * ph) := by rw [← Real.sin_neg]; congr 1; ring
      have e5 : Real.sin (th - ph + th) = Real.sin (2 * th - ph) := by congr 1; ring
      have e6 : Real.sin (th - ph - th) = -Real.sin ph := by rw [← Real.sin_neg]; congr 1; ring
      have e7 : Real.sin (n * (th - ph)) = Real.sin (n * ph) := by
        rw [mul_sub, hnth, Real.sin_pi_sub]
      rw [e1, e2, e3, e4, abs_neg, abs_neg, abs_neg, Real.cos_neg, abs_of_pos sm, abs_of_pos sp, abs_of_pos c1] at f1
      rw [e5, e6, e7, abs_neg, abs_of_pos sm, abs_of_pos s2, abs_of_pos c2] at f2
      have ha := abs_pos.2 sphi
      have hb := abs_pos.2 spd
      have hA : Real.sin (2 * th) + Real.sin (2 * th - 2 * ph) = 2 * Real.sin (2 * th - ph) * Real.cos ph := by
        have := Real.sin_add (2 * th - ph) ph
        have h' := Real.sin_sub (2 * th - ph) ph
        rw [show 2 * th - ph + ph = 2 * th by ring] at this
        rw [show 2 * th - ph - ph = 2 * th - 2 * ph by ring] at h'
        linarith
      have hB : Real.sin (2 * th) + Real.sin (2 * ph) = 2 * Real.sin (th + ph) * Real.cos (th - ph) := by
        have := Real.sin_add (th + ph) (th - ph)
        have h' := Real.sin_sub (th + ph) (th - ph)
        rw [show th + ph + (th - ph) = 2 * th by ring] at this
        rw [show th + ph - (th - ph) = 2 * ph by ring] at h'
        linarith
      refine ⟨|Real.sin (n * ph)| * Real.sin th ^ 2 / (4 * |Real.sin ph| * Real.sin (th - ph) * Real.sin (th + ph) * Real.sin (2 * th - ph)),
        by positivity, ?_, ?_⟩
      · rw [hA]
        generalize ‖filtered n (unit (-ph))‖ = F at f1
        clear_value ph th
        generalize |Real.sin (n * ph)| = Z at *
        generalize |Real.sin ph| = Y at *
        rw [div_mul_eq_mul_div, eq_div_iff (by positivity)]
        linear_combination (Real.sin (2 * th - ph) / 2) * f1
      · rw [hB]
        generalize ‖filtered n (unit (th - ph))‖ = F at f2
        clear_value ph th
        generalize |Real.sin (n * ph)| = Z at *
        generalize |Real.sin ph| = Y at *
        rw [div_mul_eq_mul_div, eq_div_iff (by positivity)]
        linear_combination (Real.sin (th + ph) / 2) * f2

/-- The transform of a tone. -/
theorem dft_tone (n : Nat) (hn : 0 < n) (a : ℂ) (nu : ℝ) (q : Nat) :
    dft n (tone n a nu) q = a * filtered n (unit (Real.pi * (q / n - nu))) := by
  have hn' : (n : ℂ) ≠ 0 := by exact_mod_cast hn.ne'
  rw [dft, filtered, Finset.mul_sum]
  refine Finset.sum_congr rfl fun k _ => ?_
  rw [tone, unit_pow, unit]
  have : Complex.exp (((2 * (k * (Real.pi * (q / n - nu))) : ℝ) : ℂ) * Complex.I) =
      Complex.exp (-(2 * Real.pi * Complex.I * (nu * k))) * Complex.exp (2 * Real.pi * Complex.I * (q * k / n)) := by
    rw [← Complex.exp_add]
    congr 1
    push_cast
    ring
  rw [this]
  ring

end Verif.Tunes
