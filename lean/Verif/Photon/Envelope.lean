import Verif.Photon.Cert

/-! The spectrum, its sign and its bounds (C299, C300). -/

namespace Verif.Photon
open Verif.Photon.Spec Real

/-- Where two functions differ from the constant by no more than the other coefficients. -/
theorem series_bound {t : ℝ} (ht : |t| ≤ 1) (c : ℝ) (cs : List ℝ) : |series (c :: cs) t - c| ≤ (cs.map abs).sum := by
  have h : ∀ (cs : List ℝ) (n : ℤ), |seriesT t n cs| ≤ (cs.map abs).sum := by
    intro cs
    induction cs with
    | nil => intro n; simp [seriesT]
    | cons a cs ih =>
      intro n
      simp only [seriesT, List.map_cons, List.sum_cons]
      refine (abs_add_le _ _).trans (add_le_add ?_ (ih _))
      rw [abs_mul]
      exact mul_le_of_le_one_right (abs_nonneg _) (Polynomial.Chebyshev.abs_eval_T_real_le_one n ht)
  rw [series_eq, seriesT]
  simpa using h cs (0 + 1)

/-- C299 (first half): below energy six. -/
theorem synRad_low {x : ℝ} (h0 : 0 < x) (h1 : x < 6) :
    synRad x = 1.81379936423421784215530788143 *
        (series pCoeffs (x ^ 2 / 32 - 1) / x ^ (2 / 3 : ℝ) - series qCoeffs (x ^ 2 / 32 - 1) * x ^ (2 / 3 : ℝ) - 1) ∧
      |x ^ 2 / 32 - 1| ≤ 1 := by
  refine ⟨?_, ?_⟩
  · rw [synRad, if_pos ⟨h0, by linarith⟩, if_pos h1]
    simp only
    rw [show x * x / 16 - 2 = 2 * (x ^ 2 / 32 - 1) by ring, pLow_series, qLow_series]
    ring
  · rw [abs_le]
    constructor <;> nlinarith

/-- C299 (second half): from energy six. -/
theorem synRad_high {x : ℝ} (h0 : 6 ≤ x) (h1 : x < 800) :
    synRad x = series hCoeffs (10 / x - 1) * √(π / (2 * x)) * exp (-x) ∧ |10 / x - 1| ≤ 1 := by
  refine ⟨?_, ?_⟩
  · rw [synRad, if_pos ⟨by linarith, h1⟩, if_neg (not_lt.mpr h0), show 20 / x - 2 = 2 * (10 / x - 1) by ring, pHigh_series,
      div_div, Real.exp_neg, div_eq_mul_inv]
  · have : 10 / x ≤ 2 := by rw [div_le_iff₀ (by linarith)]; linarith
    have : 0 ≤ 10 / x := by positivity
    rw [abs_le]
    constructor <;> linarith

/-- Zero elsewhere. -/
theorem synRad_zero {x : ℝ} (h : x ≤ 0 ∨ 800 ≤ x) : synRad x = 0 := by
  rw [synRad, if_neg]
  rintro ⟨h1, h2⟩
  rcases h with h | h <;> linarith

theorem hSeries_bounds {t : ℝ} (ht : |t| ≤ 1) : 0.99 ≤ series hCoeffs t ∧ series hCoeffs t ≤ 1.14 := by
  have h := series_bound ht 1.06552390798340693166 hCoeffs.tail
  have h2 : (hCoeffs.tail.map abs).sum ≤ 0.07 := by
    simp only [hCoeffs, List.tail_cons, List.map_cons, List.map_nil, List.sum_cons, List.sum_nil, abs_neg]
    norm_num [abs_of_pos]
  have h3 : series (1.06552390798340693166 :: hCoeffs.tail) t = series hCoeffs t := rfl
  rw [h3, abs_le] at h
  constructor
  · norm_num at h h2 ⊢; linarith
  · norm_num at h h2 ⊢; linarith

theorem synRad_cube {c : ℝ} (h0 : 0 < c) (h1 : c ^ 3 < 6) :
    synRad (c ^ 3) = 1.81379936423421784215530788143 * (lowPart c / c ^ 2) := by
  have hy : (c ^ 3 : ℝ) ^ (2 / 3 : ℝ) = c ^ 2 := by
    rw [← Real.rpow_natCast, ← Real.rpow_natCast, ← Real.rpow_mul h0.le]
    norm_num
  rw [synRad, if_pos ⟨by positivity, by linarith⟩, if_pos h1]
  simp only
  rw [hy, lowPart, show c ^ 3 * c ^ 3 = c ^ 6 by ring]
  field_simp

theorem cube_root {x : ℝ} (h0 : 0 < x) : ∃ c : ℝ, 0 < c ∧ c ^ 3 = x ∧ c = x ^ (1 / 3 : ℝ) := by
  refine ⟨x ^ (1 / 3 : ℝ), Real.rpow_pos_of_pos h0 _, ?_, rfl⟩
  rw [← Real.rpow_natCast, ← Real.rpow_mul h0.le]
  norm_num

/-- C300 (first part): positive at all energies up to 800. -/
theorem synRad_pos {x : ℝ} (h0 : 0 < x) (h1 : x < 800) : 0 < synRad x := by
  by_cases h : x < 6
  · obtain ⟨c, hc, rfl, -⟩ := cube_root h0
    rw [synRad_cube hc h]
    have := lowPart_pos hc.le h
    positivity
  · push Not at h
    obtain ⟨h2, h3⟩ := synRad_high h h1
    rw [h2]
    have := (hSeries_bounds h3).1
    have h4 : (0 : ℝ) < √(π / (2 * x)) := Real.sqrt_pos.mpr (by positivity)
    have h5 : (0 : ℝ) < series hCoeffs (10 / x - 1) := lt_of_lt_of_le (by norm_num) this
    positivity

theorem synRad_nonneg (x : ℝ) : 0 ≤ synRad x := by
  by_cases h : 0 < x ∧ x < 800
  · exact (synRad_pos h.1 h.2).le
  · rw [synRad, if_neg h]

theorem rpow_cube {c : ℝ} (h0 : 0 < c) : (c ^ 3 : ℝ) ^ (-2 / 3 : ℝ) = 1 / c ^ 2 := by
  rw [show (-2 / 3 : ℝ) = -(2 / 3) by ring, Real.rpow_neg (by positivity), ← Real.rpow_natCast, ← Real.rpow_mul h0.le]
  rw [← Real.rpow_natCast c 2]
  norm_num

theorem a1_eq (xmin : ℝ) : (consts xmin).a1 = 1.81379936423421784215530788143 * lowPart ((1e-38 : ℝ) ^ (1 / 3 : ℝ)) := by
  obtain ⟨c, hc, hx, hr⟩ := cube_root (x := 1e-38) (by norm_num)
  simp only [consts]
  rw [← hr, ← hx, rpow_cube hc, synRad_cube hc (by rw [hx]; norm_num)]
  field_simp

/-- C300 (second part): the power lies above the spectrum from 1e-38 to one. -/
theorem below_power {xmin x : ℝ} (h0 : 1e-38 ≤ x) (h1 : x ≤ 1) : synRad x ≤ (consts xmin).a1 * x ^ (-2 / 3 : ℝ) := by
  obtain ⟨e, he, hx, hr⟩ := cube_root (x := 1e-38) (by norm_num)
  rw [a1_eq, ← hr]
  rw [← hx] at h0
  obtain ⟨c, hc, rfl, -⟩ := cube_root (lt_of_lt_of_le (by positivity) h0)
  have hec : e ≤ c := (pow_le_pow_iff_left₀ he.le hc.le (by norm_num)).mp h0
  have hc1 : c ≤ 1 := by
    by_contra h
    push Not at h
    have := one_lt_pow₀ h (n := 3) (by norm_num)
    linarith
  rw [synRad_cube hc (by linarith), rpow_cube hc, mul_assoc, mul_one_div]
  exact mul_le_mul_of_nonneg_left (div_le_div_of_nonneg_right (lowPart_antitone ⟨he.le, hec.trans hc1⟩ ⟨hc.le, hc1⟩ hec) (by positivity))
    (by norm_num)

theorem a2_eq {xmin : ℝ} (h : xmin ≤ 1) : (consts xmin).a2 = synRad 1 * exp 1 := by
  simp only [consts]
  rw [if_neg (not_lt.mpr h), Real.exp_neg, div_inv_eq_mul]

theorem lowPart_one : 0.35 ≤ lowPart 1 := by
  have h : (scale : ℝ) * lowPart 1 = hInts.sum := by rw [← hInts_poly, poly_one]
  have h2 : 35 * scale ≤ 100 * hInts.sum := by decide +kernel
  have h3 : (35 : ℝ) * scale ≤ 100 * hInts.sum := by exact_mod_cast h2
  rw [← h] at h3
  have h4 : (scale : ℝ) * 35 ≤ scale * (100 * lowPart 1) := by linarith
  have := le_of_mul_le_mul_left h4 scale_pos
  norm_num
  linarith

theorem synRad_one : 0.63 ≤ synRad 1 := by
  have := synRad_cube (c := 1) one_pos (by norm_num)
  norm_num at this
  rw [this]
  have := lowPart_one
  norm_num at this ⊢
  linarith

/-- C300 (third part): the exponential lies above the spectrum from one on. -/
theorem below_exp {xmin x : ℝ} (hm : xmin ≤ 1) (h0 : 1 ≤ x) : synRad x ≤ (consts xmin).a2 * exp (-x) := by
  rw [a2_eq hm]
  by_cases h : x < 6
  · obtain ⟨c, hc, rfl, -⟩ := cube_root (lt_of_lt_of_le one_pos h0)
    have hc1 : 1 ≤ c := by
      by_contra h
      push Not at h
      have := pow_lt_one₀ hc.le h (n := 3) (by norm_num)
      linarith
    have h2 := lowPart_below hc1 h
    have h3 := synRad_cube (c := 1) one_pos (by norm_num)
    rw [one_pow, one_pow, div_one] at h3
    rw [synRad_cube hc h, h3, mul_assoc, mul_assoc, ← Real.exp_add, ← sub_eq_add_neg]
    refine mul_le_mul_of_nonneg_left ?_ (by norm_num)
    rw [div_le_iff₀ (by positivity)]
    linarith
  · push Not at h
    by_cases h8 : x < 800
    · obtain ⟨h2, h3⟩ := synRad_high h h8
      rw [h2]
      refine mul_le_mul_of_nonneg_right ?_ (Real.exp_pos _).le
      have h4 : √(π / (2 * x)) ≤ 1 := by
        refine Real.sqrt_le_one.mpr ?_
        rw [div_le_one (by linarith)]
        linarith [Real.pi_le_four]
      have h5 := hSeries_bounds h3
      have h6 : series hCoeffs (10 / x - 1) * √(π / (2 * x)) ≤ 1.14 := by
        refine (mul_le_of_le_one_right ?_ h4).trans h5.2
        linarith [h5.1]
      have h7 : (0.63 : ℝ) * 2 ≤ synRad 1 * exp 1 := mul_le_mul synRad_one (by linarith [Real.add_one_le_exp (1 : ℝ)]) (by norm_num) (synRad_nonneg _)
      norm_num at h6 h7
      linarith
    · rw [synRad_zero (Or.inr (not_lt.mp h8))]
      have := synRad_nonneg 1
      positivity

end Verif.Photon
