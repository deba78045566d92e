import Mathlib.Analysis.Calculus.FDeriv.Analytic
import Mathlib.Analysis.Analytic.OfScalars
import Mathlib.Analysis.SpecialFunctions.Trigonometric.Series
import Verif.Transport.Chromatic

/-!
# Derivatives where the strength vanishes, and of the dispersion
-/

noncomputable section
namespace Verif.Transport
open Verif Real Verif.LinMap.Spec Verif.Transport.Spec Nat

/-- The derivative at zero of a power series. -/
theorem hasDerivAt_of_series (a : ℕ → ℝ) (f : ℝ → ℝ) (h : ∀ K, HasSum (fun n => K ^ n * a n) (f K)) :
    HasDerivAt f (a 1) 0 := by
  have p : HasFPowerSeriesAt f (FormalMultilinearSeries.ofScalars ℝ a) 0 := by
    rw [hasFPowerSeriesAt_iff]
    refine Filter.Eventually.of_forall fun z => ?_
    simpa [FormalMultilinearSeries.coeff_ofScalars] using h z
  have d := p.hasDerivAt
  simpa [FormalMultilinearSeries.ofScalars] using d

/-- The coefficients of the functions that begin with `l ^ m / m!`. -/
def coef (m : ℕ) (l : ℝ) (n : ℕ) : ℝ := (-1) ^ n * l ^ (2 * n + m) / (2 * n + m)!

theorem series_cK (l K : ℝ) : HasSum (fun n => K ^ n * coef 0 l n) (cK K l) := by
  unfold cK
  split_ifs with h0 h1
  · subst h0
    have := hasSum_single (f := fun n => (0 : ℝ) ^ n * coef 0 l n) 0 (fun n hn => by simp [hn])
    simpa [coef] using this
  · refine (hasSum_cos (√K * l)).congr_fun ?_
    intro n
    have : √K ^ (2 * n) = K ^ n := by rw [pow_mul, sq_sqrt h1.le]
    simp only [coef, mul_pow, this, add_zero]
    ring
  · have hn := trich K h0 h1
    refine (hasSum_cosh (√(-K) * l)).congr_fun ?_
    intro n
    have : √(-K) ^ (2 * n) = (-1) ^ n * K ^ n := by rw [pow_mul, sq_sqrt hn.le, neg_pow]
    simp only [coef, mul_pow, this, add_zero]
    ring

theorem series_sK (l K : ℝ) : HasSum (fun n => K ^ n * coef 1 l n) (sK K l) := by
  unfold sK
  split_ifs with h0 h1
  · subst h0
    have := hasSum_single (f := fun n => (0 : ℝ) ^ n * coef 1 l n) 0 (fun n hn => by simp [hn])
    simpa [coef] using this
  · obtain ⟨p, q⟩ := sqrt_facts h1
    refine ((hasSum_sin (√K * l)).div_const √K).congr_fun ?_
    intro n
    have : √K ^ (2 * n + 1) = K ^ n * √K := by rw [pow_succ, pow_mul, sq_sqrt h1.le]
    simp only [coef, mul_pow, this]
    field_simp
  · have hn := trich K h0 h1
    obtain ⟨p, q⟩ := sqrt_facts hn
    refine ((hasSum_sinh (√(-K) * l)).div_const √(-K)).congr_fun ?_
    intro n
    have : √(-K) ^ (2 * n + 1) = (-1) ^ n * K ^ n * √(-K) := by rw [pow_succ, pow_mul, sq_sqrt hn.le, neg_pow]
    simp only [coef, mul_pow, this]
    field_simp

/-- `(l ^ m / m! - f K) / K` of a function with the coefficients, and its value at zero. -/
def next (m : ℕ) (f : ℝ → ℝ) (l K : ℝ) : ℝ := if K = 0 then l ^ (m + 2) / (m + 2)! else (l ^ m / (m.factorial : ℝ) - f K) / K

theorem series_next (m : ℕ) (f : ℝ → ℝ) (l : ℝ) (h : ∀ K, HasSum (fun n => K ^ n * coef m l n) (f K)) (K : ℝ) :
    HasSum (fun n => K ^ n * coef (m + 2) l n) (next m f l K) := by
  unfold next
  split_ifs with h0
  · subst h0
    have := hasSum_single (f := fun n => (0 : ℝ) ^ n * coef (m + 2) l n) 0 (fun n hn => by simp [hn])
    simpa [coef] using this
  · have t := (hasSum_nat_add_iff' 1).2 (h K)
    have t2 := (t.neg).div_const K
    have e : -(f K - ∑ i ∈ Finset.range 1, K ^ i * coef m l i) / K = (l ^ m / (m.factorial : ℝ) - f K) / K := by
      simp [coef]
    rw [e] at t2
    refine t2.congr_fun ?_
    intro n
    have e2 : 2 * (n + 1) + m = 2 * n + (m + 2) := by ring
    simp only [coef, pow_succ, e2]
    field_simp

theorem cK_flat (l : ℝ) : HasDerivAt (fun K => cK K l) (-(l ^ 2 / 2)) 0 := by
  refine (hasDerivAt_of_series _ _ (series_cK l)).congr_deriv ?_
  norm_num [coef, Nat.factorial]
  ring

theorem sK_flat (l : ℝ) : HasDerivAt (fun K => sK K l) (-(l ^ 3 / 6)) 0 := by
  refine (hasDerivAt_of_series _ _ (series_sK l)).congr_deriv ?_
  norm_num [coef, Nat.factorial]
  ring

theorem dK_flat (l : ℝ) : HasDerivAt (next 0 (fun K => cK K l) l) (-(l ^ 4 / 24)) 0 := by
  refine (hasDerivAt_of_series _ _ (series_next 0 _ l (series_cK l))).congr_deriv ?_
  norm_num [coef, Nat.factorial]
  ring

theorem eK_flat (l : ℝ) : HasDerivAt (next 1 (fun K => sK K l) l) (-(l ^ 5 / 120)) 0 := by
  refine (hasDerivAt_of_series _ _ (series_next 1 _ l (series_sK l))).congr_deriv ?_
  norm_num [coef, Nat.factorial]
  ring

/-- The strength at a momentum deviation. -/
def kappa (h K1 d : ℝ) : ℝ := K1 / (1 + d) + h / (1 + d) * (h / (1 + d))

theorem kappa_zero (h K1 : ℝ) : kappa h K1 0 = h * h + K1 := by unfold kappa; norm_num; ring

theorem hasDerivAt_kappa (h K1 : ℝ) : HasDerivAt (kappa h K1) (-(2 * (h * h) + K1)) 0 := by
  have d := (hasDerivAt_strength K1).add ((hasDerivAt_strength h).mul (hasDerivAt_strength h))
  refine d.congr_deriv ?_
  norm_num
  ring

/-- The derivatives of the functions of the strength where the strength may vanish. -/
def dcK (K l : ℝ) : ℝ := if K = 0 then -(l ^ 2 / 2) else -(l / 2) * sK K l
def dsK (K l : ℝ) : ℝ := if K = 0 then -(l ^ 3 / 6) else (l * cK K l - sK K l) / (2 * K)

theorem hasDerivAt_cK_any (K l : ℝ) : HasDerivAt (fun K => cK K l) (dcK K l) K := by
  unfold dcK
  split_ifs with h
  · subst h; exact cK_flat l
  · exact hasDerivAt_cK_strength K l h

theorem hasDerivAt_sK_any (K l : ℝ) : HasDerivAt (fun K => sK K l) (dsK K l) K := by
  unfold dsK
  split_ifs with h
  · subst h; exact sK_flat l
  · exact hasDerivAt_sK_strength K l h

theorem cK_kappa (h K1 l : ℝ) :
    HasDerivAt (fun d => cK (kappa h K1 d) l) (dcK (h * h + K1) l * -(2 * (h * h) + K1)) 0 := by
  have := hasDerivAt_cK_any (h * h + K1) l
  rw [← kappa_zero] at this
  rw [← kappa_zero h K1]
  exact this.comp (0 : ℝ) (hasDerivAt_kappa h K1)

theorem sK_kappa (h K1 l : ℝ) :
    HasDerivAt (fun d => sK (kappa h K1 d) l) (dsK (h * h + K1) l * -(2 * (h * h) + K1)) 0 := by
  have := hasDerivAt_sK_any (h * h + K1) l
  rw [← kappa_zero] at this
  rw [← kappa_zero h K1]
  exact this.comp (0 : ℝ) (hasDerivAt_kappa h K1)

/-- The entries of the horizontal block where the strength is zero. -/
def chrom0 (l dK : ℝ) (i j : Nat) : ℝ :=
  match i, j with
  | 0, 0 => dK * (l * l) / 2 | 1, 1 => dK * (l * l) / 2
  | 0, 1 => dK * (l * (l * l)) / 6 | 1, 0 => dK * l
  | _, _ => 0

/-- The horizontal block of `sectorBendT` with the strength zero. -/
theorem sectorBendT_x0 (l h K1 : ℝ) (hl : l ≠ 0) (hne : h ≠ 0 ∨ K1 ≠ 0) (hK : h * h + K1 = 0) (i j : Nat) (hi : i < 2)
    (hj : j < 2) : sectorBendT l h K1 i j = chrom0 l (2 * (h * h) + K1) i j := by
  have hn : ¬ (l = 0 ∨ (K1 = 0 ∧ h = 0)) := by tauto
  unfold sectorBendT
  rw [if_neg hn, sectorBendTD_off _ _ _ _ _ _ (by omega), sectorBendTY_off _ _ _ _ _ hi]
  unfold sectorBendTX
  simp only [hK, if_true]
  interval_cases i <;> interval_cases j <;> simp [set, chrom0]

/-- Column of the momentum deviation in `sectorBendT`, with focusing of either sign. -/
def chromD (l h K1 : ℝ) (i : Nat) : ℝ :=
  let K := h * h + K1
  let hk := 2 * (h * h) + K1
  match i with
  | 0 => h * (2 * (h * h) * (1 - cK K l) - hk * l * K * sK K l) / (2 * (K * K))
  | 1 => -h * (hk * l * cK K l + K1 * sK K l) / (2 * K)
  | 4 => h * h * (2 * K1 * l - hk * l * cK K l + (2 * (h * h) - K1) * sK K l) / (2 * (K * K))
  | _ => 0

theorem sectorBendT_d (l h K1 : ℝ) (hl : l ≠ 0) (hK : h * h + K1 ≠ 0) (i : Nat) (hi : i = 0 ∨ i = 1 ∨ i = 4) :
    sectorBendT l h K1 i 5 = chromD l h K1 i := by
  have hn : ¬ (l = 0 ∨ (K1 = 0 ∧ h = 0)) := by
    rintro (e | ⟨e1, e2⟩)
    · exact hl e
    · rw [e1, e2] at hK; norm_num at hK
  unfold sectorBendT
  rw [if_neg hn]
  unfold sectorBendTD chromD cK sK
  by_cases h1 : 0 < h * h + K1
  · obtain ⟨p, q⟩ := sqrt_facts h1
    simp only [hK, h1, if_true, if_false, mul_comm l √(h * h + K1)]
    generalize 2 * (h * h) + K1 = hk
    generalize hKe : h * h + K1 = K at *
    have q3 : √K ^ 3 = K * √K := by rw [pow_succ, pow_two, q]
    have q5 : √K ^ 5 = K * K * √K := by rw [show 5 = 2 + 3 from rfl, pow_add, q3, pow_two, q]; ring
    rcases hi with rfl | rfl | rfl <;> simp [set] <;> (try rw [q3]) <;> (try rw [q5]) <;> field_simp <;>
      first | ring1 | linear_combination (-h * l * hk * sin (√K * l)) * q
  · obtain ⟨p, q⟩ := sqrt_facts (trich _ hK h1)
    simp only [hK, h1, if_false, mul_comm l √(-(h * h + K1))]
    generalize 2 * (h * h) + K1 = hk
    generalize hKe : h * h + K1 = K at *
    have q3 : √(-K) ^ 3 = -K * √(-K) := by rw [pow_succ, pow_two, q]
    have q5 : √(-K) ^ 5 = K * K * √(-K) := by rw [show 5 = 2 + 3 from rfl, pow_add, q3, pow_two, q]; ring
    rcases hi with rfl | rfl | rfl <;> simp [set] <;> (try rw [q3]) <;> (try rw [q5]) <;> field_simp <;>
      first | ring1 | linear_combination (h * l * hk * sinh (√(-K) * l)) * q

theorem bend_four_at (n : Nat) (l h K1 d : ℝ) (i j : Nat) (hi : i < 4) (hj : j < 4) :
    sectorBend n l (h / (1 + d)) (K1 / (1 + d)) i j = closed l (h / (1 + d)) (kappa h K1 d) (-(K1 / (1 + d))) i j :=
  sbr_closed4 n l _ _ i j hi hj

theorem momentumOrbit_at (l h K1 : ℝ) (i : Nat) (hi : i = 0 ∨ i = 1 ∨ i = 4) : momentumOrbit l h K1 i =
    match i with
    | 0 => h * next 0 (fun K => cK K l) l (K1 + h * h)
    | 1 => h * sK (K1 + h * h) l
    | _ => -h * h * next 1 (fun K => sK K l) l (K1 + h * h) := by
  unfold momentumOrbit next
  by_cases hK : K1 + h * h = 0
  · rcases hi with rfl | rfl | rfl <;> simp [hK, sK, Nat.factorial] <;> ring
  · have e := fun i hi => sbr_closed6 l h K1 (Or.inr hK) i 5 hi (by omega)
    rcases hi with rfl | rfl | rfl <;> simp only [hK, if_false, sectorBend] <;> rw [e _ (by omega)] <;>
      simp [closed] <;> ring

end Verif.Transport
