import Verif.Photon.Envelope
import Mathlib.MeasureTheory.Function.JacobianOneDim
import Mathlib.MeasureTheory.Measure.Prod
import Mathlib.Topology.Algebra.Polynomial
import Mathlib.Analysis.SpecialFunctions.Integrals.Basic
import Mathlib.Analysis.SpecialFunctions.ImproperIntegrals
import Mathlib.MeasureTheory.Integral.IntegralEqImproper
import Mathlib.MeasureTheory.Measure.Lebesgue.Basic
import Mathlib.MeasureTheory.Constructions.BorelSpace.Order
import Mathlib.MeasureTheory.Function.SpecialFunctions.Basic
import Mathlib.Analysis.SpecialFunctions.Log.Deriv

/-! The energies of one round follow the spectrum (C301). -/

namespace Verif.Photon
open Verif.Photon.Spec Real MeasureTheory Set

theorem measurable_series (cs : List ℝ) : Measurable (series cs) := by
  have h : ∀ (cs : List ℝ) (n : ℤ), Continuous fun t => seriesT t n cs := by
    intro cs
    induction cs with
    | nil => intro n; exact continuous_const
    | cons a cs ih =>
      intro n
      exact (continuous_const.mul (Polynomial.continuous _)).add (ih _)
  have : series cs = fun t => seriesT t 0 cs := funext fun t => series_eq cs t
  rw [this]
  exact (h cs 0).measurable

section
attribute [local irreducible] pLow qLow pHigh

theorem measurable_synRad : Measurable synRad := by
  have hp : Measurable pLow := by
    have : pLow = fun z => series pCoeffs (z / 2) := funext fun z => by rw [← pLow_series]; congr 1; ring
    rw [this]
    exact (measurable_series _).comp (measurable_id.div_const 2)
  have hq : Measurable qLow := by
    have : qLow = fun z => series qCoeffs (z / 2) := funext fun z => by rw [← qLow_series]; congr 1; ring
    rw [this]
    exact (measurable_series _).comp (measurable_id.div_const 2)
  have hh : Measurable pHigh := by
    have : pHigh = fun z => series hCoeffs (z / 2) := funext fun z => by rw [← pHigh_series]; congr 1; ring
    rw [this]
    exact (measurable_series _).comp (measurable_id.div_const 2)
  have hz : Measurable fun x : ℝ => x * x / 16 - 2 := by fun_prop
  have hz2 : Measurable fun x : ℝ => 20 / x - 2 := by fun_prop
  have hp2 := hp.comp hz
  have hq2 := hq.comp hz
  have hh2 := hh.comp hz2
  have hy : Measurable fun x : ℝ => x ^ (2 / 3 : ℝ) := by fun_prop
  unfold synRad
  refine Measurable.ite ?_ (Measurable.ite measurableSet_Iio ?_ ?_) measurable_const
  · exact (measurableSet_Ioi (a := (0 : ℝ))).inter (measurableSet_Iio (a := (800 : ℝ)))
  · exact (((hp2.div hy).sub (hq2.mul hy)).sub measurable_const).mul measurable_const
  · have h1 : Measurable fun x : ℝ => √(π / 2 / x) := by fun_prop
    exact (hh2.mul h1).div Real.measurable_exp

end

/-- The area where an energy is accepted. -/
theorem accept_area {s : Set ℝ} (hs : MeasurableSet s) {S a : ℝ → ℝ} (hS : Measurable S) (ha : Measurable a)
    (h : ∀ v ∈ s, 0 < a v ∧ 0 ≤ S v ∧ S v ≤ a v) :
    volume {p : ℝ × ℝ | p.1 ∈ s ∧ p.2 ∈ Icc 0 1 ∧ ¬ S p.1 < a p.1 * p.2} = ∫⁻ v in s, ENNReal.ofReal (S v / a v) := by
  have hm : MeasurableSet {p : ℝ × ℝ | p.1 ∈ s ∧ p.2 ∈ Icc 0 1 ∧ ¬ S p.1 < a p.1 * p.2} := by
    refine (measurable_fst hs).inter ((measurable_snd measurableSet_Icc).inter ?_)
    refine (measurableSet_lt (f := fun p : ℝ × ℝ => S p.1) (g := fun p : ℝ × ℝ => a p.1 * p.2) ?_ ?_).compl
    · exact hS.comp measurable_fst
    · exact (ha.comp measurable_fst).mul measurable_snd
  rw [Measure.volume_eq_prod, Measure.prod_apply hm, ← lintegral_indicator hs]
  refine lintegral_congr fun v => ?_
  by_cases hv : v ∈ s
  · obtain ⟨h1, h2, h3⟩ := h v hv
    rw [indicator_of_mem hv]
    have : Prod.mk v ⁻¹' {p : ℝ × ℝ | p.1 ∈ s ∧ p.2 ∈ Icc 0 1 ∧ ¬ S p.1 < a p.1 * p.2} = Icc 0 (S v / a v) := by
      ext u
      simp only [mem_preimage, mem_ofPred_eq, mem_Icc, not_lt, hv, true_and]
      rw [le_div_iff₀ h1]
      constructor
      · rintro ⟨⟨hu0, -⟩, hu⟩
        exact ⟨hu0, by linarith⟩
      · rintro ⟨hu0, hu⟩
        refine ⟨⟨hu0, ?_⟩, by linarith⟩
        by_contra hc
        push Not at hc
        nlinarith
    rw [this, Real.volume_Icc, sub_zero]
  · rw [indicator_of_notMem hv]
    have : Prod.mk v ⁻¹' {p : ℝ × ℝ | p.1 ∈ s ∧ p.2 ∈ Icc 0 1 ∧ ¬ S p.1 < a p.1 * p.2} = ∅ := by
      ext u
      simp [hv]
    rw [this, measure_empty]

theorem a1_pos (xmin : ℝ) : 0 < (consts xmin).a1 := by
  rw [a1_eq]
  obtain ⟨c, hc, hx, hr⟩ := cube_root (x := 1e-38) (by norm_num)
  rw [← hr]
  have := lowPart_pos hc.le (by rw [hx]; norm_num)
  positivity

theorem a2_pos {xmin : ℝ} (h : xmin ≤ 1) : 0 < (consts xmin).a2 := by
  rw [a2_eq h]
  have := synRad_pos one_pos (by norm_num)
  positivity

theorem c1_eq (xmin : ℝ) : (consts xmin).c1 = xmin ^ (1 / 3 : ℝ) := rfl

theorem c1_lt {xmin : ℝ} (h0 : 0 ≤ xmin) (h1 : xmin < 1) : 0 ≤ (consts xmin).c1 ∧ (consts xmin).c1 < 1 ∧ (consts xmin).c1 ^ 3 = xmin := by
  rw [c1_eq]
  refine ⟨Real.rpow_nonneg h0 _, Real.rpow_lt_one h0 h1 (by norm_num), ?_⟩
  rw [← Real.rpow_natCast, ← Real.rpow_mul h0]
  norm_num

/-- The integrals of both approximations. -/
noncomputable def total (xmin : ℝ) : ℝ := 3 * (consts xmin).a1 * (1 - (consts xmin).c1) + (consts xmin).a2 * exp (-1)

theorem total_pos {xmin : ℝ} (h0 : 0 ≤ xmin) (h1 : xmin < 1) : 0 < total xmin := by
  have := a1_pos xmin
  have := a2_pos h1.le
  have := (c1_lt h0 h1).2.1
  have h : 0 < 1 - (consts xmin).c1 := by linarith
  unfold total
  positivity

theorem ratio_eq {xmin : ℝ} (h1 : xmin < 1) : (consts xmin).ratio = 3 * (consts xmin).a1 * (1 - (consts xmin).c1) / total xmin := by
  simp only [total, consts, if_pos h1]

theorem ratio_range {xmin : ℝ} (h0 : 0 ≤ xmin) (h1 : xmin < 1) : 0 < (consts xmin).ratio ∧ (consts xmin).ratio < 1 := by
  have := a1_pos xmin
  have h2 := a2_pos h1.le
  have := (c1_lt h0 h1).2.1
  have h : 0 < 1 - (consts xmin).c1 := by linarith
  rw [ratio_eq h1, div_lt_one (total_pos h0 h1)]
  have := total_pos h0 h1
  refine ⟨by positivity, ?_⟩
  unfold total
  have : 0 < (consts xmin).a2 * exp (-1) := by positivity
  linarith

/-- The energies of the approximation at low energies. -/
theorem low_area {xmin : ℝ} (h0 : 0 ≤ xmin) (h1 : xmin < 1) {A : Set ℝ} (hA : MeasurableSet A) (hA' : A ⊆ Ici 1e-38) :
    volume {p : ℝ × ℝ | p.1 ∈ Icc 0 1 ∧ p.2 ∈ Icc 0 1 ∧ ∃ x ∈ A, low (consts xmin) p.1 p.2 = (x, false)} =
      ENNReal.ofReal (1 / (3 * (consts xmin).a1 * (1 - (consts xmin).c1))) * ∫⁻ x in A ∩ Icc xmin 1, ENNReal.ofReal (synRad x) := by
  obtain ⟨hc0, hc1, hc3⟩ := c1_lt h0 h1
  have ha := a1_pos xmin
  generalize hk : consts xmin = k at *
  set r : ℝ → ℝ := fun v => k.c1 + (1 - k.c1) * v with hr
  set f : ℝ → ℝ := fun v => r v ^ 3 with hf
  have hfm : Measurable f := by fun_prop
  have hd : 0 < 1 - k.c1 := by linarith
  have hrange : ∀ v ∈ Icc (0 : ℝ) 1, k.c1 ≤ r v ∧ r v ≤ 1 := by
    intro v hv
    simp only [hr]
    constructor
    · nlinarith [hv.1]
    · nlinarith [hv.2]
  set s : Set ℝ := Icc 0 1 ∩ f ⁻¹' A with hs
  have hsm : MeasurableSet s := measurableSet_Icc.inter (hfm hA)
  have hrpos : ∀ v ∈ s, 0 < r v := by
    intro v hv
    have h2 : (1e-38 : ℝ) ≤ r v ^ 3 := hA' hv.2
    rcases lt_or_ge 0 (r v) with h | h
    · exact h
    · have : r v = 0 := le_antisymm h (hc0.trans (hrange v hv.1).1)
      rw [this] at h2
      norm_num at h2
  have happr : ∀ v ∈ s, k.a1 * f v ^ (-2 / 3 : ℝ) = k.a1 / r v ^ 2 := fun v hv => by
    simp only [hf]
    rw [rpow_cube (hrpos v hv), mul_one_div]
  have hset : {p : ℝ × ℝ | p.1 ∈ Icc 0 1 ∧ p.2 ∈ Icc 0 1 ∧ ∃ x ∈ A, low k p.1 p.2 = (x, false)} =
      {p : ℝ × ℝ | p.1 ∈ s ∧ p.2 ∈ Icc 0 1 ∧ ¬ (fun v => synRad (f v)) p.1 < (fun v => k.a1 * f v ^ (-2 / 3 : ℝ)) p.1 * p.2} := by
    have hl : ∀ v u, low k v u = (f v, if f v = 0 then decide (0 < u) else decide (synRad (f v) < k.a1 * f v ^ (-2 / 3 : ℝ) * u)) := by
      intro v u
      have : (k.c1 + (1 - k.c1) * v) * ((k.c1 + (1 - k.c1) * v) * (k.c1 + (1 - k.c1) * v)) = f v := by simp only [hf, hr]; ring
      simp only [low, this]
    ext ⟨v, u⟩
    simp only [mem_ofPred_eq, hs, mem_inter_iff, mem_preimage, hl, Prod.mk.injEq]
    have hne : f v ∈ A → f v ≠ 0 := by
      intro h h2
      have : (1e-38 : ℝ) ≤ f v := hA' h
      rw [h2] at this
      norm_num at this
    constructor
    · rintro ⟨hv, hu, x, hx, rfl, h2⟩
      rw [if_neg (hne hx), decide_eq_false_iff_not] at h2
      exact ⟨⟨hv, hx⟩, hu, h2⟩
    · rintro ⟨⟨hv, hx⟩, hu, h2⟩
      refine ⟨hv, hu, f v, hx, rfl, ?_⟩
      rw [if_neg (hne hx), decide_eq_false_iff_not]
      exact h2
  rw [hset]
  refine (accept_area (S := fun v => synRad (f v)) (a := fun v => k.a1 * f v ^ (-2 / 3 : ℝ)) hsm (measurable_synRad.comp hfm) (by fun_prop) ?_).trans ?_
  rotate_left
  · have himg : f '' s = A ∩ Icc xmin 1 := by
      ext x
      constructor
      · rintro ⟨v, hv, rfl⟩
        refine ⟨hv.2, ?_, ?_⟩
        · rw [← hc3]
          exact pow_le_pow_left₀ hc0 (hrange v hv.1).1 3
        · exact pow_le_one₀ (hrpos v hv).le (hrange v hv.1).2
      · rintro ⟨hx, hx0, hx1⟩
        have hxp : 0 < x := lt_of_lt_of_le (by norm_num) (hA' hx)
        obtain ⟨c, hc, rfl, -⟩ := cube_root hxp
        have hcc : k.c1 ≤ c := by
          rw [← hc3] at hx0
          exact (pow_le_pow_iff_left₀ hc0 hc.le (by norm_num)).mp hx0
        have hcl : c ≤ 1 := by
          by_contra h
          push Not at h
          have := one_lt_pow₀ h (n := 3) (by norm_num)
          linarith
        have hrv : r ((c - k.c1) / (1 - k.c1)) = c := by
          simp only [hr]
          field_simp
          ring
        have hfv : f ((c - k.c1) / (1 - k.c1)) = c ^ 3 := by simp only [hf]; rw [hrv]
        refine ⟨(c - k.c1) / (1 - k.c1), ⟨⟨div_nonneg (by linarith) hd.le, ?_⟩, ?_⟩, hfv⟩
        · rw [div_le_one hd]; linarith
        · rw [mem_preimage, hfv]; exact hx
    have hder : ∀ v ∈ s, HasDerivWithinAt f (3 * (1 - k.c1) * r v ^ 2) s v := by
      intro v _
      have h2 : HasDerivAt r (1 - k.c1) v := by
        exact (((hasDerivAt_id v).const_mul (1 - k.c1)).const_add k.c1).congr_deriv (mul_one _)
      refine ((h2.pow 3).congr_deriv ?_).hasDerivWithinAt
      simp
      ring
    have hinj : InjOn f s := by
      intro v hv w hw hvw
      have h2 : r v = r w := by
        have := (pow_left_inj₀ (hrpos v hv).le (hrpos w hw).le (n := 3) (by norm_num)).mp hvw
        exact this
      simp only [hr] at h2
      have h3 : (1 - k.c1) * v = (1 - k.c1) * w := by linarith
      exact mul_left_cancel₀ hd.ne' h3
    rw [← himg, lintegral_image_eq_lintegral_abs_deriv_mul hsm hder hinj, ← lintegral_const_mul]
    · refine setLIntegral_congr_fun hsm fun v hv => ?_
      have h2 := hrpos v hv
      show ENNReal.ofReal (synRad (f v) / (k.a1 * f v ^ (-2 / 3 : ℝ))) = _
      rw [happr v hv, ← ENNReal.ofReal_mul (abs_nonneg _), ← ENNReal.ofReal_mul (by positivity), abs_of_pos (by positivity)]
      congr 1
      field_simp
    · have := measurable_synRad.comp hfm
      exact (by fun_prop : Measurable fun v => ENNReal.ofReal |3 * (1 - k.c1) * r v ^ 2|).mul (ENNReal.measurable_ofReal.comp this)
  · intro v hv
    refine ⟨?_, synRad_nonneg _, ?_⟩
    · have := hrpos v hv
      rw [happr v hv]
      positivity
    · show synRad (f v) ≤ k.a1 * f v ^ (-2 / 3 : ℝ)
      rw [← hk]
      refine below_power (hA' hv.2) ?_
      exact pow_le_one₀ (hrpos v hv).le (hrange v hv.1).2

/-- The energies of the approximation at high energies. -/
theorem high_area {xmin : ℝ} (h1 : xmin < 1) {A : Set ℝ} (hA : MeasurableSet A) :
    volume {p : ℝ × ℝ | p.1 ∈ Icc 0 1 ∧ p.2 ∈ Icc 0 1 ∧ ∃ x ∈ A, high (consts xmin) p.1 p.2 = (some x, false)} =
      ENNReal.ofReal (1 / ((consts xmin).a2 * exp (-1))) * ∫⁻ x in A ∩ Ici 1, ENNReal.ofReal (synRad x) := by
  have ha := a2_pos h1.le
  have hx : (consts xmin).xlow = 1 := by
    simp only [consts]
    rw [if_neg (by linarith)]
  generalize hk : consts xmin = k at *
  set f : ℝ → ℝ := fun v => 1 - log v with hf
  have hfm : Measurable f := by fun_prop
  set s : Set ℝ := Ioc 0 1 ∩ f ⁻¹' A with hs
  have hsm : MeasurableSet s := measurableSet_Ioc.inter (hfm hA)
  have hexp : ∀ v ∈ s, exp (-f v) = exp (-1) * v := fun v hv => by
    simp only [hf]
    rw [neg_sub, sub_eq_add_neg, Real.exp_add, Real.exp_log hv.1.1, mul_comm]
  have hset : {p : ℝ × ℝ | p.1 ∈ Icc 0 1 ∧ p.2 ∈ Icc 0 1 ∧ ∃ x ∈ A, high k p.1 p.2 = (some x, false)} =
      {p : ℝ × ℝ | p.1 ∈ s ∧ p.2 ∈ Icc 0 1 ∧ ¬ (fun v => synRad (f v)) p.1 < (fun v => k.a2 * exp (-f v)) p.1 * p.2} := by
    ext ⟨v, u⟩
    simp only [mem_ofPred_eq, hs, mem_inter_iff, mem_preimage, high, hx]
    constructor
    · rintro ⟨hv, hu, x, hxA, h2⟩
      by_cases hv0 : v = 0
      · rw [if_pos hv0] at h2
        simp at h2
      · rw [if_neg hv0, Prod.mk.injEq, decide_eq_false_iff_not] at h2
        have h3 := Option.some.inj h2.1
        refine ⟨⟨⟨lt_of_le_of_ne hv.1 (Ne.symm hv0), hv.2⟩, ?_⟩, hu, h2.2⟩
        show 1 - log v ∈ A
        rw [h3]
        exact hxA
    · rintro ⟨⟨hv, hxA⟩, hu, h2⟩
      refine ⟨⟨hv.1.le, hv.2⟩, hu, f v, hxA, ?_⟩
      rw [if_neg hv.1.ne']
      simp only [Prod.mk.injEq, decide_eq_false_iff_not]
      exact ⟨rfl, h2⟩
  rw [hset]
  refine (accept_area (S := fun v => synRad (f v)) (a := fun v => k.a2 * exp (-f v)) hsm (measurable_synRad.comp hfm) (by fun_prop) ?_).trans ?_
  rotate_left
  · have himg : f '' s = A ∩ Ici 1 := by
      ext x
      constructor
      · rintro ⟨v, hv, rfl⟩
        refine ⟨hv.2, ?_⟩
        have := Real.log_nonpos hv.1.1.le hv.1.2
        simp only [hf, mem_Ici]
        linarith
      · rintro ⟨hxA, hx1⟩
        have hfv : f (exp (1 - x)) = x := by
          simp only [hf]
          rw [Real.log_exp]
          ring
        refine ⟨exp (1 - x), ⟨⟨Real.exp_pos _, ?_⟩, ?_⟩, hfv⟩
        · rw [Real.exp_le_one_iff]
          have : (1 : ℝ) ≤ x := hx1
          linarith
        · rw [mem_preimage, hfv]
          exact hxA
    have hder : ∀ v ∈ s, HasDerivWithinAt f (-v⁻¹) s v := by
      intro v hv
      have := (Real.hasDerivAt_log hv.1.1.ne').const_sub 1
      exact this.hasDerivWithinAt
    have hinj : InjOn f s := by
      intro v hv w hw hvw
      have h2 : log v = log w := by
        simp only [hf] at hvw
        linarith
      exact Real.log_injOn_pos hv.1.1 hw.1.1 h2
    rw [← himg, lintegral_image_eq_lintegral_abs_deriv_mul hsm hder hinj, ← lintegral_const_mul]
    · refine setLIntegral_congr_fun hsm fun v hv => ?_
      have h2 : 0 < v := hv.1.1
      show ENNReal.ofReal (synRad (f v) / (k.a2 * exp (-f v))) = _
      rw [hexp v hv, ← ENNReal.ofReal_mul (abs_nonneg _), ← ENNReal.ofReal_mul (by positivity), abs_neg, abs_of_pos (by positivity)]
      congr 1
      field_simp
    · have := measurable_synRad.comp hfm
      exact (by fun_prop : Measurable fun v : ℝ => ENNReal.ofReal |(-v⁻¹)|).mul (ENNReal.measurable_ofReal.comp this)
  · intro v hv
    refine ⟨by positivity, synRad_nonneg _, ?_⟩
    show synRad (f v) ≤ k.a2 * exp (-f v)
    rw [← hk]
    refine below_exp h1.le ?_
    have := Real.log_nonpos hv.1.1.le hv.1.2
    simp only [hf]
    linarith

theorem total_integral {xmin : ℝ} (h0 : 0 ≤ xmin) (h1 : xmin < 1) :
    ENNReal.ofReal (total xmin) = ∫⁻ x in Ioi xmin, ENNReal.ofReal (approx (consts xmin).a1 (consts xmin).a2 x) := by
  have ha1 := a1_pos xmin
  have ha2 := a2_pos h1.le
  have hc := (c1_lt h0 h1).2.1
  have hd : 0 < 1 - (consts xmin).c1 := by linarith
  have hI1 : IntegrableOn (fun x : ℝ => (consts xmin).a1 * x ^ (-2 / 3 : ℝ)) (Ioc xmin 1) := by
    have := (intervalIntegral.intervalIntegrable_rpow' (a := xmin) (b := 1) (r := -2 / 3) (by norm_num)).const_mul (consts xmin).a1
    exact (intervalIntegrable_iff_integrableOn_Ioc_of_le h1.le).mp this
  have hI2 : IntegrableOn (fun x : ℝ => (consts xmin).a2 * exp (-x)) (Ioi 1) := (integrableOn_exp_neg_Ioi 1).const_mul _
  have e1 : ∫⁻ x in Ioc xmin 1, ENNReal.ofReal (approx (consts xmin).a1 (consts xmin).a2 x) =
      ENNReal.ofReal (3 * (consts xmin).a1 * (1 - (consts xmin).c1)) := by
    have : ∫⁻ x in Ioc xmin 1, ENNReal.ofReal (approx (consts xmin).a1 (consts xmin).a2 x) =
        ∫⁻ x in Ioc xmin 1, ENNReal.ofReal ((consts xmin).a1 * x ^ (-2 / 3 : ℝ)) :=
      setLIntegral_congr_fun measurableSet_Ioc fun x hx => by simp only [approx, if_pos hx.2]
    rw [this, ← ofReal_integral_eq_lintegral_ofReal hI1]
    · congr 1
      rw [← intervalIntegral.integral_of_le h1.le, intervalIntegral.integral_const_mul, integral_rpow (Or.inl (by norm_num)), c1_eq]
      norm_num
      ring
    · refine (ae_restrict_iff' measurableSet_Ioc).mpr (Filter.Eventually.of_forall fun x hx => ?_)
      exact mul_nonneg ha1.le (Real.rpow_nonneg (h0.trans hx.1.le) _)
  have e2 : ∫⁻ x in Ioi 1, ENNReal.ofReal (approx (consts xmin).a1 (consts xmin).a2 x) =
      ENNReal.ofReal ((consts xmin).a2 * exp (-1)) := by
    have : ∫⁻ x in Ioi 1, ENNReal.ofReal (approx (consts xmin).a1 (consts xmin).a2 x) =
        ∫⁻ x in Ioi 1, ENNReal.ofReal ((consts xmin).a2 * exp (-x)) :=
      setLIntegral_congr_fun measurableSet_Ioi fun x hx => by simp only [approx, if_neg (not_le.mpr (mem_Ioi.mp hx))]
    rw [this, ← ofReal_integral_eq_lintegral_ofReal hI2]
    · congr 1
      rw [integral_const_mul, integral_exp_neg_Ioi]
    · exact Filter.Eventually.of_forall fun x => mul_nonneg ha2.le (Real.exp_pos _).le
  rw [← Ioc_union_Ioi_eq_Ioi h1.le, lintegral_union measurableSet_Ioi, e1, e2, total, ENNReal.ofReal_add (by positivity) (by positivity)]
  rw [Set.disjoint_left]
  rintro x h2 h3
  exact absurd h3 (not_lt.mpr h2.2)

theorem round_total {xmin : ℝ} (h0 : 0 ≤ xmin) (h1 : xmin < 1) {A : Set ℝ} (hA : MeasurableSet A) (hA' : A ⊆ Ici 1e-38) :
    volume {p : ℝ × ℝ × ℝ | p.1 ∈ Icc 0 1 ∧ p.2.1 ∈ Icc 0 1 ∧ p.2.2 ∈ Icc 0 1 ∧
        ∃ x ∈ A, round (consts xmin) p.1 p.2.1 p.2.2 = (some x, false)} =
      ENNReal.ofReal (1 / total xmin) * ∫⁻ x in A ∩ Ioi xmin, ENNReal.ofReal (synRad x) := by
  obtain ⟨hr0, hr1⟩ := ratio_range h0 h1
  have hl := low_area h0 h1 hA hA'
  have hh := high_area h1 hA
  set L := {p : ℝ × ℝ | p.1 ∈ Icc 0 1 ∧ p.2 ∈ Icc 0 1 ∧ ∃ x ∈ A, low (consts xmin) p.1 p.2 = (x, false)} with hL
  set H := {p : ℝ × ℝ | p.1 ∈ Icc 0 1 ∧ p.2 ∈ Icc 0 1 ∧ ∃ x ∈ A, high (consts xmin) p.1 p.2 = (some x, false)} with hH
  have hset : {p : ℝ × ℝ × ℝ | p.1 ∈ Icc 0 1 ∧ p.2.1 ∈ Icc 0 1 ∧ p.2.2 ∈ Icc 0 1 ∧
        ∃ x ∈ A, round (consts xmin) p.1 p.2.1 p.2.2 = (some x, false)} =
      Ico 0 (consts xmin).ratio ×ˢ L ∪ Icc (consts xmin).ratio 1 ×ˢ H := by
    ext ⟨w, v, u⟩
    simp only [mem_ofPred_eq, mem_union, mem_prod, hL, hH, round]
    constructor
    · rintro ⟨hw, hv, hu, x, hx, h2⟩
      by_cases hwr : w < (consts xmin).ratio
      · rw [if_pos hwr, Prod.mk.injEq] at h2
        exact Or.inl ⟨⟨hw.1, hwr⟩, hv, hu, x, hx, Prod.ext (Option.some.inj h2.1) h2.2⟩
      · rw [if_neg hwr] at h2
        exact Or.inr ⟨⟨not_lt.mp hwr, hw.2⟩, hv, hu, x, hx, h2⟩
    · rintro (⟨hw, hv, hu, x, hx, h2⟩ | ⟨hw, hv, hu, x, hx, h2⟩)
      · refine ⟨⟨hw.1, (hw.2.trans hr1).le⟩, hv, hu, x, hx, ?_⟩
        rw [if_pos hw.2, h2]
      · refine ⟨⟨hr0.le.trans hw.1, hw.2⟩, hv, hu, x, hx, ?_⟩
        rw [if_neg (not_lt.mpr hw.1), h2]
  have hHm : MeasurableSet H ∧ True := by
    refine ⟨?_, trivial⟩
    have hsm : MeasurableSet (Ioc 0 1 ∩ (fun v : ℝ => (consts xmin).xlow - log v) ⁻¹' A) :=
      measurableSet_Ioc.inter ((by fun_prop : Measurable fun v : ℝ => (consts xmin).xlow - log v) hA)
    have : H = {p : ℝ × ℝ | p.1 ∈ Ioc 0 1 ∩ (fun v : ℝ => (consts xmin).xlow - log v) ⁻¹' A ∧ p.2 ∈ Icc 0 1 ∧
        ¬ synRad ((consts xmin).xlow - log p.1) < (consts xmin).a2 * exp (-((consts xmin).xlow - log p.1)) * p.2} := by
      ext ⟨v, u⟩
      simp only [hH, mem_ofPred_eq, mem_inter_iff, mem_preimage, high]
      constructor
      · rintro ⟨hv, hu, x, hxA, h2⟩
        by_cases hv0 : v = 0
        · rw [if_pos hv0] at h2
          simp at h2
        · rw [if_neg hv0, Prod.mk.injEq, decide_eq_false_iff_not] at h2
          have h3 := Option.some.inj h2.1
          exact ⟨⟨⟨lt_of_le_of_ne hv.1 (Ne.symm hv0), hv.2⟩, by rw [h3]; exact hxA⟩, hu, h2.2⟩
      · rintro ⟨⟨hv, hxA⟩, hu, h2⟩
        refine ⟨⟨hv.1.le, hv.2⟩, hu, _, hxA, ?_⟩
        rw [if_neg hv.1.ne']
        simp only [Prod.mk.injEq, decide_eq_false_iff_not]
        exact ⟨trivial, h2⟩
    rw [this]
    refine (measurable_fst hsm).inter ((measurable_snd measurableSet_Icc).inter ?_)
    refine (measurableSet_lt (f := fun p : ℝ × ℝ => synRad ((consts xmin).xlow - log p.1)) ?_ ?_).compl
    · exact measurable_synRad.comp (by fun_prop)
    · fun_prop
  have hdis : Disjoint (Ico 0 (consts xmin).ratio ×ˢ L) (Icc (consts xmin).ratio 1 ×ˢ H) := by
    rw [Set.disjoint_left]
    rintro ⟨w, p⟩ ⟨h2, -⟩ ⟨h3, -⟩
    exact absurd h2.2 (not_lt.mpr h3.1)
  rw [hset, measure_union hdis (measurableSet_Icc.prod hHm.1), Measure.volume_eq_prod, Measure.prod_prod, Measure.prod_prod, hl, hh,
    Real.volume_Ico, Real.volume_Icc, sub_zero, ← mul_assoc, ← mul_assoc, ← ENNReal.ofReal_mul hr0.le, ← ENNReal.ofReal_mul (by linarith)]
  have ha1 := a1_pos xmin
  have ha2 := a2_pos h1.le
  have hc := (c1_lt h0 h1).2.1
  have ht := total_pos h0 h1
  have hd : 0 < 1 - (consts xmin).c1 := by linarith
  have e1 : (consts xmin).ratio * (1 / (3 * (consts xmin).a1 * (1 - (consts xmin).c1))) = 1 / total xmin := by
    rw [ratio_eq h1]
    field_simp
  have e2 : (1 - (consts xmin).ratio) * (1 / ((consts xmin).a2 * exp (-1))) = 1 / total xmin := by
    have h2 : 1 - (consts xmin).ratio = (consts xmin).a2 * exp (-1) / total xmin := by
      rw [ratio_eq h1, eq_div_iff ht.ne', sub_mul, div_mul_cancel₀ _ ht.ne', total]
      ring
    rw [h2]
    field_simp
  rw [e1, e2, ← mul_add]
  congr 1
  have s1 : ∫⁻ x in A ∩ Icc xmin 1, ENNReal.ofReal (synRad x) = ∫⁻ x in A ∩ Ioc xmin 1, ENNReal.ofReal (synRad x) :=
    setLIntegral_congr ((ae_eq_refl A).inter Ioc_ae_eq_Icc.symm)
  have s2 : ∫⁻ x in A ∩ Ici 1, ENNReal.ofReal (synRad x) = ∫⁻ x in A ∩ Ioi 1, ENNReal.ofReal (synRad x) :=
    setLIntegral_congr ((ae_eq_refl A).inter Ioi_ae_eq_Ici.symm)
  rw [s1, s2, ← lintegral_union (hA.inter measurableSet_Ioi), ← inter_union_distrib_left, Ioc_union_Ioi_eq_Ioi h1.le]
  rw [Set.disjoint_left]
  rintro x ⟨-, h2⟩ ⟨-, h3⟩
  exact absurd h3 (not_lt.mpr h2.2)

/-- C301: one round yields an energy of a set with the probability that is the integral of the spectrum over the set, over the
integral of the approximation. -/
theorem round_law {xmin : ℝ} (h0 : 0 ≤ xmin) (h1 : xmin < 1) {A : Set ℝ} (hA : MeasurableSet A) (hA' : A ⊆ Ici 1e-38) :
    volume {p : ℝ × ℝ × ℝ | p.1 ∈ Icc 0 1 ∧ p.2.1 ∈ Icc 0 1 ∧ p.2.2 ∈ Icc 0 1 ∧
        ∃ x ∈ A, round (consts xmin) p.1 p.2.1 p.2.2 = (some x, false)} =
      (∫⁻ x in A ∩ Ioi xmin, ENNReal.ofReal (synRad x)) /
        ∫⁻ x in Ioi xmin, ENNReal.ofReal (approx (consts xmin).a1 (consts xmin).a2 x) := by
  rw [round_total h0 h1 hA hA', ← total_integral h0 h1, ENNReal.div_eq_inv_mul, one_div, ENNReal.ofReal_inv_of_pos (total_pos h0 h1)]

/-- C301 (second part): the energies one after the other; two sets are hit as often as the spectrum says. -/
theorem round_ratio {xmin : ℝ} (h0 : 0 ≤ xmin) (h1 : xmin < 1) {A B : Set ℝ} (hA : MeasurableSet A) (hA' : A ⊆ Ici 1e-38)
    (hB : MeasurableSet B) (hB' : B ⊆ Ici 1e-38) :
    volume {p : ℝ × ℝ × ℝ | p.1 ∈ Icc 0 1 ∧ p.2.1 ∈ Icc 0 1 ∧ p.2.2 ∈ Icc 0 1 ∧
        ∃ x ∈ A, round (consts xmin) p.1 p.2.1 p.2.2 = (some x, false)} * (∫⁻ x in B ∩ Ioi xmin, ENNReal.ofReal (synRad x)) =
    volume {p : ℝ × ℝ × ℝ | p.1 ∈ Icc 0 1 ∧ p.2.1 ∈ Icc 0 1 ∧ p.2.2 ∈ Icc 0 1 ∧
        ∃ x ∈ B, round (consts xmin) p.1 p.2.1 p.2.2 = (some x, false)} * (∫⁻ x in A ∩ Ioi xmin, ENNReal.ofReal (synRad x)) := by
  rw [round_total h0 h1 hA hA', round_total h0 h1 hB hB']
  ring

end Verif.Photon
