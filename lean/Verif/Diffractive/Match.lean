import Verif.Diffractive.Cross
import Mathlib.Analysis.SpecialFunctions.Pow.Deriv
import Mathlib.Analysis.SpecialFunctions.Pow.Continuity
import Mathlib.Tactic.FieldSimp
import Mathlib.Tactic.Linarith
import Mathlib.Tactic.NormNum
import Mathlib.Tactic.LinearCombination

/-!
# Properties of the differential cross section of single diffraction
-/

namespace Verif.Diffractive
open Real Filter Topology

theorem mmin2_lt : 0 < mmin2 ∧ mmin2 < 116 / 100 ∧ mmin2bar < mmin2 := by
  unfold mmin2 mmin2bar
  norm_num

theorem mcut_ge (ss s : ℝ) (h : 4000 < ss → 4000 ≤ s) : 3 ≤ mcut ss s := by
  unfold mcut
  split_ifs with h1
  · have := log_nonneg (by have := h h1; rw [le_div_iff₀ (by norm_num)]; linarith : 1 ≤ s / 4000)
    linarith
  · exact le_rfl

theorem xi_order (ss s : ℝ) (hs : 0 < s) (h : 4000 < ss → 4000 ≤ s) : 0 < xiTh s ∧ xiTh s < xiC ss s := by
  have h1 := mmin2_lt
  have h2 := mcut_ge ss s h
  unfold xiTh xiC
  constructor
  · exact div_pos h1.1 hs
  · gcongr
    nlinarith

/-- **C331.** Below the threshold for one more pion there is no diffraction, above the matching point the cross section is that of high masses. -/
theorem ranges (ss tt x s : ℝ) (hs : 0 < s) (h : 4000 < ss → 4000 ≤ s) :
    (s * x ≤ (938272013 / 1000000000 + 1349766 / 10000000) ^ 2 → cross ss tt x s = 0) ∧ (mcut ss s ^ 2 < s * x → cross ss tt x s = high (-tt) s x) := by
  have ho := xi_order ss s hs h
  constructor
  · intro hx
    unfold cross
    rw [if_pos]
    unfold xiTh mmin2
    rw [le_div_iff₀ hs]
    linarith
  · intro hx
    have hxc : xiC ss s < x := by
      unfold xiC
      rw [div_lt_iff₀ hs]
      linarith
    unfold cross
    simp only
    rw [if_neg (by linarith), if_neg (by intro hc; linarith [hc.2])]

/-- The background between threshold and matching point: zero at the one, value and slope as given at the other. -/
theorem background_spec (t ss s : ℝ) (hs : 0 < s) (h : 4000 < ss → 4000 ≤ s) :
    background t ss s (xiTh s) = 0 ∧ background t ss s (xiC ss s) = high t s (xiC ss s) ∧ HasDerivAt (background t ss s) (slope t s (xiC ss s)) (xiC ss s) := by
  have hw : xiC ss s - xiTh s ≠ 0 := by linarith [sub_pos.mpr (xi_order ss s hs h).2]
  refine ⟨?_, ?_, ?_⟩
  · unfold background
    simp
  · unfold background
    simp only
    field_simp
    ring
  · unfold background
    simp only
    generalize hA : slope t s (xiC ss s) = A
    generalize hB : high t s (xiC ss s) = B
    generalize hc : xiC ss s = c at *
    generalize xiTh s = z at *
    have h1 : HasDerivAt (fun x : ℝ => x - z) 1 c := (hasDerivAt_id c).sub_const z
    have h2 := ((h1.pow 2).const_mul (((c - z) * A - B) / (c - z) ^ 2)).add (h1.const_mul (A - 2 * ((c - z) * A - B) / (c - z)))
    refine h2.congr_deriv ?_
    field_simp
    push_cast
    ring

theorem momentum_cont (s x : ℝ) (hs : 0 < s) (hx : 0 < x) : ContinuousAt (fun x => momentum (x * s)) x := by
  have hne : 4 * (x * s) ≠ 0 := by positivity
  unfold momentum
  refine ContinuousAt.sqrt ?_
  refine ContinuousAt.div (by fun_prop) (by fun_prop) hne

theorem gammaL_cont (l : Nat) (s x : ℝ) (hs : 0 < s) (hx : 0 < x) : ContinuousAt (fun x => gammaL l (x * s)) x := by
  have h1 := momentum_cont s x hs hx
  have hne : 1 + 5 * momentum (x * s) ≠ 0 := by
    have : 0 ≤ momentum (x * s) := sqrt_nonneg _
    positivity
  unfold gammaL
  refine ContinuousAt.mul (ContinuousAt.mul continuousAt_const ((h1.div_const _).pow _)) (ContinuousAt.pow ?_ _)
  exact ContinuousAt.div continuousAt_const (by fun_prop) hne

theorem resonance_cont (l : Nat) (s x : ℝ) (hs : 0 < s) (hx : 0 < x) (hm : x * s ≠ ml l ^ 2) : ContinuousAt (fun x => resonance l s x (gammaL l (x * s))) x := by
  have h1 := gammaL_cont l s x hs hx
  unfold resonance
  refine ContinuousAt.div (ContinuousAt.mul (ContinuousAt.div continuousAt_const continuousAt_id hx.ne') (by fun_prop)) (by fun_prop) ?_
  have : 0 < (x * s - ml l ^ 2) ^ 2 := by
    have : x * s - ml l ^ 2 ≠ 0 := sub_ne_zero.mpr hm
    positivity
  positivity

theorem resonance_cont' (l : Nat) (s y x : ℝ) (hs : 0 < s) (hx : 0 < x) (hm : y * s ≠ ml l ^ 2) : ContinuousAt (fun x => resonance l s y (gammaL l (x * s))) x := by
  have h1 := gammaL_cont l s x hs hx
  unfold resonance
  refine ContinuousAt.div (by fun_prop) (by fun_prop) ?_
  have : 0 < (y * s - ml l ^ 2) ^ 2 := by
    have : y * s - ml l ^ 2 ≠ 0 := sub_ne_zero.mpr hm
    positivity
  positivity

/-- The cross section at low mass. -/
noncomputable def low (t ss s x : ℝ) : ℝ := background t ss s x + R t s x + brMatch t ss s x

theorem mass_ne (m2 : ℝ) (h : m2 < 2 ∨ 9 ≤ m2) (l : Nat) : m2 ≠ ml l ^ 2 := by
  unfold ml
  intro hc
  split at hc <;> norm_num at hc <;> rcases h with h | h <;> linarith

theorem low_cont (t ss s x : ℝ) (hs : 0 < s) (h : 4000 < ss → 4000 ≤ s) (hx : 0 < x) (hm : x * s < 2 ∨ 9 ≤ x * s) : ContinuousAt (low t ss s) x := by
  have hc : 9 ≤ xiC ss s * s := by
    unfold xiC
    rw [div_mul_cancel₀ _ hs.ne']
    nlinarith [mcut_ge ss s h]
  have r : ∀ l, ContinuousAt (fun x => resonance l s x (gammaL l (x * s))) x := fun l => resonance_cont l s x hs hx (mass_ne _ hm l)
  have r' : ∀ l, ContinuousAt (fun x => resonance l s (xiC ss s) (gammaL l (x * s))) x := fun l => resonance_cont' l s _ x hs hx (mass_ne _ (Or.inr hc) l)
  have hR : ContinuousAt (R t s) x := ((((r 0).add (r 1)).add (r 2)).add (r 3)).mul continuousAt_const
  have hB : ContinuousAt (brMatch t ss s) x := by
    unfold brMatch
    exact (((((((r' 0).add (r' 1)).add (r' 2)).add (r' 3)).neg).mul continuousAt_const).mul (by fun_prop)).div_const _
  have hb : ContinuousAt (background t ss s) x := by
    unfold background
    fun_prop
  exact (hb.add hR).add hB

theorem low_matching (t ss s : ℝ) (hs : 0 < s) (h : 4000 < ss → 4000 ≤ s) : low t ss s (xiC ss s) = high t s (xiC ss s) := by
  have hw : xiC ss s - xiTh s ≠ 0 := by linarith [sub_pos.mpr (xi_order ss s hs h).2]
  unfold low
  rw [(background_spec t ss s hs h).2.1]
  unfold R brMatch
  rw [mul_div_assoc, div_self hw]
  ring

theorem low_threshold (t ss s : ℝ) (hs : 0 < s) (h : 4000 < ss → 4000 ≤ s) : low t ss s (xiTh s) = 0 := by
  have hq : momentum (xiTh s * s) = 0 := by
    unfold momentum xiTh
    rw [div_mul_cancel₀ _ hs.ne']
    simp
  have hg : ∀ l, gammaL l (xiTh s * s) = 0 := by
    intro l
    unfold gammaL
    rw [hq]
    simp
  unfold low
  rw [(background_spec t ss s hs h).1]
  unfold R brMatch resonance
  simp [hg]

theorem high_cont (t s x : ℝ) (hs : 0 < s) (hx : 0 < x) : ContinuousAt (high t s) x := by
  have hp : ∀ a : ℝ, ContinuousAt (fun x : ℝ => x ^ a) x := fun a => continuousAt_id.rpow_const (Or.inl hx.ne')
  have hq : ∀ a : ℝ, ContinuousAt (fun x : ℝ => (s * x) ^ a) x := fun a =>
    (continuousAt_const.mul continuousAt_id).rpow_const (Or.inl (mul_pos hs hx).ne')
  unfold high
  exact ((((continuousAt_const.mul (hp _)).add (continuousAt_const.mul (hp _))).add (continuousAt_const.mul (hp _))).add (continuousAt_const.mul (hp _))).add
    ((continuousAt_const.mul (hp _)).mul ((continuousAt_const.mul (hq _)).add (continuousAt_const.mul (hq _))))

/-- **C331.** As a function of xi the cross section has no jump at the threshold and at the matching point. -/
theorem joints (ss tt s : ℝ) (hs : 0 < s) (h : 4000 < ss → 4000 ≤ s) :
    ContinuousAt (fun x => cross ss tt x s) ((938272013 / 1000000000 + 1349766 / 10000000) ^ 2 / s) ∧ ContinuousAt (fun x => cross ss tt x s) (mcut ss s ^ 2 / s) := by
  obtain ⟨o1, o2⟩ := xi_order ss s hs h
  have hth : xiTh s * s = mmin2 := by unfold xiTh; rw [div_mul_cancel₀ _ hs.ne']
  have hc : 9 ≤ xiC ss s * s := by
    unfold xiC
    rw [div_mul_cancel₀ _ hs.ne']
    nlinarith [mcut_ge ss s h]
  have hmid : ∀ x, xiTh s < x → x ≤ xiC ss s → cross ss tt x s = low (-tt) ss s x := by
    intro x h1 h2
    unfold cross
    simp only
    rw [if_neg (by linarith), if_pos ⟨h1, h2⟩]
    rfl
  change ContinuousAt (fun x => cross ss tt x s) (xiTh s) ∧ ContinuousAt (fun x => cross ss tt x s) (xiC ss s)
  have hlow : ∀ x, x ≤ xiTh s → cross ss tt x s = 0 := by
    intro x hx
    unfold cross
    rw [if_pos hx]
  have hhigh : ∀ x, xiC ss s < x → cross ss tt x s = high (-tt) s x := by
    intro x hx
    unfold cross
    simp only
    rw [if_neg (by linarith), if_neg (by intro hc; linarith [hc.2])]
  constructor
  · rw [continuousAt_iff_continuous_left_right]
    have hL := low_cont (-tt) ss s (xiTh s) hs h o1 (Or.inl (by rw [hth]; linarith [mmin2_lt.2.1]))
    constructor
    · exact continuousWithinAt_const.congr (fun x hx => hlow x hx) (hlow _ le_rfl)
    · have e : cross ss tt (xiTh s) s = low (-tt) ss s (xiTh s) := by rw [hlow _ le_rfl, low_threshold _ _ _ hs h]
      refine (hL.continuousWithinAt (s := Set.Ici (xiTh s))).congr_of_eventuallyEq ?_ e
      filter_upwards [self_mem_nhdsWithin, mem_nhdsWithin_of_mem_nhds (Iio_mem_nhds o2)] with x hx hx2
      rcases (Set.mem_Ici.mp hx).eq_or_lt with he | hl
      · rw [← he]; exact e
      · exact hmid x hl (le_of_lt hx2)
  · rw [continuousAt_iff_continuous_left_right]
    have hL := low_cont (-tt) ss s (xiC ss s) hs h (o1.trans o2) (Or.inr hc)
    have hH := high_cont (-tt) s (xiC ss s) hs (o1.trans o2)
    constructor
    · refine (hL.continuousWithinAt (s := Set.Iic (xiC ss s))).congr_of_eventuallyEq ?_ (hmid _ o2 le_rfl)
      filter_upwards [self_mem_nhdsWithin, mem_nhdsWithin_of_mem_nhds (Ioi_mem_nhds o2)] with x hx hx2
      exact hmid x hx2 hx
    · have e : cross ss tt (xiC ss s) s = high (-tt) s (xiC ss s) := by rw [hmid _ o2 le_rfl, low_matching _ _ _ hs h]
      refine (hH.continuousWithinAt (s := Set.Ici (xiC ss s))).congr_of_eventuallyEq ?_ e
      filter_upwards [self_mem_nhdsWithin] with x hx
      rcases (Set.mem_Ici.mp hx).eq_or_lt with he | hl
      · rw [← he]; exact e
      · exact hhigh x hl

example : (0 : ℝ) < 13000 ∧ ((4000 : ℝ) < 13000 → (4000 : ℝ) ≤ 13000) := by norm_num

/-- The derivative of the cross section at high mass: what the code takes for it lacks a factor s in one term. -/
theorem high_deriv (t s x : ℝ) (hs : 0 < s) (hx : 0 < x) : HasDerivAt (high t s) (slope t s x + pion t * x ^ (1 - 186 / 100 * (-(182185 / 10000000) + t))
    * (3179 / 100 * (-(4525 / 10000)) * (s * x) ^ (-(14525 / 10000) : ℝ) + 1363 / 100 * (808 / 10000) * (s * x) ^ (808 / 10000 - 1 : ℝ)) * (s - 1)) x := by
  have hp : ∀ a b : ℝ, b = a - 1 → HasDerivAt (fun x : ℝ => x ^ a) (a * x ^ b) x := by
    intro a b hb
    rw [hb]
    exact Real.hasDerivAt_rpow_const (Or.inl hx.ne')
  have hq : ∀ a b : ℝ, b = a - 1 → HasDerivAt (fun x : ℝ => (s * x) ^ a) (a * (s * x) ^ b * s) x := by
    intro a b hb
    rw [hb]
    have h1 : HasDerivAt (fun x : ℝ => s * x) s x := by simpa using (hasDerivAt_id x).const_mul s
    have h2 := h1.rpow_const (p := a) (Or.inl (mul_pos hs hx).ne')
    exact h2.congr_deriv (by ring)
  have h1 := (hp (-(108 / 100) - 1 / 2 * t) (-(208 / 100) - 1 / 2 * t) (by ring)).const_mul (ppp t * s ^ (8 / 100 : ℝ))
  have h2 := (hp (-(16125 / 10000) - 1 / 2 * t) (-(26125 / 10000) - 1 / 2 * t) (by ring)).const_mul (ppr t * s ^ (-(4525 / 10000) : ℝ))
  have h3 := (hp (-(15 / 1000) - 186 / 100 * t) (-(1015 / 1000) - 186 / 100 * t) (by ring)).const_mul (rrp t * s ^ (8 / 100 : ℝ))
  have h4 := (hp (-(5475 / 10000) - 186 / 100 * t) (-(15475 / 10000) - 186 / 100 * t) (by ring)).const_mul (rrr t * s ^ (-(4525 / 10000) : ℝ))
  have h5 := (hp (1 - 186 / 100 * (-(182185 / 10000000) + t)) (-(186 / 100) * (-(182185 / 10000000) + t)) (by ring)).const_mul (pion t)
  have h6 := (hq (-(4525 / 10000)) (-(14525 / 10000)) (by norm_num)).const_mul (3179 / 100)
  have h7 := (hq (808 / 10000) (808 / 10000 - 1) rfl).const_mul (1363 / 100)
  have hall := (((h1.add h2).add h3).add h4).add (h5.mul (h6.add h7))
  refine hall.congr_deriv ?_
  unfold slope
  simp only [Pi.add_apply]
  ring

/-- **C332 fails:** at the matching point the background does not have the slope of the cross section at high mass. -/
theorem slope_violated (t s : ℝ) (ht : t < 0) (hs : 1 < s) (h4 : s ≤ 4000) :
    ∃ a b, HasDerivAt (background t s s) a (9 / s) ∧ HasDerivAt (high t s) b (9 / s) ∧ a ≠ b := by
  have hs0 : 0 < s := by linarith
  have hcond : 4000 < s → 4000 ≤ s := fun h => h.le
  have hc : xiC s s = 9 / s := by
    unfold xiC mcut
    rw [if_neg (by linarith)]
    norm_num
  have h1 := (background_spec t s s hs0 hcond).2.2
  rw [hc] at h1
  have h2 := high_deriv t s (9 / s) hs0 (by positivity)
  refine ⟨_, _, h1, h2, ?_⟩
  have h9 : s * (9 / s) = 9 := by field_simp
  have hpion : 0 < pion t := by
    unfold pion
    have a1 : 0 < 352142 / 100000 - 279 / 100 * t := by linarith
    have a2 : 0 < |t| := abs_pos.mpr ht.ne
    have a3 : 0 < 1 - 140845 / 100000 * t := by linarith
    have a4 : 0 < 352142 / 100000 - t := by linarith
    have a5 : -(182185 / 10000000) + t ≠ 0 := by linarith [ht]
    positivity
  have hx : 0 < (9 / s) ^ (1 - 186 / 100 * (-(182185 / 10000000) + t)) := rpow_pos_of_pos (by positivity) _
  have hbr : 3179 / 100 * (-(4525 / 10000)) * (s * (9 / s)) ^ (-(14525 / 10000) : ℝ) + 1363 / 100 * (808 / 10000) * (s * (9 / s)) ^ (808 / 10000 - 1 : ℝ) < 0 := by
    rw [h9]
    have e : (9 : ℝ) ^ (808 / 10000 - 1 : ℝ) = 9 ^ (-(14525 / 10000) : ℝ) * 9 ^ (5333 / 10000 : ℝ) := by
      rw [← rpow_add (by norm_num)]
      norm_num
    have l1 : (9 : ℝ) ^ (5333 / 10000 : ℝ) ≤ 9 := by
      have := rpow_le_rpow_of_exponent_le (by norm_num : (1 : ℝ) ≤ 9) (by norm_num : (5333 / 10000 : ℝ) ≤ 1)
      rwa [rpow_one] at this
    have l2 : (0 : ℝ) < 9 ^ (-(14525 / 10000) : ℝ) := rpow_pos_of_pos (by norm_num) _
    rw [e]
    nlinarith
  have : pion t * (9 / s) ^ (1 - 186 / 100 * (-(182185 / 10000000) + t))
    * (3179 / 100 * (-(4525 / 10000)) * (s * (9 / s)) ^ (-(14525 / 10000) : ℝ) + 1363 / 100 * (808 / 10000) * (s * (9 / s)) ^ (808 / 10000 - 1 : ℝ)) * (s - 1) < 0 := by
    apply mul_neg_of_neg_of_pos _ (by linarith)
    exact mul_neg_of_pos_of_neg (mul_pos hpion hx) hbr
  intro he
  linarith

example : (-1 : ℝ) < 0 ∧ (1 : ℝ) < 100 ∧ (100 : ℝ) ≤ 4000 := by norm_num

/-! ## Dependence on t -/

theorem pion_nonneg (t : ℝ) : 0 ≤ pion t := by
  unfold pion
  positivity

theorem ppp_pos (t : ℝ) (ht : t ≤ 0) : 0 < ppp t := by
  unfold ppp
  have he := exp_pos (25835 / 10000 * t)
  split_ifs with h1 h2
  · linarith
  · have : 0 < t / (t - 5 / 100) := div_pos_of_neg_of_neg (by linarith) (by linarith)
    positivity
  · have h0 : 0 < t / (t - 5 / 100) := div_pos_of_neg_of_neg (by linarith) (by linarith)
    have h3 : 0 ≤ |t| - 115 / 100 := by rw [abs_of_nonpos ht]; linarith
    positivity

/-- **C331.** Above the matching point the cross section is positive. -/
theorem high_positive (ss tt x s : ℝ) (hs : 0 < s) (h : 4000 < ss → 4000 ≤ s) (ht : 0 ≤ tt) (hx : mcut ss s ^ 2 < s * x) : 0 < cross ss tt x s := by
  rw [(ranges ss tt x s hs h).2 hx]
  have h9 : 0 ≤ mcut ss s ^ 2 := sq_nonneg _
  have hx0 : 0 < x := by
    by_contra hc
    have := mul_nonpos_of_nonneg_of_nonpos hs.le (not_lt.mp hc)
    linarith
  have h1 := ppp_pos (-tt) (by linarith)
  have h2 := pion_nonneg (-tt)
  unfold high ppr rrp rrr
  positivity

/-- The terms besides that of three pomerons. -/
noncomputable def rest (s x t : ℝ) : ℝ :=
  ppr t * s ^ (-(4525 / 10000) : ℝ) * x ^ (-(16125 / 10000) - 1 / 2 * t)
    + rrp t * s ^ (8 / 100 : ℝ) * x ^ (-(15 / 1000) - 186 / 100 * t)
    + rrr t * s ^ (-(4525 / 10000) : ℝ) * x ^ (-(5475 / 10000) - 186 / 100 * t)
    + pion t * x ^ (1 - 186 / 100 * (-(182185 / 10000000) + t))
      * (3179 / 100 * (s * x) ^ (-(4525 / 10000) : ℝ) + 1363 / 100 * (s * x) ^ (808 / 10000 : ℝ))

theorem rest_cont (s x t : ℝ) (hs : 0 < s) (hx : 0 < x) (ht : t ≤ 0) : ContinuousAt (rest s x) t := by
  have hp : ∀ a b : ℝ, ContinuousAt (fun t : ℝ => x ^ (a - b * t)) t := fun a b => ContinuousAt.rpow continuousAt_const (by fun_prop) (Or.inl hx.ne')
  have hp5 : ContinuousAt (fun t : ℝ => x ^ (1 - 186 / 100 * (-(182185 / 10000000) + t))) t :=
    ContinuousAt.rpow continuousAt_const (by fun_prop) (Or.inl hx.ne')
  have c1 : ContinuousAt ppr t := by unfold ppr; fun_prop
  have c2 : ContinuousAt rrp t := by unfold rrp; fun_prop
  have c3 : ContinuousAt rrr t := by unfold rrr; fun_prop
  have c4 : ContinuousAt pion t := by
    have a3 : (1 - 140845 / 100000 * t) ^ 4 ≠ 0 := pow_ne_zero _ (by linarith)
    have a4 : (352142 / 100000 - t) ^ 2 ≠ 0 := pow_ne_zero _ (by linarith)
    have a5 : (-(182185 / 10000000) + t) ^ 2 ≠ 0 := pow_ne_zero _ (by linarith)
    unfold pion
    have i3 : ContinuousAt (fun t : ℝ => ((1 - 140845 / 100000 * t) ^ 4)⁻¹) t := ContinuousAt.inv₀ (f := fun t : ℝ => (1 - 140845 / 100000 * t) ^ 4) (by fun_prop) a3
    have i4 : ContinuousAt (fun t : ℝ => ((352142 / 100000 - t) ^ 2)⁻¹) t := ContinuousAt.inv₀ (f := fun t : ℝ => (352142 / 100000 - t) ^ 2) (by fun_prop) a4
    have i5 : ContinuousAt (fun t : ℝ => ((-(182185 / 10000000) + t) ^ 2)⁻¹) t := ContinuousAt.inv₀ (f := fun t : ℝ => (-(182185 / 10000000) + t) ^ 2) (by fun_prop) a5
    have i0 : ContinuousAt (fun t : ℝ => 114591559 / 100000000 * (352142 / 100000 - 279 / 100 * t) ^ 2 * |t|) t := by fun_prop
    exact ((i0.mul i3).mul i4).mul i5
  unfold rest
  exact ((((c1.mul continuousAt_const).mul (hp _ _)).add ((c2.mul continuousAt_const).mul (hp _ _))).add ((c3.mul continuousAt_const).mul (hp _ _))).add
    ((c4.mul hp5).mul continuousAt_const)

/-- **C333.** As a function of t the cross section at high mass has no jump, except at one place. -/
theorem t_smooth (s x tt : ℝ) (hs : 0 < s) (hx : 0 < x) (ht : 0 ≤ tt) (h1 : tt ≠ 25 / 100) : ContinuousAt (fun tt => high (-tt) s x) tt := by
  have hp : ContinuousAt ppp (-tt) := by
    rcases lt_or_gt_of_ne h1 with h | h
    · have : ContinuousAt (fun t : ℝ => 4 / 10 + 1 / 2 * t) (-tt) := by fun_prop
      refine this.congr ?_
      filter_upwards [Ioi_mem_nhds (show -(25 / 100) < -tt by linarith)] with y hy
      unfold ppp
      rw [if_pos (Set.mem_Ioi.mp hy)]
    · have ha : ContinuousAt (fun t : ℝ => (624529 / 1000000 * exp (25835 / 10000 * t) + 0) * (t / (t - 5 / 100))) (-tt) :=
        ContinuousAt.mul (by fun_prop) (ContinuousAt.div continuousAt_id (by fun_prop) (by linarith [h] : -tt - 5 / 100 ≠ 0))
      have hb : ContinuousAt (fun t : ℝ => (624529 / 1000000 * exp (25835 / 10000 * t) + 0) * (t / (t - 5 / 100))
          * (1 + 4597 / 10000 * (|t| - 115 / 100) + 57575 / 10000 * (|t| - 115 / 100) ^ 2)) (-tt) := ha.mul (by fun_prop)
      rcases lt_trichotomy tt (115 / 100) with h2 | h2 | h2
      · refine ha.congr ?_
        filter_upwards [Ioi_mem_nhds (show -(115 / 100) < -tt by linarith), Iio_mem_nhds (show -tt < -(25 / 100) by linarith)] with y hy hy2
        unfold ppp
        rw [if_neg (not_lt.mpr (le_of_lt hy2)), if_pos (Set.mem_Ioi.mp hy)]
      · have hv : ppp (-tt) = (624529 / 1000000 * exp (25835 / 10000 * -tt) + 0) * (-tt / (-tt - 5 / 100))
          * (1 + 4597 / 10000 * (|-tt| - 115 / 100) + 57575 / 10000 * (|-tt| - 115 / 100) ^ 2) := by
          unfold ppp
          rw [if_neg (by linarith), if_neg (by linarith)]
        have hone : (1 + 4597 / 10000 * (|-tt| - 115 / 100) + 57575 / 10000 * (|-tt| - 115 / 100) ^ 2) = 1 := by
          rw [abs_neg, h2, abs_of_pos (by norm_num)]
          norm_num
        rw [continuousAt_iff_continuous_left_right]
        constructor
        · refine (hb.continuousWithinAt (s := Set.Iic (-tt))).congr_of_eventuallyEq ?_ hv
          filter_upwards [self_mem_nhdsWithin] with y hy
          have hy' : y ≤ -tt := hy
          unfold ppp
          rw [if_neg (by linarith), if_neg (by linarith)]
        · have hv' : ppp (-tt) = (624529 / 1000000 * exp (25835 / 10000 * -tt) + 0) * (-tt / (-tt - 5 / 100)) := by rw [hv, hone, mul_one]
          refine (ha.continuousWithinAt (s := Set.Ici (-tt))).congr_of_eventuallyEq ?_ hv'
          filter_upwards [self_mem_nhdsWithin, mem_nhdsWithin_of_mem_nhds (Iio_mem_nhds (show -tt < -(25 / 100) by linarith))] with y hy hy2
          have hy' : -tt ≤ y := hy
          rcases hy'.eq_or_lt with he | hl
          · rw [← he]; exact hv'
          · unfold ppp
            rw [if_neg (not_lt.mpr (le_of_lt hy2)), if_pos (by linarith)]
      · refine hb.congr ?_
        filter_upwards [Iio_mem_nhds (show -tt < -(115 / 100) by linarith)] with y hy
        have hy' : y < -(115 / 100) := hy
        unfold ppp
        rw [if_neg (by linarith), if_neg (by linarith)]
  have hrest := rest_cont s x (-tt) hs hx (by linarith)
  have e : (fun t => high t s x) = fun t => ppp t * s ^ (8 / 100 : ℝ) * x ^ (-(108 / 100) - 1 / 2 * t) + rest s x t := by
    funext t
    unfold high rest
    ring
  have hpow : ContinuousAt (fun t : ℝ => x ^ (-(108 / 100) - 1 / 2 * t)) (-tt) := ContinuousAt.rpow continuousAt_const (by fun_prop) (Or.inl hx.ne')
  have hH : ContinuousAt (fun t => high t s x) (-tt) := by
    rw [e]
    exact ((hp.mul continuousAt_const).mul hpow).add hrest
  exact ContinuousAt.comp (f := fun tt : ℝ => -tt) hH continuousAt_neg

/-- **C333 fails:** at t = -1/4 the cross section at high mass jumps. -/
theorem t_jump_violated (s x : ℝ) (hs : 0 < s) (hx : 0 < x) : ¬ ContinuousAt (fun tt => high (-tt) s x) (25 / 100) := by
  intro hc
  have hrest := rest_cont s x (-(25 / 100)) hs hx (by norm_num)
  have hpow : ContinuousAt (fun t : ℝ => x ^ (-(108 / 100) - 1 / 2 * t)) (-(25 / 100)) := ContinuousAt.rpow continuousAt_const (by fun_prop) (Or.inl hx.ne')
  have hA : ContinuousAt (fun tt : ℝ => (4 / 10 + 1 / 2 * -tt) * s ^ (8 / 100 : ℝ) * x ^ (-(108 / 100) - 1 / 2 * -tt) + rest s x (-tt)) (25 / 100) := by
    have h1 : ContinuousAt (fun t : ℝ => (4 / 10 + 1 / 2 * t) * s ^ (8 / 100 : ℝ) * x ^ (-(108 / 100) - 1 / 2 * t) + rest s x t) (-(25 / 100)) :=
      ((ContinuousAt.mul (by fun_prop) continuousAt_const).mul hpow).add hrest
    exact ContinuousAt.comp (f := fun tt : ℝ => -tt) h1 continuousAt_neg
  have e : ∀ t, high t s x = ppp t * s ^ (8 / 100 : ℝ) * x ^ (-(108 / 100) - 1 / 2 * t) + rest s x t := by
    intro t
    unfold high rest
    ring
  have l1 : Tendsto (fun tt => high (-tt) s x) (𝓝[<] (25 / 100)) (𝓝 (high (-(25 / 100)) s x)) := hc.tendsto.mono_left nhdsWithin_le_nhds
  have l2 := hA.tendsto.mono_left (nhdsWithin_le_nhds (s := Set.Iio (25 / 100 : ℝ)))
  have l3 : Tendsto (fun tt => high (-tt) s x) (𝓝[<] (25 / 100)) (𝓝 ((4 / 10 + 1 / 2 * -(25 / 100)) * s ^ (8 / 100 : ℝ) * x ^ (-(108 / 100) - 1 / 2 * -(25 / 100) : ℝ) + rest s x (-(25 / 100)))) := by
    refine l2.congr' ?_
    filter_upwards [self_mem_nhdsWithin] with y hy
    have hy' : y < 25 / 100 := hy
    rw [e]
    congr 3
    unfold ppp
    rw [if_pos (by linarith)]
  have heq := tendsto_nhds_unique l1 l3
  rw [e] at heq
  have hs8 : 0 < s ^ (8 / 100 : ℝ) := rpow_pos_of_pos hs _
  have hx8 : 0 < x ^ (-(108 / 100) - 1 / 2 * -(25 / 100) : ℝ) := rpow_pos_of_pos hx _
  have hp : ppp (-(25 / 100)) = 4 / 10 + 1 / 2 * -(25 / 100) := by
    have h1 := add_right_cancel heq
    exact mul_right_cancel₀ hs8.ne' (mul_right_cancel₀ hx8.ne' h1)
  unfold ppp at hp
  rw [if_neg (by norm_num), if_pos (by norm_num)] at hp
  have hb : exp (25835 / 10000 * -(25 / 100)) < 528 / 1000 := by
    have h4 : (11744 / 10000 : ℝ) ≤ exp (25835 / 160000) := by
      have := quadratic_le_exp_of_nonneg (by norm_num : (0 : ℝ) ≤ 25835 / 160000)
      refine le_trans ?_ this
      norm_num
    have e1 : exp (25835 / 40000) = exp (25835 / 160000) ^ 4 := by
      rw [← exp_nat_mul]
      norm_num
    have h5 : (19 / 10 : ℝ) ≤ exp (25835 / 40000) := by
      rw [e1]
      refine le_trans ?_ (pow_le_pow_left₀ (by norm_num) h4 4)
      norm_num
    rw [show (25835 / 10000 * -(25 / 100) : ℝ) = -(25835 / 40000) by norm_num, exp_neg, inv_lt_comm₀ (exp_pos _) (by norm_num)]
    refine lt_of_lt_of_le ?_ h5
    norm_num
  norm_num at hp hb
  linarith

end Verif.Diffractive
