import Mathlib.Analysis.SpecialFunctions.Log.Deriv
import Verif.SMPMaps.Curved

/-!
# Slices in travelling waves
-/

namespace Verif.SMPMaps
open Verif Real Verif.Multipole Verif.LinMap Verif.LinMap.Spec Verif.Slices Verif.Slices.Spec Verif.Transport
  Verif.SMPMaps.Spec

noncomputable section

theorem twApply_ok {p0 ds g k phi : ℝ} {s : Slice ℝ} (entr exit : Bool) (h0 : p0 * (1 + s.x 5) ≠ 0)
    (h1 : p0 * (1 + s.x 5) + g * ds * cos (phi - k * s.x 4) ≠ 0) (he : twE1 p0 g ds phi ≠ 0) :
    twApply p0 ds g k phi entr exit s = .ok { applyR2 (twrf2 ds g (phi - k * s.x 4) (p0 * (1 + s.x 5)) entr exit)
      (twrf2 ds g (phi - k * s.x 4) (p0 * (1 + s.x 5)) entr exit) s with
      x := upd (upd (applyR2 (twrf2 ds g (phi - k * s.x 4) (p0 * (1 + s.x 5)) entr exit)
        (twrf2 ds g (phi - k * s.x 4) (p0 * (1 + s.x 5)) entr exit) s).x 4 (s.x 4)) 5
        ((p0 * (1 + s.x 5) + g * ds * cos (phi - k * s.x 4)) / twE1 p0 g ds phi - 1) } := by
  have : ¬ (p0 * (1 + s.x 5) = 0 ∨ p0 * (1 + s.x 5) + g * ds * cos (phi - k * s.x 4) = 0 ∨ twE1 p0 g ds phi = 0) := by
    tauto
  simp only [twApply, if_neg this]

/-- All momenta in a step are different from zero. -/
def Moving (g k phi ds : ℝ) (b : SBunch ℝ) : Prop := b.p0 + g * ds * cos phi ≠ 0 ∧
  ∀ s ∈ b.slices, SMPMaps.Spec.momentum b.p0 s ≠ 0 ∧
    SMPMaps.Spec.momentum b.p0 s + g * ds * cos (phi - k * s.x 4) ≠ 0

/-- What a step in a travelling wave does to slices, whatever its case. -/
theorem twStep_ok {g k phi ds : ℝ} {b : SBunch ℝ} (entr exit : Bool) (hd : ds ≠ 0) (hm : Moving g k phi ds b)
    {P : Slice ℝ → Slice ℝ → Prop} (h0 : g = 0 → ∀ s ∈ b.slices, P s (driftApply ds s))
    (h1 : g ≠ 0 → ∀ s ∈ b.slices, ∀ s', twApply b.p0 ds g k phi entr exit s = .ok s' → P s s') :
    ∃ b', twStep g k phi entr exit ds b = .ok b' ∧ b'.p0 = b.p0 + g * ds * cos phi ∧ b'.ct0 = b.ct0 ∧ b'.qt = b.qt ∧
      List.Forall₂ P b.slices b'.slices := by
  by_cases hg : g = 0
  · obtain ⟨b', e, p, c, q, f⟩ := onBunch_ok (f := fun s => .ok (driftApply ds s)) (P := P) (b := b)
      fun s hs => ⟨_, rfl, h0 hg s hs⟩
    refine ⟨b', ?_, by rw [p, hg]; ring, c, q, f⟩
    simp only [twStep, if_neg hd, if_pos hg, drift]
    exact e
  · obtain ⟨b', e, p, c, q, f⟩ := onBunch_ok (f := twApply b.p0 ds g k phi entr exit) (P := P) (b := b)
      fun s hs => ⟨_, twApply_ok entr exit (hm.2 s hs).1 (hm.2 s hs).2 hm.1,
        h1 hg s hs _ (twApply_ok entr exit (hm.2 s hs).1 (hm.2 s hs).2 hm.1)⟩
    refine ⟨{ b' with p0 := twE1 b.p0 g ds phi }, ?_, rfl, c, q, f⟩
    simp only [twStep, if_neg hd, if_neg hg, e, Outcome.bind]

/-- C267: in a travelling wave the reference momentum grows with the phase of the structure, that of each slice with the phase
at its place, and the slices keep charge and place. -/
theorem tw_gain {g k phi ds : ℝ} {b : SBunch ℝ} (entr exit : Bool) (hd : ds ≠ 0) (hm : Moving g k phi ds b) :
    ∃ b', twStep g k phi entr exit ds b = .ok b' ∧ b'.p0 = b.p0 + g * ds * cos phi ∧ b'.ct0 = b.ct0 ∧ b'.qt = b.qt ∧
      List.Forall₂ (fun s s' => s'.q = s.q ∧ s'.x 4 = s.x 4 ∧ SMPMaps.Spec.momentum (b.p0 + g * ds * cos phi) s'
        = SMPMaps.Spec.momentum b.p0 s + g * ds * cos (phi - k * s.x 4)) b.slices b'.slices := by
  refine twStep_ok entr exit hd hm ?_ ?_
  · intro hg s _
    simp [driftApply, driftVec, upd, SMPMaps.Spec.momentum, hg]
  · intro _ s hs s' e
    rw [twApply_ok entr exit (hm.2 s hs).1 (hm.2 s hs).2 hm.1] at e
    cases e
    refine ⟨rfl, by simp [upd], ?_⟩
    have := hm.1
    simp only [SMPMaps.Spec.momentum, upd, if_true, twE1]
    field_simp
    ring

/-- The momentum of a slice whose wave acts at the phase of the reference changes as the reference does. -/
example : Moving 1 1 0 1 ⟨1, 0, 1, [point 1 fun _ => 0]⟩ := by
  simp [Moving, SMPMaps.Spec.momentum, point]

theorem planes_emittance (m : R2 ℝ) (s : Slice ℝ) {o : Nat} (ho : o = 0 ∨ o = 2) :
    emittance2 (applyR2 m m s) o = (m.r11 * m.r22 - m.r12 * m.r21) ^ 2 * emittance2 s o := by
  have hc : ∀ i < 4, ∀ j < 4, sig 4 (applyR2 m m s).c i j = conjugate 4 (blocks m m) (sig 4 s.c) i j :=
    fun i hi j hj => planes_moments m m s.c i j hi hj
  have hsym : ∀ i j, sig 4 s.c i j = sig 4 s.c j i := sig_comm 4 s.c
  unfold emittance2
  rcases ho with rfl | rfl
  · rw [hc 0 (by omega) 0 (by omega), hc 1 (by omega) 1 (by omega), hc 1 (by omega) 0 (by omega)]
    simp [conjugate, sumTo4, blocks]
    rw [hsym 0 1]
    ring
  · rw [hc 2 (by omega) 2 (by omega), hc 3 (by omega) 3 (by omega), hc 3 (by omega) 2 (by omega)]
    simp [conjugate, sumTo4, blocks]
    rw [hsym 2 3]
    ring

theorem drift_as_planes (z : ℝ) (s : Slice ℝ) : ∀ i < 4, ∀ j < 4,
    sig 4 (driftApply z s).c i j = sig 4 (applyR2 (drift2 z) (drift2 z) s).c i j := by
  intro i hi j hj
  have h1 : sig 4 (driftApply z s).c i j = conjugate 4 (driftMat z) (sig 4 s.c) i j := drift_moments4 z s.c i j hi hj
  have h2 : sig 4 (applyR2 (drift2 z) (drift2 z) s).c i j = conjugate 4 (blocks (drift2 z) (drift2 z)) (sig 4 s.c) i j :=
    planes_moments _ _ s.c i j hi hj
  rw [h1, h2]
  unfold conjugate
  simp only [sumTo4]
  interval_cases i <;> interval_cases j <;> simp [driftMat, blocks, drift2]

/-- C268: in a travelling wave the product of emittance and momentum of a slice is kept, in both planes. -/
theorem tw_emittance {g k phi ds : ℝ} {b : SBunch ℝ} (entr exit : Bool) (hd : ds ≠ 0) (hm : Moving g k phi ds b) :
    ∃ b', twStep g k phi entr exit ds b = .ok b' ∧
      List.Forall₂ (fun s s' => ∀ o, o = 0 ∨ o = 2 → emittance2 s' o * SMPMaps.Spec.momentum b'.p0 s' ^ 2
        = emittance2 s o * SMPMaps.Spec.momentum b.p0 s ^ 2) b.slices b'.slices := by
  obtain ⟨b', e, p, _, _, f⟩ := twStep_ok (P := fun s s' => ∀ o, o = 0 ∨ o = 2 →
    emittance2 s' o * SMPMaps.Spec.momentum (b.p0 + g * ds * cos phi) s' ^ 2
      = emittance2 s o * SMPMaps.Spec.momentum b.p0 s ^ 2) entr exit hd hm
    (by
      intro hg s _ o ho
      have he : emittance2 (driftApply ds s) o = emittance2 (applyR2 (drift2 ds) (drift2 ds) s) o := by
        unfold emittance2
        rcases ho with rfl | rfl
        · rw [drift_as_planes ds s 0 (by omega) 0 (by omega), drift_as_planes ds s 1 (by omega) 1 (by omega),
            drift_as_planes ds s 1 (by omega) 0 (by omega)]
        · rw [drift_as_planes ds s 2 (by omega) 2 (by omega), drift_as_planes ds s 3 (by omega) 3 (by omega),
            drift_as_planes ds s 3 (by omega) 2 (by omega)]
      rw [he, planes_emittance _ _ ho]
      simp [drift2, driftApply, driftVec, upd, SMPMaps.Spec.momentum, hg])
    (by
      intro _ s hs s' e o ho
      rw [twApply_ok entr exit (hm.2 s hs).1 (hm.2 s hs).2 hm.1] at e
      cases e
      have h0 := (hm.2 s hs).1
      have h1 := (hm.2 s hs).2
      have hE := hm.1
      have hdet := twrf2_det ds g (phi - k * s.x 4) (b.p0 * (1 + s.x 5)) entr exit h0
        (by rw [mul_comm ds g]; exact h1)
      have hem := planes_emittance (twrf2 ds g (phi - k * s.x 4) (b.p0 * (1 + s.x 5)) entr exit) s ho
      simp only at hdet
      rw [hdet] at hem
      show emittance2 (applyR2 _ _ s) o * _ = _
      rw [hem]
      simp only [SMPMaps.Spec.momentum, upd, if_true, twE1] at h0 h1 ⊢
      rw [mul_comm ds g]
      field_simp
      ring)
  exact ⟨b', e, by rw [p]; exact f⟩

/-! ## C269: transverse motion -/

/-- The transverse momentum after the field of the entrance. -/
def entered (entr : Bool) (a P x x' : ℝ) : ℝ := P * x' - if entr then a / 2 * x else 0

/-- C269: the transverse momentum of the mean of a slice changes by the fields of entrance and exit only: they focus and defocus
by half of the gradient. -/
theorem tw_slope {p0 g k phi ds : ℝ} {s s' : Slice ℝ} {entr exit : Bool} (hE : p0 + g * ds * cos phi ≠ 0)
    (h0 : SMPMaps.Spec.momentum p0 s ≠ 0) (h1 : SMPMaps.Spec.momentum p0 s + g * ds * cos (phi - k * s.x 4) ≠ 0)
    (hn : g * ds * cos (phi - k * s.x 4) ≠ 0)
    (e : twApply p0 ds g k phi entr exit s = .ok s') {o : Nat} (ho : o = 0 ∨ o = 2) :
    SMPMaps.Spec.momentum (p0 + g * ds * cos phi) s' * s'.x (o + 1)
      = entered entr (g * cos (phi - k * s.x 4)) (SMPMaps.Spec.momentum p0 s) (s.x o) (s.x (o + 1))
        + if exit then g * cos (phi - k * s.x 4) / 2 * s'.x o else 0 := by
  rw [twApply_ok entr exit h0 h1 hE] at e
  cases e
  simp only [SMPMaps.Spec.momentum, twE1] at h0 h1 ⊢
  have hP : (p0 + g * ds * cos phi) * (1 + ((p0 * (1 + s.x 5) + g * ds * cos (phi - k * s.x 4)) /
      (p0 + g * ds * cos phi) - 1)) = p0 * (1 + s.x 5) + g * ds * cos (phi - k * s.x 4) := by field_simp; ring
  have hne : ds * g * cos (phi - k * s.x 4) ≠ 0 := by rw [mul_comm ds g]; exact hn
  have hg : g ≠ 0 := fun h => hn (by simp [h])
  have hc : cos (phi - k * s.x 4) ≠ 0 := fun h => hn (by simp [h])
  have h1' : p0 * (1 + s.x 5) + ds * g * cos (phi - k * s.x 4) ≠ 0 := by rw [mul_comm ds g]; exact h1
  rcases ho with rfl | rfl
  all_goals
    simp only [upd, applyR2_x]
    simp only [show (0 : ℕ) + 1 ≠ 5 by norm_num, show (0 : ℕ) + 1 ≠ 4 by norm_num, show (0 : ℕ) ≠ 5 by norm_num,
      show (0 : ℕ) ≠ 4 by norm_num, show (2 : ℕ) + 1 ≠ 5 by norm_num, show (2 : ℕ) + 1 ≠ 4 by norm_num,
      show (2 : ℕ) ≠ 5 by norm_num, show (2 : ℕ) ≠ 4 by norm_num, if_false, if_true]
    rw [hP]
    simp only [zero_add, Nat.reduceAdd, planes, twrf2, if_neg hne]
    generalize logOnePlusX (ds * g * cos (phi - k * s.x 4) / (p0 * (1 + s.x 5))) = L
    generalize p0 * (1 + s.x 5) = P at *
    rw [mul_comm g ds] at *
    cases entr <;> cases exit <;> simp [entered] <;> field_simp <;> ring

/-- How the mean of a slice moves: along the line with the slope after the entrance, over a path that grows with a polynomial
in the place of the logarithm. -/
theorem tw_position {p0 g k phi ds : ℝ} {s s' : Slice ℝ} {entr exit : Bool} (hE : p0 + g * ds * cos phi ≠ 0)
    (h0 : SMPMaps.Spec.momentum p0 s ≠ 0) (h1 : SMPMaps.Spec.momentum p0 s + g * ds * cos (phi - k * s.x 4) ≠ 0)
    (hn : g * ds * cos (phi - k * s.x 4) ≠ 0)
    (e : twApply p0 ds g k phi entr exit s = .ok s') {o : Nat} (ho : o = 0 ∨ o = 2) :
    s'.x o = s.x o + entered entr (g * cos (phi - k * s.x 4)) (SMPMaps.Spec.momentum p0 s) (s.x o) (s.x (o + 1))
      / (g * cos (phi - k * s.x 4))
      * logOnePlusX (g * cos (phi - k * s.x 4) * ds / SMPMaps.Spec.momentum p0 s) := by
  rw [twApply_ok entr exit h0 h1 hE] at e
  cases e
  simp only [SMPMaps.Spec.momentum] at h0 h1 ⊢
  have hne : ds * g * cos (phi - k * s.x 4) ≠ 0 := by rw [mul_comm ds g]; exact hn
  have hg : g ≠ 0 := fun h => hn (by simp [h])
  have hc : cos (phi - k * s.x 4) ≠ 0 := fun h => hn (by simp [h])
  rw [show g * cos (phi - k * s.x 4) * ds = ds * g * cos (phi - k * s.x 4) by ring]
  rcases ho with rfl | rfl
  all_goals
    simp only [upd, applyR2_x]
    simp only [show (0 : ℕ) ≠ 5 by norm_num, show (0 : ℕ) ≠ 4 by norm_num,
      show (2 : ℕ) ≠ 5 by norm_num, show (2 : ℕ) ≠ 4 by norm_num, if_false]
    simp only [zero_add, Nat.reduceAdd, planes, twrf2, if_neg hne]
    generalize logOnePlusX (ds * g * cos (phi - k * s.x 4) / (p0 * (1 + s.x 5))) = L
    generalize p0 * (1 + s.x 5) = P at *
    cases entr <;> cases exit <;> simp [entered] <;> field_simp <;> ring

/-- The position in an accelerating field is determined by its start. -/
theorem accelerated_eq {P a w ds x y : ℝ} (hP : 0 < P) (ha : a ≠ 0) (hd : 0 ≤ ds) (hu : 0 < P + a * ds)
    (h : Accelerated P a w ds x y) : y = x + w / a * log (1 + a * ds / P) := by
  obtain ⟨o, h0, hs, hder⟩ := h
  have hpos : ∀ t ∈ Set.Icc 0 ds, 0 < 1 + a * t / P := by
    intro t ht
    have : 0 < P + a * t := by
      rcases lt_or_gt_of_ne ha with hn | hn
      · nlinarith [ht.1, ht.2]
      · nlinarith [ht.1, ht.2]
    have h2 : 1 + a * t / P = (P + a * t) / P := by field_simp
    rw [h2]; positivity
  have hl : ∀ t ∈ Set.Icc 0 ds, HasDerivAt (fun t => o t - w / a * log (1 + a * t / P)) 0 t := by
    intro t ht
    have d1 : HasDerivAt (fun t => 1 + a * t / P) (a / P) t := by
      have := (((hasDerivAt_id' t).const_mul a).div_const P).const_add 1
      simpa using this
    refine ((hder t ht).sub ((d1.log (hpos t ht).ne').const_mul (w / a))).congr_deriv ?_
    have := (hpos t ht).ne'
    have h2 : P + a * t ≠ 0 := by
      have h3 : P + a * t = P * (1 + a * t / P) := by field_simp
      rw [h3]; exact mul_ne_zero hP.ne' this
    have h3 : 1 + a * t / P = (P + a * t) / P := by field_simp
    rw [h3]
    field_simp
    ring
  have := constant_of_has_deriv_right_zero (fun t ht => (hl t ht).continuousAt.continuousWithinAt)
    (fun t ht => (hl t ⟨ht.1, ht.2.le⟩).hasDerivWithinAt) ds ⟨hd, le_refl _⟩
  simp only [h0, hs, mul_zero, zero_div, add_zero, log_one, sub_zero] at this
  linarith

/-- C269: for a gain below the momentum, the mean of a slice ends where the particle does up to the third order in the relative
gain. -/
theorem tw_position_partial {p0 g k phi ds : ℝ} {s s' : Slice ℝ} {entr exit : Bool} (hE : p0 + g * ds * cos phi ≠ 0)
    (h0 : 0 < SMPMaps.Spec.momentum p0 s) (hd : 0 < ds) (hn : g * cos (phi - k * s.x 4) ≠ 0)
    (hu : |g * cos (phi - k * s.x 4) * ds / SMPMaps.Spec.momentum p0 s| < 1)
    (e : twApply p0 ds g k phi entr exit s = .ok s') {o : Nat} (ho : o = 0 ∨ o = 2) {y : ℝ}
    (hy : Accelerated (SMPMaps.Spec.momentum p0 s) (g * cos (phi - k * s.x 4))
      (entered entr (g * cos (phi - k * s.x 4)) (SMPMaps.Spec.momentum p0 s) (s.x o) (s.x (o + 1))) ds (s.x o) y) :
    |s'.x o - y| ≤ |entered entr (g * cos (phi - k * s.x 4)) (SMPMaps.Spec.momentum p0 s) (s.x o) (s.x (o + 1))
        / (g * cos (phi - k * s.x 4))|
      * (|g * cos (phi - k * s.x 4) * ds / SMPMaps.Spec.momentum p0 s| ^ 3
        / (1 - |g * cos (phi - k * s.x 4) * ds / SMPMaps.Spec.momentum p0 s|)) := by
  have hdist := abs_lt.1 hu
  have hpos : 0 < SMPMaps.Spec.momentum p0 s + g * cos (phi - k * s.x 4) * ds := by
    have := hdist.1
    rw [lt_div_iff₀ h0] at this
    linarith
  have h1 : SMPMaps.Spec.momentum p0 s + g * ds * cos (phi - k * s.x 4) ≠ 0 := by
    rw [show g * ds * cos (phi - k * s.x 4) = g * cos (phi - k * s.x 4) * ds by ring]; exact hpos.ne'
  have hn' : g * ds * cos (phi - k * s.x 4) ≠ 0 := by
    rw [show g * ds * cos (phi - k * s.x 4) = g * cos (phi - k * s.x 4) * ds by ring]; exact mul_ne_zero hn hd.ne'
  rw [tw_position hE h0.ne' h1 hn' e ho, accelerated_eq h0 hn hd.le hpos hy]
  generalize g * cos (phi - k * s.x 4) * ds / SMPMaps.Spec.momentum p0 s = u at *
  generalize entered entr (g * cos (phi - k * s.x 4)) (SMPMaps.Spec.momentum p0 s) (s.x o) (s.x (o + 1))
    / (g * cos (phi - k * s.x 4)) = w
  have hb := abs_log_sub_add_sum_range_le (x := -u) (by rwa [abs_neg]) 2
  simp only [Finset.sum_range_succ, Finset.sum_range_zero, abs_neg, sub_neg_eq_add] at hb
  rw [show s.x o + w * logOnePlusX u - (s.x o + w * log (1 + u)) = w * (logOnePlusX u - log (1 + u)) by ring, abs_mul]
  refine mul_le_mul_of_nonneg_left ?_ (abs_nonneg _)
  rw [abs_sub_comm]
  refine le_trans (le_of_eq ?_) hb
  congr 1
  unfold logOnePlusX
  push_cast
  ring

/-- C269 is violated: with a gain of more than twice the momentum a slice moves against its slope. -/
theorem tw_position_violated {p0 g ds v : ℝ} (hp : 0 < p0) (hg : 0 < g) (hd : 0 < ds) (hv : 0 < v) (h : 2 * p0 < g * ds) :
    ∃ s', twApply p0 ds g 0 0 false false (point 1 fun i => if i = 1 then v else 0) = .ok s' ∧ s'.x 0 < 0 ∧
      ∀ y, Accelerated p0 g (p0 * v) ds 0 y → 0 < y := by
  have hP : SMPMaps.Spec.momentum p0 (point 1 fun i => if i = 1 then v else 0) = p0 := by
    simp [SMPMaps.Spec.momentum, point]
  have e := twApply_ok (p0 := p0) (ds := ds) (g := g) (k := 0) (phi := 0) (s := point 1 fun i => if i = 1 then v else 0)
    false false (by simp [point, hp.ne']) (by simp [point]; positivity) (by simp [twE1]; positivity)
  refine ⟨_, e, ?_, ?_⟩
  · rw [tw_position (by simp; positivity) (by rw [hP]; exact hp.ne') (by rw [hP]; simp; positivity)
      (by simp [hg.ne', hd.ne']) e (Or.inl rfl), hP]
    simp [point, entered, logOnePlusX]
    have : 1 - 1 / 2 * (g * ds / p0) < 0 := by
      have : 2 < g * ds / p0 := by rw [lt_div_iff₀ hp]; linarith
      linarith
    have h2 : p0 * v / g * (g * ds / p0 * (1 - 2⁻¹ * (g * ds / p0))) = v * ds * (1 - 1 / 2 * (g * ds / p0)) := by
      field_simp
    rw [h2]
    exact mul_neg_of_pos_of_neg (by positivity) this
  · intro y hy
    rw [accelerated_eq hp hg.ne' hd.le (by positivity) hy, zero_add]
    have : 0 < log (1 + g * ds / p0) := log_pos (by have : 0 < g * ds / p0 := by positivity
                                                    linarith)
    positivity

end

end Verif.SMPMaps
