import Verif.Crab.Turns
import Mathlib.Analysis.SpecialFunctions.Trigonometric.Deriv
import Mathlib.Analysis.SpecialFunctions.Trigonometric.Bounds
import Mathlib.Tactic.FieldSimp
import Mathlib.Tactic.Ring

/-! What cavities before an interaction point do (C288, C290-C293). -/

namespace Verif.Crab
open Verif Verif.Crab.Spec Real

theorem c_pos : (0 : ℝ) < c := by norm_num [c]
theorem energy_pos : (0 : ℝ) < energy := by norm_num [energy]

theorem m12_lever (o : Optics) (n1 n2 : Int) (b : Bool) : m12' o n1 n2 b = lever o b n1 n2 := by
  unfold m12' m12 lever phase Optics.deltaMu
  rw [sqrt_sq_eq_abs]
  have : plane b ((o.mu n2).1 - (o.mu n1).1, (o.mu n2).2 - (o.mu n1).2) = plane b (o.mu n2) - plane b (o.mu n1) := by
    cases b <;> rfl
  rw [this]
  congr 2
  ring

/-- The voltage of a cavity before an interaction point. -/
noncomputable def volt (s : State) (l : ℝ) : ℝ := c * energy * tan s.theta / (s.omega * l * crabs)

theorem calcV1_ok {s : State} {l v : ℝ} : calcV1 s l = .ok v ↔ s.omega * l * crabs ≠ 0 ∧ v = volt s l := by
  unfold calcV1 quot volt
  split <;> simp_all [eq_comm]

theorem slope_kick (s : State) (v : ℝ) (p : Particle) :
    Spec.slope s.horizontal (kick s v p) = Spec.slope s.horizontal p - v * sin (s.phi + p.ct * (s.omega / c)) / energy := by
  unfold Spec.slope kick
  cases h : s.horizontal <;> simp

theorem forall_map {R : Particle → Particle → Prop} {f : Particle → Particle} (h : ∀ p, R p (f p)) (ps : List Particle) :
    List.Forall₂ R ps (ps.map f) := by
  induction ps with
  | nil => exact .nil
  | cons p ps ih => exact .cons (h p) ih

/-- A kick by a fraction of the voltage. -/
theorem kick_part {s : State} {l r : ℝ} (hl : s.omega * l * crabs ≠ 0) (p : Particle) :
    l * (Spec.slope s.horizontal (kick s (volt s l * r) p) - Spec.slope s.horizontal p) = r * (tilt s.omega s.theta s.phi p.ct / 4) := by
  rw [slope_kick]
  unfold volt tilt crabs
  have hw : s.omega ≠ 0 := by rintro h; simp [h] at hl
  have hl' : l ≠ 0 := by rintro h; simp [h] at hl
  have := c_pos.ne'
  have := energy_pos.ne'
  field_simp
  ring

/-- Fields that placing a cavity keeps. -/
theorem set_keeps (m : Marker) (s : State) :
    (setComponent m s).phi = s.phi ∧ (setComponent m s).omega = s.omega ∧ (setComponent m s).theta = s.theta ∧
    (setComponent m s).nonFailTurns = s.nonFailTurns ∧ (setComponent m s).failTurns = s.failTurns ∧
    (setComponent m s).failureOn = s.failureOn ∧ (setComponent m s).atlasStore = s.atlasStore ∧ (setComponent m s).cmsStore = s.cmsStore := by
  have h1 : ∀ z (u : State), (place z u).phi = u.phi ∧ (place z u).omega = u.omega ∧ (place z u).theta = u.theta ∧
      (place z u).nonFailTurns = u.nonFailTurns ∧ (place z u).failTurns = u.failTurns ∧
      (place z u).failureOn = u.failureOn ∧ (place z u).atlasStore = u.atlasStore ∧ (place z u).cmsStore = u.cmsStore := by
    intro z u
    unfold place
    repeat' split
    all_goals exact ⟨rfl, rfl, rfl, rfl, rfl, rfl, rfl, rfl⟩
  have h2 : (newTurn s).phi = s.phi ∧ (newTurn s).omega = s.omega ∧ (newTurn s).theta = s.theta ∧
      (newTurn s).nonFailTurns = s.nonFailTurns ∧ (newTurn s).failTurns = s.failTurns ∧
      (newTurn s).failureOn = s.failureOn ∧ (newTurn s).atlasStore = s.atlasStore ∧ (newTurn s).cmsStore = s.cmsStore := by
    unfold newTurn
    repeat' split
    all_goals exact ⟨rfl, rfl, rfl, rfl, rfl, rfl, rfl, rfl⟩
  obtain ⟨a1, a2, a3, a4, a5, a6, a7, a8⟩ := h1 m.pos (newTurn s)
  obtain ⟨b1, b2, b3, b4, b5, b6, b7, b8⟩ := h2
  exact ⟨a1.trans b1, a2.trans b2, a3.trans b3, a4.trans b4, a5.trans b5, a6.trans b6, a7.trans b7, a8.trans b8⟩

/-- Where a cavity of a set is placed. -/
theorem set_place (k : Set) {m : Marker} (hk : At k m.pos) (s : State) :
    (setComponent m s).upstream = decide (k = .up1 ∨ k = .up5) ∧ (setComponent m s).atlas = decide (k = .up1 ∨ k = .down1) ∧
    (setComponent m s).horizontal = decide (k = .up5 ∨ k = .down5) := by
  unfold setComponent
  cases k <;> simp only [place_up5, place_down5, place_up1, place_down1, hk] <;> decide

theorem failing_fraction (s : State) {r : ℝ} (hr : Fraction s s.turn r) (v : ℝ) :
    (if (decide (s.nonFailTurns ≤ s.turn) && s.failureOn) = true then failing s v else v) = v * r := by
  unfold Fraction at hr
  cases hf : s.failureOn with
  | false => simp [hr.1 (Or.inl hf)]
  | true =>
    by_cases hn : s.nonFailTurns ≤ s.turn
    · rw [if_pos (by simp [hn]), hr.2 hf hn, failing, mul_one_div]
    · rw [if_neg (by simp [hn]), hr.1 (Or.inr (by omega)), mul_one]

/-- What a cavity before the first interaction point does to a bunch while the process runs. -/
theorem atlas_up {o : Optics} {m : Marker} (hk : At .up1 m.pos) {s s' : State} {ps ps' : List Particle}
    (h : pass o m (s, ps) = .ok (s', ps')) (ha : s.atlasOn = true) (hin : s'.turn < s'.nonFailTurns + s'.failTurns)
    {r : ℝ} (hr : (s.cmsOn = true ∧ Fraction s s'.turn r) ∨ (s.cmsOn = false ∧ r = 1)) :
    List.Forall₂ (fun p q => lever o false (o.find m.name) (o.find "IP1.L1") * (q.yp - p.yp) = r * (tilt s.omega s.theta s.phi p.ct / 4)) ps ps' := by
  obtain ⟨⟨-, -, k3, -, -, -, -, k8, k9, k10⟩, -⟩ := pass_keeps h
  obtain ⟨e1, e2, e3, e4, e5, e6, -⟩ := set_keeps m s
  obtain ⟨p1, p2, p3⟩ := set_place .up1 hk s
  obtain ⟨o1, o2⟩ := set_on m s
  simp only [pass] at h
  rw [k3, k8, k9] at hin
  have hr' : (s.cmsOn = true ∧ Fraction (setComponent m s) (setComponent m s).turn r) ∨ (s.cmsOn = false ∧ r = 1) := by
    unfold Fraction at hr ⊢
    rwa [e4, e5, e6, ← k3]
  rw [← e1, ← e2, ← e3]
  generalize setComponent m s = t at *
  rw [doProcess, if_pos hin] at h
  rcases hr' with ⟨hc, hr'⟩ | ⟨hc, rfl⟩
  · rw [if_pos (by simp [o1, o2, ha, hc])] at h
    simp only [doBoth, p1, p2, p3, m12_lever] at h
    simp only [decide_true, true_or, if_true, bind_ok_iff, calcV1_ok, reduceCtorEq, or_self, decide_false, Bool.true_and] at h
    obtain ⟨v, ⟨hv, rfl⟩, i, -, h⟩ := h
    injection h with h
    injection h with _ h
    rw [failing_fraction t hr'] at h
    rw [← h]
    refine forall_map (fun p => ?_) ps
    have := kick_part (r := r) hv p
    rw [p3] at this
    exact this
  · rw [if_neg (by simp [o2, hc]), if_pos (by simp [o1, ha, p2])] at h
    simp only [doAtlas, p1, p3, m12_lever] at h
    simp only [decide_true, true_or, if_true, bind_ok_iff, calcV1_ok, reduceCtorEq, or_self, decide_false] at h
    obtain ⟨v, ⟨hv, rfl⟩, i, -, h⟩ := h
    injection h with h
    injection h with _ h
    rw [← h]
    refine forall_map (fun p => ?_) ps
    have := kick_part (r := 1) hv p
    rw [p3, mul_one] at this
    exact this

/-- What a cavity before the fifth interaction point does to a bunch while the process runs for that point alone. -/
theorem cms_up {o : Optics} {m : Marker} (hk : At .up5 m.pos) {s s' : State} {ps ps' : List Particle}
    (h : pass o m (s, ps) = .ok (s', ps')) (ha : s.atlasOn = false) (hc : s.cmsOn = true) (hin : s'.turn < s'.nonFailTurns + s'.failTurns)
    {r : ℝ} (hr : Fraction s s'.turn r) :
    List.Forall₂ (fun p q => lever o true (o.find m.name) (o.find "IP5" + 1) * (q.xp - p.xp) = r * (tilt s.omega s.theta s.phi p.ct / 4)) ps ps' := by
  obtain ⟨⟨-, -, k3, -, -, -, -, k8, k9, k10⟩, -⟩ := pass_keeps h
  obtain ⟨e1, e2, e3, e4, e5, e6, -⟩ := set_keeps m s
  obtain ⟨p1, p2, p3⟩ := set_place .up5 hk s
  obtain ⟨o1, o2⟩ := set_on m s
  simp only [pass] at h
  rw [k3, k8, k9] at hin
  have hr' : Fraction (setComponent m s) (setComponent m s).turn r := by
    unfold Fraction at hr ⊢
    rwa [e4, e5, e6, ← k3]
  rw [← e1, ← e2, ← e3]
  generalize setComponent m s = t at *
  rw [doProcess, if_pos hin, if_neg (by simp [o1, ha]), if_neg (by simp [o1, ha]), if_pos (by simp [o1, o2, ha, hc, p2])] at h
  simp only [doCms, p1, p3, m12_lever] at h
  simp only [decide_true, or_true, true_or, if_true, bind_ok_iff, calcV1_ok] at h
  obtain ⟨v, ⟨hv, rfl⟩, i, -, h⟩ := h
  injection h with h
  injection h with _ h
  rw [failing_fraction t hr'] at h
  rw [← h]
  refine forall_map (fun p => ?_) ps
  have := kick_part (r := r) hv p
  rw [p3] at this
  exact this

/-- Both points in use: no cavity of the fifth interaction point does anything. -/
theorem cms_idle {o : Optics} {m : Marker} {k : Set} (hk : k = .up5 ∨ k = .down5) (hm : At k m.pos) {s s' : State} {ps ps' : List Particle}
    (h : pass o m (s, ps) = .ok (s', ps')) (ha : s.atlasOn = true) : ps' = ps := by
  obtain ⟨p1, p2, p3⟩ := set_place k hm s
  obtain ⟨o1, o2⟩ := set_on m s
  simp only [pass] at h
  generalize setComponent m s = t at *
  have p2' : t.atlas = false := by rcases hk with rfl | rfl <;> exact p2
  unfold doProcess at h
  split at h
  · split at h
    · simp only [doBoth, p2'] at h
      rcases hk with rfl | rfl
      · simp only [p1, decide_true, or_true, if_true, bind_ok_iff] at h
        obtain ⟨v, -, i, -, h⟩ := h
        injection h with h
        injection h with _ h
        simpa using h.symm
      · simp only [p1, bind_ok_iff] at h
        simp only [reduceCtorEq, or_self, decide_false, Bool.false_eq_true, if_false, bind_ok_iff] at h
        obtain ⟨i, -, j, -, v, -, h⟩ := h
        injection h with h
        injection h with _ h
        exact h.symm
    · simp only [p2', Bool.and_false, o1, ha, Bool.not_true, Bool.false_and, Bool.false_eq_true, if_false] at h
      injection h with h
      injection h with _ h
      exact h.symm
  · injection h with h
    injection h with _ h
    exact h.symm

/-- The first point not in use: none of its cavities does anything. -/
theorem atlas_idle {o : Optics} {m : Marker} {k : Set} (hk : k = .up1 ∨ k = .down1) (hm : At k m.pos) {s s' : State} {ps ps' : List Particle}
    (h : pass o m (s, ps) = .ok (s', ps')) (ha : s.atlasOn = false) : ps' = ps := by
  obtain ⟨-, p2, -⟩ := set_place k hm s
  obtain ⟨o1, o2⟩ := set_on m s
  simp only [pass] at h
  generalize setComponent m s = t at *
  have p2' : t.atlas = true := by rcases hk with rfl | rfl <;> exact p2
  simp only [doProcess, o1, ha, p2', Bool.false_and, Bool.and_false, Bool.not_true, Bool.false_eq_true, if_false, ite_self] at h
  injection h with h
  injection h with _ h
  exact h.symm

/-- After the last turn of the failure nothing happens at any cavity, even when the failure is switched off. -/
theorem idle_after {o : Optics} {m : Marker} {s s' : State} {ps ps' : List Particle}
    (h : pass o m (s, ps) = .ok (s', ps')) (hin : s'.nonFailTurns + s'.failTurns ≤ s'.turn) : ps' = ps := by
  obtain ⟨⟨-, -, k3, -, -, -, -, k8, k9, k10⟩, -⟩ := pass_keeps h
  rw [k3, k8, k9] at hin
  simp only [pass] at h
  rw [doProcess, if_neg (by omega)] at h
  injection h with h
  injection h with _ h
  exact h.symm

/-- Near the centre of the bunch the offset at the interaction point is the tangent of the half crossing angle times the
distance from the centre. -/
theorem tilt_slope {omega : ℝ} (hw : omega ≠ 0) (theta : ℝ) : HasDerivAt (tilt omega theta 0) (-tan theta) 0 := by
  have h1 : HasDerivAt (fun ct : ℝ => 0 + ct * (omega / c)) (omega / c) 0 := by
    have := ((hasDerivAt_id (0 : ℝ)).mul_const (omega / c)).const_add 0
    simpa using this
  have h2 := h1.sin
  have h3 := (h2.const_mul (c / omega * tan theta)).neg
  refine h3.congr_deriv ?_
  have := c_pos.ne'
  simp
  field_simp

end Verif.Crab
