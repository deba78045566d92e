import Mathlib.Tactic.NormNum
import Verif.Symplectic.Cavity

/-!
# Properties of the symplectic integrators (C193 to C199)
-/

set_option linter.unusedSimpArgs false

namespace Verif.Symplectic
open Verif Verif.Symplectic.Spec Verif.Multipole Real

/-! ## C193: straight space -/

/-- C193: the map of a drift is flight in a straight line, defined exactly where such a flight reaches the plane. -/
theorem drift_straight (ds : ℝ) (v w : PS) : driftMap ds v = .ok w ↔ Straight ds v w := by
  constructor
  · intro h
    have h0 := drift_ok h
    have hk := sqrt_pos.mpr h0
    have hs : √(along2 v.dp v.px v.py) * √(along2 v.dp v.px v.py) = along2 v.dp v.px v.py := mul_self_sqrt h0.le
    rw [drift_eq ds h0] at h
    obtain rfl := Outcome.ok.inj h
    have hk' := hk.ne'
    refine ⟨√(along2 v.dp v.px v.py), ds / √(along2 v.dp v.px v.py), hk, ?_, by field_simp, ?_⟩
    · simp only [along2] at hs ⊢; linarith
    · ext <;> simp only <;> ring
  · rintro ⟨pz, τ, hp, e, rfl, rfl⟩
    have e1 : along2 v.dp v.px v.py = pz * pz := by simp only [along2]; linarith
    have h0 : 0 < along2 v.dp v.px v.py := by rw [e1]; exact mul_pos hp hp
    have hq : √(along2 v.dp v.px v.py) = pz := by rw [e1]; exact sqrt_mul_self hp.le
    rw [drift_eq _ h0, hq]
    have := hp.ne'
    congr 2 <;> field_simp

/-- C193: a drift in two steps is a drift in one. -/
theorem drift_additive {s r : ℝ} (hs : 0 ≤ s) (hr : 0 ≤ r) (v : PS) :
    trackDrift (s + r) v = (trackDrift s v).bind (trackDrift r) := by
  rcases hs.eq_or_lt with rfl | hs
  · simp [trackDrift, whenLong, Outcome.bind]
  · rcases hr.eq_or_lt with rfl | hr
    · simp only [add_zero]
      cases h : trackDrift s v <;> simp [trackDrift, whenLong, Outcome.bind]
    · have e : ∀ t : ℝ, 0 < t → ∀ u, trackDrift t u = driftMap t u := fun t ht u => by
        simp [trackDrift, whenLong, ht.ne']
      rw [e _ (by linarith), e s hs, drift_add]
      congr 1
      funext u
      exact (e r hr u).symm

/-- C193: the orbit in a drift obeys Hamilton's equations with the exact Hamiltonian. -/
theorem drift_orbit {v : PS} (h : v.px ^ 2 + v.py ^ 2 < (1 + v.dp) ^ 2) :
    ∃ o : ℝ → PS, o 0 = v ∧ (∀ ds, trackDrift ds v = .ok (o ds)) ∧ ∀ s, Hamilton exactDrift o s := by
  have h0 : 0 < along2 v.dp v.px v.py := by simp only [along2]; linarith
  have hk := (sqrt_pos.mpr h0).ne'
  refine ⟨fun s => ⟨v.x + v.px * s / √(along2 v.dp v.px v.py), v.px, v.y + v.py * s / √(along2 v.dp v.px v.py), v.py,
    v.ct + (s - (1 + v.dp) * s / √(along2 v.dp v.px v.py)), v.dp⟩, by ext <;> simp, fun ds => ?_, fun s => ?_⟩
  · by_cases hd : ds = 0
    · simp [trackDrift, whenLong, hd]
    · rw [trackDrift, whenLong, if_pos hd, drift_eq ds h0]
  · refine ⟨_, exactDrift_grad (v := ⟨v.x + v.px * s / √(along2 v.dp v.px v.py), v.px,
      v.y + v.py * s / √(along2 v.dp v.px v.py), v.py, v.ct + (s - (1 + v.dp) * s / √(along2 v.dp v.px v.py)), v.dp⟩) h0,
      ?_, ?_, ?_, ?_, ?_, ?_⟩
    · exact ((((hasDerivAt_id s).const_mul v.px).div_const _).const_add v.x).congr_deriv (by ring)
    · exact (hasDerivAt_const s v.px).congr_deriv (by simp)
    · exact ((((hasDerivAt_id s).const_mul v.py).div_const _).const_add v.y).congr_deriv (by ring)
    · exact (hasDerivAt_const s v.py).congr_deriv (by simp)
    · exact (((hasDerivAt_id s).sub (((hasDerivAt_id s).const_mul (1 + v.dp)).div_const _)).const_add v.ct).congr_deriv
        (by ring)
    · exact (hasDerivAt_const s v.dp).congr_deriv (by simp)

/-- A particle with px = 3/5 flies 4 m along the axis: the path is 5 m long. -/
example : driftMap 4 ⟨1, 3 / 5, 0, 0, 0, 0⟩ = .ok ⟨4, 3 / 5, 0, 0, -1, 0⟩ :=
  (drift_straight _ _ _).mpr ⟨4 / 5, 5, by norm_num, by norm_num, by norm_num, by ext <;> norm_num⟩
example : (3 / 5 : ℝ) ^ 2 + 0 ^ 2 < (1 + 0) ^ 2 := by norm_num
/-- A particle that moves across the axis never reaches the plane. -/
example (w : PS) : driftMap 4 ⟨1, 1, 0, 0, 0, 0⟩ ≠ .ok w := fun h => by
  have := drift_ok h
  simp [along2] at this

/-! ## C194: the maps of magnets are exact motion -/

/-- C194: the map of a magnet with curvature and gradient follows Hamilton's equations, exactly in the momentum
deviation, for every length. -/
theorem combined_orbit {h k1 : ℝ} (hj : h ^ 2 + k1 ≠ 0) (hk : k1 ≠ 0) {v : PS} (hv : -1 < v.dp) :
    ∃ o : ℝ → PS, o 0 = v ∧ (∀ s, combinedMap h k1 s v = .ok (o s)) ∧ ∀ s, Hamilton (magnet h k1) o s :=
  (planar_comb (by rwa [← sq]) hk).motion (by linarith)

/-- C194: the same for the sector magnet. -/
theorem sector_orbit {h : ℝ} (hh : h ≠ 0) {v : PS} (hv : -1 < v.dp) :
    ∃ o : ℝ → PS, o 0 = v ∧ (∀ s, sectorMap h s v = .ok (o s)) ∧ ∀ s, Hamilton (magnet h 0) o s :=
  (planar_sector hh).motion (by linarith)

/-- C194: the same for the quadrupole. -/
theorem quadrupole_orbit {k1 : ℝ} (hk : k1 ≠ 0) {v : PS} (hv : -1 < v.dp) :
    ∃ o : ℝ → PS, o 0 = v ∧ (∀ s, quadMap k1 s v = .ok (o s)) ∧ ∀ s, Hamilton (magnet 0 k1) o s :=
  (planar_quad hk).motion (by linarith)

/-- C194: the exact map of the sector magnet follows the exact Hamiltonian of a dipole wherever it is defined. -/
theorem exact_orbit {h : ℝ} (hh : h ≠ 0) {v : PS} (hv : v.px ^ 2 + v.py ^ 2 < (1 + v.dp) ^ 2) :
    ∃ o : ℝ → PS, o 0 = v ∧ sectorMapEF h 0 v = .ok v ∧
      ∀ s w, sectorMapEF h s v = .ok w → w = o s ∧ Hamilton (exactBend h) o s := by
  have h0 : 0 < along2 v.dp v.px v.py := by simp only [along2]; linarith
  refine ⟨fun s => ef h s v, ef_zero hh v, ?_, fun s w hw => ?_⟩
  · rw [ef_eq hh 0 h0 (by rw [ef_zero_p]; exact h0), ef_zero hh]
  · have h1 := (ef_ok hw).2.2
    rw [ef_eq hh s h0 h1] at hw
    exact ⟨(Outcome.ok.inj hw).symm, ef_motion hh s h1⟩

/-- C194: two lengths of a magnet in turn are one of their sum; for the exact map provided that the particle
reaches the place between. -/
theorem maps_additive (s r : ℝ) (v : PS) :
    (∀ h k1, h ^ 2 + k1 ≠ 0 → k1 ≠ 0 → combinedMap h k1 (s + r) v = (combinedMap h k1 s v).bind (combinedMap h k1 r)) ∧
    (∀ h, h ≠ 0 → sectorMap h (s + r) v = (sectorMap h s v).bind (sectorMap h r)) ∧
    (∀ k1, k1 ≠ 0 → quadMap k1 (s + r) v = (quadMap k1 s v).bind (quadMap k1 r)) ∧
    ∀ h v1, sectorMapEF h s v = .ok v1 → sectorMapEF h (s + r) v = sectorMapEF h r v1 :=
  ⟨fun _ _ hj hk => (planar_comb (by rwa [← sq]) hk).add s r v, fun _ hh => (planar_sector hh).add s r v,
    fun _ hk => (planar_quad hk).add s r v, fun _ _ h1 => ef_add s r h1⟩

example : (1 / 10 : ℝ) ^ 2 + 2 ≠ 0 ∧ (2 : ℝ) ≠ 0 ∧ (-1 : ℝ) < -1 / 50 := by norm_num
/-- A quarter of a circle: the particle on the reference orbit stays on it. -/
example : sectorMapEF (1 / 10) 5 origin = .ok origin := by
  have e : efP (1 / 10) 5 origin = 0 := by simp [efP, efW, origin, along2]
  rw [ef_eq (by norm_num) 5 (by simp [origin, along2]) (by rw [e]; simp [origin, along2])]
  congr 1
  simp only [ef, efU, e]
  ext <;> simp [efR, efW, origin, along2]

/-! ## C195: symplectic maps and steps -/

/-- C195: wherever they are defined, the maps keep the canonical form. -/
theorem maps_symplectic {s : ℝ} {v w : PS} :
    (driftMap s v = .ok w → Preserves (driftMap s) v) ∧
    (∀ h, sectorMap h s v = .ok w → Preserves (sectorMap h s) v) ∧
    (∀ h, sectorMapEF h s v = .ok w → Preserves (sectorMapEF h s) v) ∧
    (∀ h k1, combinedMap h k1 s v = .ok w → Preserves (combinedMap h k1 s) v) ∧
    (∀ k1, quadMap k1 s v = .ok w → Preserves (quadMap k1 s) v) ∧
    (∀ h pf, poleFace h pf v = .ok w → Preserves (poleFace h pf) v) ∧
    ∀ eps ec m b phi, multipoleKick eps ec m s b phi v = .ok w → Preserves (multipoleKick eps ec m s b phi) v :=
  ⟨fun e => drift_preserves s (drift_ok e), fun _ e => (planar_sector (sector_ok e).2).preserves s (sector_ok e).1,
    fun _ e => ef_preserves (ef_ok e).1 (ef_ok e).2.1 (ef_ok e).2.2,
    fun _ _ e => (planar_comb (comb_ok e).2.1 (comb_ok e).2.2).preserves s (comb_ok e).1,
    fun _ e => (planar_quad (quad_ok e).2).preserves s (quad_ok e).1, fun _ _ e => face_preserves e,
    fun eps ec m _ phi e => kick_preserves eps ec m s (kick_ok e) phi v⟩

/-- C195: the passage of a bend with its pole faces and errors of the field is symplectic. -/
theorem bend_symplectic {ef : Bool} {eps ec : ℝ} {c : Bend} {b : Beam} {ds : ℝ} {v w : PS}
    (ht : c.tilt = 0 ∨ eps < |c.tilt|) (h : trackThrough ef eps ec c b ds v = .ok w) :
    Preserves (trackThrough ef eps ec c b ds) v := trackThrough_preserves ht h

/-- C195: a step in a travelling wave cavity is symplectic, in units of the unchanged reference momentum. -/
theorem tw_symplectic {g k phi p0 ds : ℝ} {v w : PS} (h : trackTW g k phi p0 ds v = .ok w) :
    Preserves (trackTW g k phi p0 ds) v := tw_preserves h

/-- Steps as required exist, here the reference particle in an upright bend with pole faces. -/
example : ∃ w, trackThrough false 0 1 ⟨1 / 10, 0, ⟨1, [⟨1, 0⟩]⟩, some ⟨0, 0, 0⟩, some ⟨0, 0, 0⟩⟩ ⟨1, 1⟩ 1 origin = .ok w := by
  have g : getCoefficient (⟨1, [⟨1, 0⟩]⟩ : MField ℝ) 0 1 = (⟨1, 0⟩, ⟨1, [⟨1, 0⟩]⟩) := by simp [getCoefficient, grow, Cx.smul]
  refine ⟨origin, ?_⟩
  simp only [trackThrough]
  have f : trackFace (1 / 10) (some ⟨0, 0, 0⟩) origin = .ok origin := by simp [trackFace, poleFace, origin]
  rw [f]
  simp only [Outcome.bind]
  rw [trackBend_plain (K := 0) (by rw [g]; norm_num [matched]) (by simp only [kOf, g]; rw [if_neg (by simp [highest])])
    (by simp [Split, g, highest])]
  have e : bendMap false (1 / 10) (0 : Cx ℝ).re 1 (tin 0 0 origin) = .ok origin := by
    simp [bendMap, whenLong, sectorMap, origin, tin]
  simp only [e, Outcome.bind]
  have t : tin 0 (-0) origin = origin := by simp [tin]
  rw [t, f]

theorem field_two (B b0 b1 : ℝ) : getCoefficient (⟨B, [⟨b0, 0⟩, ⟨b1, 0⟩]⟩ : MField ℝ) 0 1 =
    (⟨b0, 0⟩, ⟨B, [⟨b0, 0⟩, ⟨b1, 0⟩]⟩) := by
  simp [getCoefficient, grow, Cx.smul]

theorem field_one (B b0 : ℝ) : getCoefficient (⟨B, [⟨b0, 0⟩]⟩ : MField ℝ) 0 1 = (⟨b0, 0⟩, ⟨B, [⟨b0, 0⟩]⟩) := by
  simp [getCoefficient, grow, Cx.smul]

theorem kOf_two {ec B b0 b1 h t p0 q : ℝ} {e x : Option PoleFace} (hp : p0 ≠ 0) (hc : ec ≠ 0) :
    kOf ec ⟨h, t, ⟨B, [⟨b0, 0⟩, ⟨b1, 0⟩]⟩, e, x⟩ ⟨p0, q⟩ = .ok ⟨q * (B * b1) * ec / p0, 0⟩ := by
  simp only [kOf, field_two, getKn]
  rw [if_pos (by simp [highest]), if_neg (div_ne_zero hp hc)]
  have : (factorial 1 : ℝ) = 1 := by simp [factorial, factLoop]
  simp only [List.getElem?_cons_succ, List.getElem?_cons_zero, Outcome.bind, Cx.smul, this]
  congr 2
  · field_simp
  · ring

theorem kOf_one {ec B b0 h t : ℝ} {e x : Option PoleFace} (b : Beam) :
    kOf ec ⟨h, t, ⟨B, [⟨b0, 0⟩]⟩, e, x⟩ b = .ok 0 := by
  simp only [kOf, field_one]
  rw [if_neg (by simp [highest])]

theorem matched_of {h q b : ℝ} (hm : 0 < b * q * h) : matched h q b := by
  have hh : h ≠ 0 := fun e => by simp [e] at hm
  have hq : q ≠ 0 := fun e => by simp [e] at hm
  rw [matched, if_neg hh]
  have : b / h / q = b * q * h / (h * q) ^ 2 := by field_simp
  rw [this]
  exact div_pos hm (by positivity)

/-! ## C196: choice of map, and the field after the step -/

/-- C196: in a bend with gradient and no errors particles follow Hamilton's equations with the normalised gradient
of the field, and the field is left as it was. -/
theorem bend_orbit {ec B b0 b1 h p0 q : ℝ} {e x : Option PoleFace} (eps : ℝ) (hp : p0 ≠ 0) (hc : ec ≠ 0)
    (hm : 0 < b0 * B * q * h) (hj : h ^ 2 + q * (B * b1) * ec / p0 ≠ 0) {v : PS} (hv : -1 < v.dp) :
    ∃ o : ℝ → PS, o 0 = v ∧ (∀ ds, trackBend false eps ec ⟨h, 0, ⟨B, [⟨b0, 0⟩, ⟨b1, 0⟩]⟩, e, x⟩ ⟨p0, q⟩ ds v =
      .ok (o ds, ⟨B, [⟨b0, 0⟩, ⟨b1, 0⟩]⟩)) ∧ ∀ s, Hamilton (magnet h (q * (B * b1) * ec / p0)) o s := by
  have hh : h ≠ 0 := fun e => by simp [e] at hm
  generalize hK : q * (B * b1) * ec / p0 = K at *
  have hk := kOf_two (h := h) (t := 0) (B := B) (b0 := b0) (b1 := b1) (q := q) (e := e) (x := x) hp hc
  rw [hK] at hk
  have ns : ¬ Split ⟨h, 0, ⟨B, [⟨b0, 0⟩, ⟨b1, 0⟩]⟩, e, x⟩ ⟨K, 0⟩ := by
    simp [Split, field_two, highest]
  have tb : ∀ ds, trackBend false eps ec ⟨h, 0, ⟨B, [⟨b0, 0⟩, ⟨b1, 0⟩]⟩, e, x⟩ ⟨p0, q⟩ ds v =
      (bendMap false h K ds v).bind fun w => .ok (w, ⟨B, [⟨b0, 0⟩, ⟨b1, 0⟩]⟩) := fun ds => by
    rw [trackBend_plain (by rw [field_two]; exact matched_of hm) hk ns]
    simp [tin, field_two]
  have fin : ∀ F : ℝ → PS → Outcome Unit PS, Planar (h ^ 2 + K) h (-K) F →
      (∀ ds, bendMap false h K ds v = whenLong F ds v) →
      ∃ o : ℝ → PS, o 0 = v ∧ (∀ ds, trackBend false eps ec ⟨h, 0, ⟨B, [⟨b0, 0⟩, ⟨b1, 0⟩]⟩, e, x⟩ ⟨p0, q⟩ ds v =
      .ok (o ds, ⟨B, [⟨b0, 0⟩, ⟨b1, 0⟩]⟩)) ∧ ∀ s, Hamilton (magnet h K) o s := fun F hF hb => by
    obtain ⟨o, o0, o1, o2⟩ := hF.motion (v := v) (by linarith)
    refine ⟨o, o0, fun ds => ?_, o2⟩
    rw [tb, hb]
    by_cases hd : ds = 0
    · simp [whenLong, hd, Outcome.bind, o0]
    · simp [whenLong, hd, Outcome.bind, o1]
  by_cases h0 : K = 0
  · subst h0
    exact fin (sectorMap h) (planar_sector hh) fun ds => by simp [bendMap, hh]
  · exact fin (combinedMap h K) (planar_comb (by rwa [← sq]) h0) fun ds => by simp [bendMap, hh, h0]

/-- C196: in a bend without gradient the exact set follows the exact Hamiltonian of the dipole. -/
theorem bend_orbit_exact {B b0 h q : ℝ} {e x : Option PoleFace} (eps ec p0 : ℝ) (hm : 0 < b0 * B * q * h) {v : PS}
    (hv : v.px ^ 2 + v.py ^ 2 < (1 + v.dp) ^ 2) :
    ∃ o : ℝ → PS, o 0 = v ∧ ∀ ds r, trackBend true eps ec ⟨h, 0, ⟨B, [⟨b0, 0⟩]⟩, e, x⟩ ⟨p0, q⟩ ds v = .ok r →
      r = (o ds, ⟨B, [⟨b0, 0⟩]⟩) ∧ Hamilton (exactBend h) o ds := by
  have hh : h ≠ 0 := fun e => by simp [e] at hm
  have h0 : 0 < along2 v.dp v.px v.py := by simp only [along2]; linarith
  refine ⟨fun s => ef h s v, ef_zero hh v, fun ds r hr => ?_⟩
  rw [trackBend_plain (K := 0) (by rw [field_one]; exact matched_of hm) (kOf_one _)
    (by simp [Split, field_one, highest])] at hr
  simp only [tin, bendMap, hh, field_one, Cx.zero_re, if_true, if_false, neg_zero, ne_eq, not_true_eq_false] at hr
  by_cases hd : ds = 0
  · subst hd
    simp only [whenLong, ne_eq, not_true_eq_false, if_false, Outcome.bind] at hr
    rw [← Outcome.ok.inj hr]
    exact ⟨by simp only [ef_zero hh], ef_motion hh 0 (by rw [ef_zero_p]; exact h0)⟩
  · simp only [whenLong, ne_eq, hd, not_false_eq_true, if_true] at hr
    obtain ⟨w, hw, hr⟩ := bind_ok_iff.mp hr
    have h1 := (ef_ok hw).2.2
    rw [ef_eq hh ds h0 h1] at hw
    rw [← Outcome.ok.inj hr, ← Outcome.ok.inj hw]
    exact ⟨rfl, ef_motion hh ds h1⟩

/-- C196: no step changes the field of the magnet, though the kick is computed from a changed one. -/
theorem bend_field_kept {ef : Bool} {eps ec : ℝ} {c : Bend} {b : Beam} {ds : ℝ} {v : PS} {r : PS × MField ℝ}
    (h : trackBend ef eps ec c b ds v = .ok r) : SameField r.2 c.field := by
  obtain ⟨hm, K, hK⟩ := trackBend_ok h
  by_cases hs : Split c K
  · rw [trackBend_split hm hK hs] at h
    obtain ⟨_, _, h⟩ := bind_ok_iff.mp h
    obtain ⟨_, _, h⟩ := bind_ok_iff.mp h
    obtain ⟨_, _, h⟩ := bind_ok_iff.mp h
    rw [← Outcome.ok.inj h]
    exact backField_same c
  · rw [trackBend_plain hm hK hs] at h
    obtain ⟨_, _, h⟩ := bind_ok_iff.mp h
    rw [← Outcome.ok.inj h]
    exact ⟨rfl, getCoefficient_snd c.field 0⟩

/-- C196 fails: with a gradient that just cancels the focusing of the curvature no particle survives a step, though
its motion is perfectly regular. -/
theorem bend_flat_violated {ec B b0 b1 h p0 q : ℝ} {e x : Option PoleFace} (eps : ℝ) (hp : p0 ≠ 0) (hc : ec ≠ 0)
    (hm : 0 < b0 * B * q * h) (hj : q * (B * b1) * ec / p0 = -h ^ 2) {ds : ℝ} (hd : ds ≠ 0) (ef : Bool) (v : PS) :
    trackBend ef eps ec ⟨h, 0, ⟨B, [⟨b0, 0⟩, ⟨b1, 0⟩]⟩, e, x⟩ ⟨p0, q⟩ ds v = .ub := by
  have hh : h ≠ 0 := fun e => by simp [e] at hm
  have hk := kOf_two (h := h) (t := 0) (B := B) (b0 := b0) (b1 := b1) (q := q) (e := e) (x := x) hp hc
  rw [hj] at hk
  have ns : ¬ Split ⟨h, 0, ⟨B, [⟨b0, 0⟩, ⟨b1, 0⟩]⟩, e, x⟩ ⟨-h ^ 2, 0⟩ := by
    simp [Split, field_two, highest]
  rw [trackBend_plain (by rw [field_two]; exact matched_of hm) hk ns]
  have e2 : -h ^ 2 ≠ 0 := neg_ne_zero.mpr (pow_ne_zero 2 hh)
  simp only [tin, bendMap, hh, e2, whenLong, hd, if_true, if_false, ne_eq, not_false_eq_true, not_true_eq_false, combinedMap]
  rw [if_neg (fun hn => hn.2.1 (by ring))]
  rfl

example : (0 : ℝ) < 1 * 1 * 1 * (1 / 10) ∧ (1 / 10 : ℝ) ^ 2 + 1 * (1 * 2) * 3 / 10 ≠ 0 := by norm_num
example : (1 : ℝ) * (1 * (-1 / 100)) * 10 / 10 = -(1 / 10) ^ 2 := by norm_num

/-! ## C197: cavities -/

/-- C197: a step in a travelling wave cavity: straight to the middle, energy gain at the phase of the particle there,
straight to the end. -/
theorem tw_step {g k phi p0 ds : ℝ} (hg : g ≠ 0) (hd : ds ≠ 0) (hp : p0 ≠ 0) (v w : PS) :
    trackTW g k phi p0 ds v = .ok w ↔ ∃ u : PS, Straight (ds / 2) v u ∧
      Straight (ds / 2) { u with dp := w.dp } w ∧
      p0 * (1 + w.dp) = p0 * (1 + v.dp) + g * ds * cos (phi - k * u.ct) := by
  have h2 : ds / 2 ≠ 0 := div_ne_zero hd two_ne_zero
  have dpk : ∀ {a b : PS}, Straight (ds / 2) a b → b.dp = a.dp := fun h => by
    obtain ⟨_, _, _, _, _, rfl⟩ := h; rfl
  simp only [trackTW, if_neg hg, if_neg hp, bind_ok_iff, whenLong, ne_eq, h2, not_false_eq_true, if_true, drift_straight,
    Outcome.ok.injEq]
  constructor
  · rintro ⟨u, hu, u2, rfl, hw⟩
    have e1 := dpk hu
    have e2 : w.dp = u.dp + g * ds / p0 * (1 + 0) * cos (phi + 0 - k * u.ct) := dpk hw
    refine ⟨u, hu, ?_, ?_⟩
    · rw [e2]; exact hw
    · rw [e2, e1, add_zero, add_zero]; field_simp; ring
  · rintro ⟨u, hu, hw, e⟩
    refine ⟨u, hu, _, rfl, ?_⟩
    have e1 := dpk hu
    have : rfKick (g * ds / p0) 0 k phi 0 u = { u with dp := w.dp } := by
      have e3 : w.dp = u.dp + g * ds / p0 * (1 + 0) * cos (phi + 0 - k * u.ct) := by
        rw [e1, add_zero, add_zero]
        field_simp
        linarith
      rw [rfKick, ← e3]
    rw [this]
    exact hw

/-- C197: the energy gain in a standing wave cavity, of a particle and of the reference. -/
theorem sw_gain {c g f phi p0 ds : ℝ} {v w : PS} {p1 : ℝ} (h : trackSW c g f phi p0 ds v = .ok (w, p1)) :
    p1 * (1 + w.dp) = p0 * (1 + v.dp) + g * ds * cos (phi - 2 * π * f / c * v.ct) ∧ p1 = p0 + g * ds * cos phi := by
  simp only [trackSW] at h
  split at h
  · rename_i hg
    obtain ⟨u, hu, h⟩ := bind_ok_iff.mp h
    obtain ⟨rfl, rfl⟩ := Prod.mk.inj (Outcome.ok.inj h)
    have : u.dp = v.dp := by
      by_cases hd : ds = 0
      · rw [whenLong, if_neg (by simpa using hd)] at hu
        rw [Outcome.ok.inj hu]
      · obtain ⟨_, _, _, _, _, rfl⟩ := (drift_straight _ _ _).mp (whenLong_ok hu hd)
        rfl
    rw [this, hg]
    constructor <;> ring
  · split at h
    · cases h
    · rename_i hfp
      split at h
      · cases h
      · obtain ⟨u, hu, h⟩ := bind_ok_iff.mp h
        obtain ⟨rfl, rfl⟩ := Prod.mk.inj (Outcome.ok.inj h)
        refine ⟨?_, rfl⟩
        simp only [not_or] at hfp
        simp only [rsMap] at hu
        split at hu
        · cases hu
        · rename_i hn
          simp only [not_or, not_le] at hn
          split at hu
          · cases hu
          · rw [← Outcome.ok.inj hu]
            simp only [add_zero, mul_one]
            have h1 := hn.2.1.ne'
            have hp := hfp.2
            have e : p0 + g * ds * cos phi = p0 * (1 + g * ds / p0 * cos phi) := by field_simp
            rw [e, mul_assoc, mul_add, mul_div_cancel₀ _ h1]
            field_simp
            ring

/-- C197: the area in phase space about the axis of a standing wave cavity (half a wave long) shrinks with the
momentum, as it must, only if the phase is an eighth of a turn (or for isolated gains). -/
theorem sw_area_iff {c g f phi p0 ds : ℝ} (hg : g ≠ 0) (hf : f ≠ 0) (hp : 0 < p0) (hd : ds ≠ 0) (hc : cos phi ≠ 0)
    (hw : c / f / 2 = ds) (h1 : 0 < p0 + g * ds * cos phi) :
    Scales (p0 / (p0 + g * ds * cos phi)) (fun u => (trackSW c g f phi p0 ds u).bind fun r => .ok r.1) origin ↔
      sin (log ((p0 + g * ds * cos phi) / p0) / cos phi / (2 * √2)) = 0 ∨ sin phi = cos phi := by
  have hp' := hp.ne'
  have e : 1 + g * ds / p0 * cos phi = (p0 + g * ds * cos phi) / p0 := by field_simp
  have hpos : 0 < 1 + g * ds / p0 * cos phi := by rw [e]; exact div_pos h1 hp
  have key := rs_scales (vn := g * ds / p0) (k := 2 * π * f / c) (len := ds) hc
    (div_ne_zero (mul_ne_zero hg hd) hp') hd hpos
  rw [swAlpha, e, one_div_div] at key
  have tr : trunc (ds / (c / f / 2)) = 1 := by
    rw [hw, div_self hd]
    simp [trunc]
  have eq : (fun u => (trackSW c g f phi p0 ds u).bind fun r => .ok r.1) =
      rsMap (g * ds / p0) 0 (2 * π * f / c) phi 0 ds := by
    funext u
    simp only [trackSW]
    rw [if_neg hg, if_neg (by simp [hf, hp']), tr, if_neg (by simp [hw])]
    cases rsMap (g * ds / p0) 0 (2 * π * f / c) phi 0 ds u <;> rfl
  rw [eq]
  exact key

/-- C197 fails: on the crest the area is not scaled with the momentum (here the momentum grows by a factor
`exp (2 √2)` and the area is wrong by a factor `cos 2`). -/
theorem sw_area_violated : ∃ c g f p0 ds : ℝ, 0 < g ∧ 0 < f ∧ 0 < p0 ∧ c / f / 2 = ds ∧
    ¬ Scales (p0 / (p0 + g * ds * cos 0)) (fun u => (trackSW c g f 0 p0 ds u).bind fun r => .ok r.1) origin := by
  have h2 : 0 < √2 := sqrt_pos.mpr (by norm_num)
  have hE : 1 < exp (2 * √2) := by rw [one_lt_exp_iff]; linarith
  refine ⟨2, exp (2 * √2) - 1, 1, 1, 1, by linarith, by norm_num, by norm_num, by norm_num, ?_⟩
  rw [sw_area_iff (by linarith) one_ne_zero one_pos one_ne_zero (by simp) (by norm_num) (by simp; exact exp_pos _)]
  have e : (1 + (exp (2 * √2) - 1) * 1 * cos 0) / 1 = exp (2 * √2) := by simp
  rw [e, log_exp, cos_zero, sin_zero, div_one, div_self (by linarith)]
  rintro (h | h)
  · have := sin_pos_of_pos_of_lt_pi one_pos (by linarith [two_le_pi])
    linarith
  · norm_num at h

/-- A cavity of half a wave, 1.5 m at 100 MHz with 10 MV/m for particles of 1 GeV. -/
example : (0.01 : ℝ) ≠ 0 ∧ (3 : ℝ) / 1 / 2 = 1.5 ∧ (0 : ℝ) < 1 + 0.01 * 1.5 * cos 0 := by norm_num

/-- A particle on the axis gains momentum in a step of 2 m. -/
theorem tw_axis : trackTW 1 1 0 1 2 origin = .ok { origin with dp := 2 } :=
  (tw_step one_ne_zero two_ne_zero one_ne_zero _ _).mpr ⟨origin,
    ⟨1, 1, one_pos, by norm_num [origin], by norm_num, by ext <;> norm_num [origin]⟩,
    ⟨3, 1 / 3, by norm_num, by norm_num [origin], by norm_num, by ext <;> norm_num [origin]⟩, by norm_num [origin]⟩
example : ∃ w, trackTW 1 1 0 1 2 origin = .ok w := ⟨_, tw_axis⟩

/-! ## C198: field and momentum of a bend -/

/-- C198 fails: whatever the field of a bend and whatever the momentum of the beam (as long as the sign fits), the
particles move as though they matched the curvature: field and momentum have no influence on a bend without gradient. -/
theorem bend_strength_violated {h q t B b B' b' : ℝ} {e x : Option PoleFace} (hm : 0 < b * B * q * h)
    (hm' : 0 < b' * B' * q * h) (ef : Bool) (eps ec p0 p0' ds : ℝ) (v : PS) :
    trackThrough ef eps ec ⟨h, t, ⟨B, [⟨b, 0⟩]⟩, e, x⟩ ⟨p0, q⟩ ds v =
      trackThrough ef eps ec ⟨h, t, ⟨B', [⟨b', 0⟩]⟩, e, x⟩ ⟨p0', q⟩ ds v := by
  simp only [trackThrough]
  congr 1
  funext v1
  rw [trackBend_plain (K := 0) (by rw [field_one]; exact matched_of hm) (kOf_one _) (by simp [Split, field_one, highest]),
    trackBend_plain (K := 0) (by rw [field_one]; exact matched_of hm') (kOf_one _) (by simp [Split, field_one, highest])]
  simp only [field_one]
  cases bendMap ef h (0 : Cx ℝ).re ds (tin eps t v1) <;> rfl

/-- C198 (what holds instead): the error of the field acts if it is a vertical bend or a higher multipole; here a
dipole with a skew component deflects the reference particle by the integrated field. -/
theorem bend_skew_partial {h q B b a p0 ec ds : ℝ} (eps : ℝ) (hm : 0 < b * B * q * h) (ha : a ≠ 0) (hp : p0 ≠ 0)
    (hB : eps < |B|) (hd : ds ≠ 0) (v2 : PS)
    (h2 : bendMap false h 0 (ds / 2) ⟨0, 0, 0, q * ds * ec / p0 * (B * a), 0, 0⟩ = .ok v2) :
    ∃ m, trackBend false eps ec ⟨h, 0, ⟨B, [⟨b, a⟩]⟩, none, none⟩ ⟨p0, q⟩ ds origin = .ok (v2, m) := by
  have hh : h ≠ 0 := fun e => by simp [e] at hm
  have g0 : getCoefficient (⟨B, [⟨b, a⟩]⟩ : MField ℝ) 0 1 = (⟨b, a⟩, ⟨B, [⟨b, a⟩]⟩) := by
    simp [getCoefficient, grow, Cx.smul]
  have hk : kOf ec ⟨h, 0, ⟨B, [⟨b, a⟩]⟩, none, none⟩ ⟨p0, q⟩ = .ok 0 := by
    simp only [kOf, g0]
    rw [if_neg (by simp [highest])]
  have hs : Split ⟨h, 0, ⟨B, [⟨b, a⟩]⟩, none, none⟩ 0 := Or.inl (by rw [g0]; exact ha)
  rw [trackBend_split (by rw [g0]; exact matched_of hm) hk hs]
  have hd2 : ds / 2 ≠ 0 := div_ne_zero hd two_ne_zero
  have s0 : bendMap false h (0 : Cx ℝ).re (ds / 2) (tin eps 0 origin) = .ok origin := by
    simp [bendMap, hh, tin, whenLong, hd2, sectorMap, origin]
  have kf : kickField ⟨h, 0, ⟨B, [⟨b, a⟩]⟩, none, none⟩ = ⟨B, [⟨0, a⟩, ⟨0, 0⟩]⟩ := by
    simp only [kickField, g0]
    simp [getCoefficient, setCoefficient, grow, Cx.smul]
  have k1 : whenLong (fun s => multipoleKick eps ec (kickField ⟨h, 0, ⟨B, [⟨b, a⟩]⟩, none, none⟩) s ⟨p0, q⟩ 0) ds origin =
      .ok ⟨0, 0, 0, q * ds * ec / p0 * (B * a), 0, 0⟩ := by
    have hn : isNull eps (⟨B, [⟨0, a⟩, ⟨0, 0⟩]⟩ : MField ℝ) = false := by
      simp only [isNull, sub_zero, decide_eq_false_iff_not, not_le]; exact hB
    rw [kf]
    simp [whenLong, hd, multipoleKick, hp, field_ok, hn, Outcome.bind, sumLoop, Cx.smul, origin]
  simp only [s0, Outcome.bind, k1]
  simp only [Cx.zero_re, h2, tin, neg_zero, ne_eq, not_true_eq_false, if_false]
  exact ⟨_, rfl⟩

example : (0 : ℝ) < 1 * 1 * 1 * (1 / 10) ∧ (0 : ℝ) < 2 * 1 * 1 * (1 / 10) := by norm_num
example : ∃ v2, bendMap false (1 / 10) 0 (2 / 2) ⟨0, 0, 0, 1 / 100, 0, 0⟩ = .ok v2 := by
  simp [bendMap, whenLong, sectorMap]

/-! ## C199: tilted bends -/

/-- C199 (partial: without the pole faces): a step in a bend tilted by more than the tolerance is the step of the
upright bend seen in turned axes. -/
theorem bend_tilt_partial {eps : ℝ} {c : Bend} (ht : eps < |c.tilt|) (h0 : c.tilt ≠ 0) (ef : Bool) (ec : ℝ) (b : Beam)
    (ds : ℝ) (v : PS) : trackBend ef eps ec c b ds v =
      (trackBend ef eps ec { c with tilt := 0 } b ds (turn c.tilt v)).bind fun r => .ok (turn (-c.tilt) r.1, r.2) := by
  have t1 : ∀ u, tin eps c.tilt u = turn c.tilt u := fun u => by rw [tin, if_pos h0, rotate_turn ht]
  have t2 : ∀ u, tin eps (-c.tilt) u = turn (-c.tilt) u := fun u => by
    rw [tin, if_pos (neg_ne_zero.mpr h0), rotate_turn (by rwa [abs_neg])]
  have t3 : ∀ u, tin eps 0 u = u := fun u => by simp [tin]
  by_cases hm : matched c.h b.q ((getCoefficient c.field 0 1).1.re * (getCoefficient c.field 0 1).2.b0)
  · rcases kOf_ub ec c b with hu | ⟨K, hK⟩
    · have ub : ∀ (c' : Bend) (u : PS), c'.h = c.h → c'.field = c.field → trackBend ef eps ec c' b ds u = .ub :=
        fun c' u e1 e2 => by
          obtain ⟨h', t', f', en', ex'⟩ := c'
          simp only at e1 e2
          subst e1 e2
          simp only [kOf] at hu
          simp only [trackBend]
          rw [if_neg (not_not.mpr hm), hu]
          rfl
      rw [ub c v rfl rfl, ub { c with tilt := 0 } _ rfl rfl]; rfl
    · by_cases hs : Split c K
      · rw [trackBend_split hm hK hs, trackBend_split (c := { c with tilt := 0 }) hm hK hs]
        simp only [t1, t3, neg_zero, t2, Outcome.bind]
        cases bendMap ef c.h K.re (ds / 2) (turn c.tilt v) with
        | ok w =>
          simp only
          have e : kickField { c with tilt := 0 } = kickField c := rfl
          rw [e]
          cases whenLong (fun s => multipoleKick eps ec (kickField c) s b 0) ds w with
          | ok w2 =>
            simp only
            cases bendMap ef c.h K.re (ds / 2) w2 <;> rfl
          | throw e => rfl
          | ub => rfl
        | throw e => rfl
        | ub => rfl
      · rw [trackBend_plain hm hK hs, trackBend_plain (c := { c with tilt := 0 }) hm hK hs]
        simp only [t1, t3, neg_zero, t2, Outcome.bind]
        cases bendMap ef c.h K.re ds (turn c.tilt v) <;> rfl
  · simp only [trackBend]
    rw [if_pos hm, if_pos hm]; rfl

/-- C199 fails for the passage of a bend with pole faces: these act as though the bend was upright. -/
theorem bend_face_tilt_violated : ∃ (c : Bend) (b : Beam) (v : PS), c.tilt = π / 2 ∧
    trackThrough false 0 1 c b 0 v ≠
      (trackThrough false 0 1 { c with tilt := 0 } b 0 (turn c.tilt v)).bind fun r => .ok (turn (-c.tilt) r) := by
  refine ⟨⟨1, π / 2, ⟨1, [⟨1, 0⟩]⟩, some ⟨π / 4, 0, 0⟩, none⟩, ⟨1, 1⟩, ⟨1, 0, 0, 0, 0, 0⟩, rfl, ?_⟩
  have hpi : π / 2 ≠ 0 := by positivity
  have f : ∀ u : PS, trackFace 1 (some ⟨π / 4, 0, 0⟩) u = .ok ⟨u.x, u.px + u.x, u.y, u.py - u.y, u.ct, u.dp⟩ := fun u => by
    have : cos (π / 4) ≠ 0 := by rw [cos_pi_div_four]; positivity
    simp [trackFace, poleFace, this, tan_pi_div_four, sub_eq_add_neg]
  have st : ∀ u, bendMap false 1 (0 : Cx ℝ).re 0 u = .ok u := fun u => by simp [bendMap, whenLong]
  have tb : ∀ t u, trackBend false 0 1 ⟨1, t, ⟨1, [⟨1, 0⟩]⟩, some ⟨π / 4, 0, 0⟩, none⟩ ⟨1, 1⟩ 0 u =
      .ok (tin 0 (-t) (tin 0 t u), ⟨1, [⟨1, 0⟩]⟩) := fun t u => by
    rw [trackBend_plain (K := 0) (by rw [field_one]; exact matched_of (by norm_num)) (kOf_one _)
      (by simp [Split, field_one, highest]), st]
    simp [field_one, Outcome.bind]
  have t1 : ∀ u, tin 0 (-(π / 2)) (tin 0 (π / 2) u) = u := fun u => by
    rw [tin, if_pos (neg_ne_zero.mpr hpi), tin, if_pos hpi, rotate_turn (abs_pos.mpr (neg_ne_zero.mpr hpi)),
      rotate_turn (abs_pos.mpr hpi), turn_turn, neg_add_cancel, turn_zero]
  have t0 : ∀ u, tin 0 (-0) (tin 0 0 u) = u := fun u => by simp [tin]
  have tn : ∀ u, trackFace 1 none u = .ok u := fun u => rfl
  simp only [trackThrough, f, Outcome.bind, tb, t1, t0, tn]
  intro h
  have := congrArg PS.px (Outcome.ok.inj h)
  simp [turn] at this
  norm_num at this

/-- C199 fails: a bend tilted by an angle within the tolerance of the comparison puts every particle on the axis with
the reference momentum. -/
theorem bend_small_tilt_violated {ef : Bool} {eps ec : ℝ} {c : Bend} {b : Beam} {ds : ℝ} {v : PS} {r : PS × MField ℝ}
    (h0 : c.tilt ≠ 0) (ht : |c.tilt| ≤ eps) (h : trackBend ef eps ec c b ds v = .ok r) : r.1 = origin := by
  have t2 : ∀ u, tin eps (-c.tilt) u = origin := fun u => by
    rw [tin, if_pos (neg_ne_zero.mpr h0), rotate, if_pos (by rwa [sub_zero, abs_neg])]; rfl
  obtain ⟨hm, K, hK⟩ := trackBend_ok h
  by_cases hs : Split c K
  · rw [trackBend_split hm hK hs] at h
    obtain ⟨_, _, h⟩ := bind_ok_iff.mp h
    obtain ⟨_, _, h⟩ := bind_ok_iff.mp h
    obtain ⟨w, _, h⟩ := bind_ok_iff.mp h
    rw [← Outcome.ok.inj h]
    exact t2 w
  · rw [trackBend_plain hm hK hs] at h
    obtain ⟨w, _, h⟩ := bind_ok_iff.mp h
    rw [← Outcome.ok.inj h]
    exact t2 w

/-- Such a step exists: a bend tilted by 1e-17. -/
example : ∃ r, trackBend false (1 / 10 ^ 16) 1 ⟨1, 1 / 10 ^ 17, ⟨1, [⟨1, 0⟩]⟩, none, none⟩ ⟨1, 1⟩ 1 ⟨1, 0, 0, 0, 0, 0⟩ = .ok r := by
  rw [trackBend_plain (K := 0) (by rw [field_one]; exact matched_of (by norm_num)) (kOf_one _)
    (by simp [Split, field_one, highest])]
  have e : tin (1 / 10 ^ 16) (1 / 10 ^ 17) ⟨1, 0, 0, 0, 0, 0⟩ = origin := by
    rw [tin, if_pos (by norm_num), rotate, if_pos (by rw [sub_zero, abs_of_pos (by norm_num)]; norm_num)]; rfl
  rw [e]
  simp [bendMap, whenLong, sectorMap, origin, Outcome.bind]

end Verif.Symplectic
