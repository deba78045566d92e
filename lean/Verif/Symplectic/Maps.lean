import Mathlib.Tactic.Linarith
import Verif.Symplectic.Plane

/-!
# The maps of magnets as motion in two planes
-/

set_option linter.unusedSimpArgs false

namespace Verif.Symplectic
open Verif Verif.Symplectic.Spec Real

theorem der_dp_near {c : ℝ → PS} {u : PS} {t : ℝ} (h : Der c u t) {a : ℝ} (ha : a < (c t).dp) :
    ∀ᶠ s in nhds t, a < (c s).dp :=
  h.2.2.2.2.2.continuousAt.eventually_const_lt ha

/-- One map after another. -/
theorem preserves_bind {F G : PS → Outcome Unit PS} {v v1 : PS} (hF : Preserves F v) (h1 : F v = .ok v1)
    (hG : Preserves G v1) : Preserves (fun u => (F u).bind G) v := by
  obtain ⟨L, hL, fL⟩ := hF
  obtain ⟨M, hM, fM⟩ := hG
  refine ⟨fun u => M (L u), fun c u t hc hd => ?_, fun u w => by rw [fM, fL]⟩
  obtain ⟨d, e1, e2⟩ := hL c u t hc hd
  have h2 : d t = v1 := by
    have := e1.self_of_nhds
    rw [hc, h1] at this
    exact (Outcome.ok.inj this).symm
  obtain ⟨f, g1, g2⟩ := hM d (L u) t h2 e2
  refine ⟨f, ?_, g2⟩
  filter_upwards [e1, g1] with s a b
  simp only [a, Outcome.bind]
  exact b

theorem preserves_id (v : PS) : Preserves (fun u => .ok u) v :=
  ⟨fun u => u, fun c _ _ _ hd => ⟨c, Filter.Eventually.of_forall fun _ => rfl, hd⟩, fun _ _ => rfl⟩

theorem preserves_congr {F G : PS → Outcome Unit PS} {v : PS} (hF : Preserves F v) (h : ∀ u, F u = G u) : Preserves G v := by
  obtain rfl : F = G := funext h
  exact hF

theorem preserves_whenLong {f : ℝ → PS → Outcome Unit PS} {ds : ℝ} {v : PS} (h : ds ≠ 0 → Preserves (f ds) v) :
    Preserves (whenLong f ds) v := by
  by_cases hs : ds = 0
  · exact preserves_congr (preserves_id v) fun u => by simp [whenLong, hs]
  · exact preserves_congr (h hs) fun u => by simp [whenLong, hs]

/-- A map which moves the particle in both planes. -/
def Planar (jx h jy : ℝ) (F : ℝ → PS → Outcome Unit PS) : Prop :=
  ∃ X P Q Y R T, IsPlane jx h X P Q ∧ IsPlane jy 0 Y R T ∧
    (∀ s v, 0 < 1 + v.dp → F s v = .ok ⟨X s v.x v.px v.dp, P s v.x v.px v.dp, Y s v.y v.py v.dp, R s v.y v.py v.dp,
      v.ct + Q s v.x v.px v.dp + T s v.y v.py v.dp, v.dp⟩) ∧
    ∀ s v, ¬ 0 < 1 + v.dp → F s v = .ub

theorem Planar.preserves {jx h jy : ℝ} {F : ℝ → PS → Outcome Unit PS} (a : Planar jx h jy F) (s : ℝ) {v : PS}
    (hv : 0 < 1 + v.dp) : Preserves (F s) v := by
  obtain ⟨X, P, Q, Y, R, T, ax, ay, hF, _⟩ := a
  obtain ⟨JX, JP, JQ, hJ, fJ⟩ := ax.jac s v.x v.px v.dp hv
  obtain ⟨KX, KP, KQ, hK, fK⟩ := ay.jac s v.y v.py v.dp hv
  refine ⟨fun u => ⟨JX u.x u.px u.dp, JP u.x u.px u.dp, KX u.y u.py u.dp, KP u.y u.py u.dp,
    u.ct + JQ u.x u.px u.dp + KQ u.y u.py u.dp, u.dp⟩, fun c u t hc hd => ?_, fun u w => ?_⟩
  · refine ⟨fun τ => ⟨X s (c τ).x (c τ).px (c τ).dp, P s (c τ).x (c τ).px (c τ).dp, Y s (c τ).y (c τ).py (c τ).dp,
      R s (c τ).y (c τ).py (c τ).dp, (c τ).ct + Q s (c τ).x (c τ).px (c τ).dp + T s (c τ).y (c τ).py (c τ).dp,
      (c τ).dp⟩, ?_, ?_⟩
    · filter_upwards [der_dp_near hd (a := -1) (by rw [hc]; linarith)] with τ hτ
      exact hF s (c τ) (by linarith)
    · obtain ⟨d1, d2, d3, d4, d5, d6⟩ := hd
      obtain ⟨e1, e2, e3⟩ := hJ _ _ _ _ _ _ t (by rw [hc]) (by rw [hc]) (by rw [hc]) d1 d2 d6
      obtain ⟨e4, e5, e6⟩ := hK _ _ _ _ _ _ t (by rw [hc]) (by rw [hc]) (by rw [hc]) d3 d4 d6
      exact ⟨e1, e2, e4, e5, (d5.add e3).add e6, d6⟩
  · have h1 := fJ u.x u.px u.dp w.x w.px w.dp
    have h2 := fK u.y u.py u.dp w.y w.py w.dp
    simp only [form]
    linear_combination h1 + h2

theorem Planar.add {jx h jy : ℝ} {F : ℝ → PS → Outcome Unit PS} (a : Planar jx h jy F) (s r : ℝ) (v : PS) :
    F (s + r) v = (F s v).bind (F r) := by
  obtain ⟨X, P, Q, Y, R, T, ax, ay, hF, hU⟩ := a
  by_cases hv : 0 < 1 + v.dp
  · rw [hF _ v hv, hF _ v hv]
    simp only [Outcome.bind]
    have h2 := hF r ⟨X s v.x v.px v.dp, P s v.x v.px v.dp, Y s v.y v.py v.dp, R s v.y v.py v.dp,
      v.ct + Q s v.x v.px v.dp + T s v.y v.py v.dp, v.dp⟩ hv
    rw [h2]
    simp only [(ax.add s r _ _ _ hv).1, (ax.add s r _ _ _ hv).2, (ay.add s r _ _ _ hv).1, (ay.add s r _ _ _ hv).2,
      ax.qadd s r _ _ _ hv, ay.qadd s r _ _ _ hv]
    congr 2
    ring
  · rw [hU _ v hv, hU _ v hv]; rfl

theorem Planar.zero {jx h jy : ℝ} {F : ℝ → PS → Outcome Unit PS} (a : Planar jx h jy F) {v : PS} (hv : 0 < 1 + v.dp) :
    F 0 v = .ok v := by
  obtain ⟨X, P, Q, Y, R, T, ax, ay, hF, _⟩ := a
  rw [hF 0 v hv]
  simp [(ax.zero _ _ _).1, (ax.zero _ _ _).2.1, (ax.zero _ _ _).2.2, (ay.zero _ _ _).1, (ay.zero _ _ _).2.1,
    (ay.zero _ _ _).2.2]

theorem magnet_grad (h k : ℝ) {v : PS} (hv : 0 < 1 + v.dp) :
    Grad (magnet h k) v ⟨(h ^ 2 + k) * v.x - h * v.dp, v.px / (1 + v.dp), -(k * v.y), v.py / (1 + v.dp), 0,
      -((v.px ^ 2 + v.py ^ 2) / (2 * (1 + v.dp) ^ 2)) - h * v.x⟩ := by
  have hv' := hv.ne'
  have id1 : ∀ a : ℝ, HasDerivAt (fun t : ℝ => t) 1 a := fun a => hasDerivAt_id a
  refine ⟨?_, ?_, ?_, ?_, ?_, ?_⟩ <;> simp only [magnet]
  · refine ((((((id1 v.x).pow 2).const_mul (h ^ 2 + k)).div_const 2).const_add _).sub_const _ |>.sub
      (((id1 v.x).const_mul h).mul_const v.dp)).congr_deriv ?_
    simp; ring
  · refine (((((((id1 v.px).pow 2).add_const (v.py ^ 2)).div_const (2 * (1 + v.dp))).add_const _).sub_const _).sub_const _).congr_deriv ?_
    field_simp; simp
  · refine ((((((id1 v.y).pow 2).const_mul k).div_const 2).const_sub _).sub_const _).congr_deriv ?_
    simp; ring
  · refine (((((((id1 v.py).pow 2).const_add (v.px ^ 2)).div_const (2 * (1 + v.dp))).add_const _).sub_const _).sub_const _).congr_deriv ?_
    field_simp; simp
  · exact hasDerivAt_const _ _
  · have h1 : HasDerivAt (fun t : ℝ => 2 * (1 + t)) 2 v.dp := by
      simpa using ((id1 v.dp).const_add 1).const_mul (2 : ℝ)
    refine (((((hasDerivAt_const v.dp (v.px ^ 2 + v.py ^ 2)).div h1 (by positivity)).add_const _).sub_const _).sub
      ((id1 v.dp).const_mul (h * v.x))).congr_deriv ?_
    field_simp
    ring

/-- The particle follows the Hamiltonian of the magnet. -/
theorem Planar.motion {h k : ℝ} {F : ℝ → PS → Outcome Unit PS} (a : Planar (h ^ 2 + k) h (-k) F) {v : PS}
    (hv : 0 < 1 + v.dp) : ∃ o : ℝ → PS, o 0 = v ∧ (∀ s, F s v = .ok (o s)) ∧ ∀ s, Hamilton (magnet h k) o s := by
  have hz := a.zero hv
  obtain ⟨X, P, Q, Y, R, T, ax, ay, hF, _⟩ := a
  refine ⟨fun s => ⟨X s v.x v.px v.dp, P s v.x v.px v.dp, Y s v.y v.py v.dp, R s v.y v.py v.dp,
      v.ct + Q s v.x v.px v.dp + T s v.y v.py v.dp, v.dp⟩, ?_, fun s => hF s v hv, fun s => ?_⟩
  · rw [hF 0 v hv] at hz
    exact Outcome.ok.inj hz
  · refine ⟨_, magnet_grad h k (by exact hv), ?_⟩
    obtain ⟨x1, x2, x3⟩ := ax.flow s v.x v.px v.dp hv
    obtain ⟨y1, y2, y3⟩ := ay.flow s v.y v.py v.dp hv
    refine ⟨x1, x2.congr_deriv ?_, y1, y2.congr_deriv ?_, ((x3.const_add v.ct).add y3).congr_deriv ?_, ?_⟩
    · ring
    · ring
    · field_simp; ring
    · simpa using hasDerivAt_const s v.dp

theorem planar_comb {h k1 : ℝ} (hj : h * h + k1 ≠ 0) (hk : k1 ≠ 0) :
    Planar (h ^ 2 + k1) h (-k1) (combinedMap h k1) := by
  have e1 : ∃ e sn cs, Osc e sn cs ∧ |k1 + h * h| = e * (k1 + h * h) ∧
      (sn = if h * h + k1 > 0 then sin else sinh) ∧ (cs = if h * h + k1 > 0 then cos else cosh) := by
    by_cases c : h * h + k1 > 0
    · exact ⟨1, sin, cos, osc_circ, by rw [abs_of_pos (by linarith)]; ring, by simp [c], by simp [c]⟩
    · exact ⟨-1, sinh, cosh, osc_hyp, by rw [abs_of_nonpos (by linarith)]; ring, by simp [c], by simp [c]⟩
  have e2 : ∃ e sn cs, Osc e sn cs ∧ |-k1| = e * (-k1) ∧
      (sn = if k1 > 0 then sinh else sin) ∧ (cs = if k1 > 0 then cosh else cos) := by
    by_cases c : k1 > 0
    · exact ⟨-1, sinh, cosh, osc_hyp, by rw [abs_of_nonpos (by linarith)]; ring, by simp [c], by simp [c]⟩
    · exact ⟨1, sin, cos, osc_circ, by rw [abs_of_nonneg (by linarith)]; ring, by simp [c], by simp [c]⟩
  obtain ⟨ea, sa, ca, oa, ha, hsa, hca⟩ := e1
  obtain ⟨eb, sb, cb, ob, hb, hsb, hcb⟩ := e2
  have hj' : k1 + h * h ≠ 0 := by rwa [add_comm]
  refine ⟨_, _, _, _, _, _, (by rw [show h ^ 2 + k1 = k1 + h * h by ring]; exact plane_osc oa h hj' ha),
    plane_osc ob 0 (neg_ne_zero.mpr hk) hb, fun s v hv => ?_, fun s v hv => ?_⟩
  · have fx : freq (k1 + h * h) v.dp = √(|h * h + k1| / (1 + v.dp)) := by rw [freq, add_comm k1]
    have fy : freq (-k1) v.dp = √(|k1| / (1 + v.dp)) := by rw [freq, abs_neg]
    have h1 : ∀ a, (if h * h + k1 > 0 then sin a else sinh a) = sa a := fun a => by rw [hsa]; split <;> rfl
    have h2 : ∀ a, (if h * h + k1 > 0 then cos a else cosh a) = ca a := fun a => by rw [hca]; split <;> rfl
    have h3 : ∀ a, (if k1 > 0 then sinh a else sin a) = sb a := fun a => by rw [hsb]; split <;> rfl
    have h4 : ∀ a, (if k1 > 0 then cosh a else cos a) = cb a := fun a => by rw [hcb]; split <;> rfl
    have sx := freq_sq (k1 + h * h) hv
    have sy := freq_sq (-k1) hv
    have px := (freq_pos hj' hv).ne'
    have py := (freq_pos (neg_ne_zero.mpr hk) hv).ne'
    simp only [combinedMap, hv, hj, hk, true_and, ne_eq, not_false_eq_true, and_self, if_true, h1, h2, h3, h4, ← fx, ← fy,
      oa.sdouble, oa.cdouble, ob.sdouble, ob.cdouble, plX, plP, plQ]
    rw [← sx, show |k1| = |-k1| from (abs_neg k1).symm, ← sy]
    have hv' := hv.ne'
    congr 2
    · field_simp
    · field_simp
    · field_simp
      simp
    · field_simp
      ring
    · field_simp
      ring
  · simp [combinedMap, hv]

theorem planar_quad {k1 : ℝ} (hk : k1 ≠ 0) : Planar ((0 : ℝ) ^ 2 + k1) 0 (-k1) (quadMap k1) := by
  have e1 : ∃ e sn cs, Osc e sn cs ∧ |k1| = e * k1 ∧
      (sn = if k1 ≥ 0 then sin else sinh) ∧ (cs = if k1 ≥ 0 then cos else cosh) := by
    by_cases c : k1 ≥ 0
    · exact ⟨1, sin, cos, osc_circ, by rw [abs_of_nonneg (by linarith)]; ring, by simp [c], by simp [c]⟩
    · exact ⟨-1, sinh, cosh, osc_hyp, by rw [abs_of_nonpos (by linarith)]; ring, by simp [c], by simp [c]⟩
  have e2 : ∃ e sn cs, Osc e sn cs ∧ |-k1| = e * (-k1) ∧
      (sn = if k1 ≥ 0 then sinh else sin) ∧ (cs = if k1 ≥ 0 then cosh else cos) := by
    by_cases c : k1 ≥ 0
    · exact ⟨-1, sinh, cosh, osc_hyp, by rw [abs_of_nonpos (by linarith)]; ring, by simp [c], by simp [c]⟩
    · exact ⟨1, sin, cos, osc_circ, by rw [abs_of_nonneg (by linarith)]; ring, by simp [c], by simp [c]⟩
  obtain ⟨ea, sa, ca, oa, ha, hsa, hca⟩ := e1
  obtain ⟨eb, sb, cb, ob, hb, hsb, hcb⟩ := e2
  refine ⟨_, _, _, _, _, _, (by rw [show (0 : ℝ) ^ 2 + k1 = k1 by ring]; exact plane_osc oa 0 hk ha),
    plane_osc ob 0 (neg_ne_zero.mpr hk) hb, fun s v hv => ?_, fun s v hv => ?_⟩
  · have fx : freq k1 v.dp = √(|k1| / (1 + v.dp)) := rfl
    have fy : freq (-k1) v.dp = freq k1 v.dp := by rw [freq, abs_neg, freq]
    have h1 : ∀ a, (if k1 ≥ 0 then sin a else sinh a) = sa a := fun a => by rw [hsa]; split <;> rfl
    have h2 : ∀ a, (if k1 ≥ 0 then cos a else cosh a) = ca a := fun a => by rw [hca]; split <;> rfl
    have h3 : ∀ a, (if k1 ≥ 0 then sinh a else sin a) = sb a := fun a => by rw [hsb]; split <;> rfl
    have h4 : ∀ a, (if k1 ≥ 0 then cosh a else cos a) = cb a := fun a => by rw [hcb]; split <;> rfl
    have sx := freq_sq k1 hv
    have px := (freq_pos hk hv).ne'
    simp only [quadMap, hv, hk, true_and, ne_eq, not_false_eq_true, and_self, if_true, h1, h2, h3, h4, ← fx, fy,
      oa.sdouble, oa.cdouble, ob.sdouble, ob.cdouble, plX, plP, plQ]
    rw [← sx]
    have hv' := hv.ne'
    congr 2
    · field_simp
      ring
    · field_simp
      ring
    · field_simp
      ring
    · field_simp
      ring
    · field_simp
      ring
  · simp [quadMap, hv]

theorem planar_sector {h : ℝ} (hh : h ≠ 0) : Planar (h ^ 2 + 0) h (-0) (sectorMap h) := by
  have hj : h * h ≠ 0 := mul_ne_zero hh hh
  have ab : |h * h| = 1 * (h * h) := by rw [abs_of_nonneg (mul_self_nonneg h)]; ring
  refine ⟨_, _, _, _, _, _, (by rw [show h ^ 2 + 0 = h * h by ring]; exact plane_osc osc_circ h hj ab), (by rw [neg_zero]; exact plane_drift),
    fun s v hv => ?_, fun s v hv => ?_⟩
  · have fx : freq (h * h) v.dp = √(h * h / (1 + v.dp)) := by rw [freq, abs_of_nonneg (mul_self_nonneg h)]
    have sx := freq_sq (h * h) hv
    have px := (freq_pos hj hv).ne'
    rw [abs_of_nonneg (mul_self_nonneg h)] at sx
    simp only [sectorMap, hv, hh, true_and, ne_eq, not_false_eq_true, and_self, if_true, ← fx,
      osc_circ.sdouble, osc_circ.cdouble, plX, plP, plQ]
    have hv' := hv.ne'
    have e1 : ∀ w b : ℝ, w ≠ 0 → w * w * (1 + v.dp) = h * h → b * w / h / h = b / (w * (1 + v.dp)) := fun w b hw hs => by
      rw [div_div, ← hs]; field_simp
    rw [e1 _ _ px sx]
    congr 2
    · field_simp
    · field_simp
    · field_simp
      ring
  · simp [sectorMap, hv]

end Verif.Symplectic
