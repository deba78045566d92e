import Verif.TransportMaps.Face
import Verif.Symplectic.Step

/-!
# Steps in a bend
-/

namespace Verif.TransportMaps
open Verif Verif.Multipole Verif.Symplectic Verif.Symplectic.Spec Verif.TransportMaps.Spec Verif.Transport Real

noncomputable section

theorem coef_one (B : ℝ) (b : Cx ℝ) : getCoefficient (⟨B, [b]⟩ : MField ℝ) 0 1 = (b, ⟨B, [b]⟩) := by
  simp [getCoefficient, grow, Cx.smul]

theorem coef_two (B : ℝ) (b b1 : Cx ℝ) : getCoefficient (⟨B, [b, b1]⟩ : MField ℝ) 0 1 = (b, ⟨B, [b, b1]⟩) := by
  simp [getCoefficient, grow, Cx.smul]

/-- A step in a bend whose field is a dipole. -/
theorem bend_dipole {eps tol ec cl h t B b ds : ℝ} {f : FaceInfo} {bu : Bunch} {v : PS} (hd : ds ≠ 0) (hh : h ≠ 0)
    (hq : bu.q ≠ 0) (hp : 0 < cl * (b * B) / h / bu.q) :
    trackBend eps tol ec cl ⟨h, t, ⟨B, [⟨b, 0⟩]⟩, f⟩ bu ds v =
      (sectorBendTM ds h (gammaOf bu)).bind fun M =>
      (applyBend tol M bu.p0 (cl * (b * B) / h / bu.q) v).bind fun v1 => .ok (v1, ⟨B, [⟨b, 0⟩]⟩) := by
  unfold trackBend
  rw [if_neg hd, coef_one]
  simp only
  rw [if_neg (by rintro (e | e); exacts [hh e, hq e])]
  rw [if_neg (not_not.2 (show 0 < matchedMomentum cl h bu.q (b * B) from hp)), if_neg (by simp [highest])]
  simp only [Outcome.bind]
  have e1 : ¬ ((0 : ℝ) ≠ 0 ∨ (0 : Cx ℝ).im ≠ 0 ∨ highest (⟨B, [⟨b, 0⟩]⟩ : MField ℝ) > 1) := by
    simp [highest]
  simp only [if_neg e1, if_true]
  rfl

/-- The normalised gradient. -/
def gradient (ec B b1 : ℝ) (bu : Bunch) : ℝ := bu.q * (B / (bu.p0 / ec) * b1)

/-- A step in a bend whose field has a dipole and a gradient. -/
theorem bend_gradient {eps tol ec cl h t B b b1 ds : ℝ} {f : FaceInfo} {bu : Bunch} {v : PS} (hd : ds ≠ 0) (hh : h ≠ 0)
    (hq : bu.q ≠ 0) (hp : 0 < cl * (b * B) / h / bu.q) (hr : bu.p0 / ec ≠ 0) (hK : gradient ec B b1 bu ≠ 0) :
    trackBend eps tol ec cl ⟨h, t, ⟨B, [⟨b, 0⟩, ⟨b1, 0⟩]⟩, f⟩ bu ds v =
      (genSectorBendTM ds h (gradient ec B b1 bu) 0).bind fun M =>
      (applyBend tol M bu.p0 (cl * (b * B) / h / bu.q) v).bind fun v1 => .ok (v1, ⟨B, [⟨b, 0⟩, ⟨b1, 0⟩]⟩) := by
  have hk : getKn (⟨B, [⟨b, 0⟩, ⟨b1, 0⟩]⟩ : MField ℝ) 1 (bu.p0 / ec) = .ok ⟨B / (bu.p0 / ec) * b1, 0⟩ := by
    simp [getKn, hr, Cx.smul, factorial, factLoop]
  unfold trackBend
  rw [if_neg hd, coef_two]
  simp only
  rw [if_neg (by rintro (e | e); exacts [hh e, hq e])]
  rw [if_neg (not_not.2 (show 0 < matchedMomentum cl h bu.q (b * B) from hp)), if_pos (by simp [highest]), hk]
  simp only [Outcome.bind]
  have e0 : Cx.smul bu.q (⟨B / (bu.p0 / ec) * b1, 0⟩ : Cx ℝ) = ⟨gradient ec B b1 bu, 0⟩ := by simp [Cx.smul, gradient]
  rw [e0]
  have e1 : ¬ ((0 : ℝ) ≠ 0 ∨ (0 : ℝ) ≠ 0 ∨ highest (⟨B, [⟨b, 0⟩, ⟨b1, 0⟩]⟩ : MField ℝ) > 1) := by
    simp [highest]
  have e2 : ¬ ((⟨gradient ec B b1 bu, 0⟩ : Cx ℝ) = 0) := fun e => hK (congrArg Cx.re e)
  simp only [if_neg e1, if_neg e2]
  rfl

theorem sector_keeps {s h : ℝ} {g : Option ℝ} {M : RT} (hM : sectorBendTM s h g = .ok M) (v : PS) :
    ∃ w, applyMap M v = .ok w ∧ w.dp = v.dp := by
  unfold sectorBendTM at hM
  split at hM
  · cases hM
  · split at hM
    · cases hM
      exact ⟨_, applyMap_eq _ (sector_inside ..) v, by simp [act, sectorTerms, r2, t3, linSum, quadSum, ofVec, toVec]⟩
    · split at hM
      · cases hM
      · cases hM
        exact ⟨_, applyMap_eq _ (sector_inside ..) v, by simp [act, sectorTerms, r2, t3, linSum, quadSum, ofVec, toVec]⟩

theorem gen_keeps {s h K1 K2 : ℝ} {M : RT} (hM : genSectorBendTM s h K1 K2 = .ok M) (v : PS) :
    ∃ w, applyMap M v = .ok w ∧ w.dp = v.dp := by
  by_cases hc : h = 0 ∨ K1 = 0 ∨ K1 + h * h = 0 ∨ K1 + h * h + 4 * K1 = 0
  · rw [genSectorBendTM, if_pos hc] at hM; cases hM
  · simp only [not_or] at hc
    rw [gen_closed s h K1 K2 hc.1 hc.2.1 hc.2.2.1 hc.2.2.2] at hM
    cases hM
    refine ⟨_, applyMap_eq _ (gen_inside ..) v, ?_⟩
    have q := (gen_quad (h := h) (K1 := K1) s K2 (cK (K1 + h * h) s) (sK (K1 + h * h) s) (cK (-K1) s) (sK (-K1) s) rfl rfl
      (by ring) v).2.2.2.2
    rw [act_eq]
    simp only [addPS, q, gen_lin, add_zero]

theorem applyBend_dp {tol p0 pref : ℝ} {M : RT} (hM : ∀ v, ∃ w, applyMap M v = .ok w ∧ w.dp = v.dp) {v w : PS}
    (h : applyBend tol M p0 pref v = .ok w) : w.dp = v.dp := by
  unfold applyBend at h
  split at h
  · obtain ⟨u, e1, e2⟩ := hM v
    rw [e1] at h
    cases h; exact e2
  · unfold applyMap1 at h
    obtain ⟨u, e1, e2⟩ := hM { v with dp := p0 / pref * (1 + v.dp) - 1 }
    rw [e1, Outcome.bind] at h
    cases h; rfl

theorem kick_dp {eps ec ds phi : ℝ} {m : MField ℝ} {b : Bunch} {v w : PS} (h : kick eps ec m ds b phi v = .ok w) :
    w.dp = v.dp := by
  unfold kick at h
  split at h
  · cases h
  · obtain ⟨B, _, h⟩ := bind_ok_iff.mp h
    cases h; rfl

theorem act_origin (m : RT) : act m ⟨0, 0, 0, 0, 0, 0⟩ = ⟨0, 0, 0, 0, 0, 0⟩ := by
  have h0 : ∀ i, toVec ⟨0, 0, 0, 0, 0, 0⟩ i = 0 := fun i => by unfold toVec; split <;> rfl
  have hl : ∀ (i : Nat) (l : LinMap.Map ℝ), linSum (toVec ⟨0, 0, 0, 0, 0, 0⟩) i l = 0 := fun i l => by
    induction l with
    | nil => rfl
    | cons t l ih => rw [linSum, ih, h0]; simp
  have hq : ∀ (i : Nat) (l : List (LinMap.Tijk ℝ)), quadSum (toVec ⟨0, 0, 0, 0, 0, 0⟩) i l = 0 := fun i l => by
    induction l with
    | nil => rfl
    | cons t l ih => rw [quadSum, ih, h0]; simp
  simp [act, ofVec, hl, hq]

/-- A particle of the matched momentum on the axis stays on the axis. -/
theorem applyBend_axis {tol p0 pref : ℝ} (ht : 0 ≤ tol) {M : RT} (hM : Inside M) (hp0 : p0 ≠ 0) (hp : pref ≠ 0)
    (hm : p0 = pref ∨ tol < |p0 - pref|) :
    applyBend tol M p0 pref ⟨0, 0, 0, 0, 0, pref / p0 - 1⟩ = .ok ⟨0, 0, 0, 0, 0, pref / p0 - 1⟩ := by
  unfold applyBend
  rcases hm with rfl | hm
  · rw [if_pos (by simpa using ht), applyMap_eq _ hM]
    rw [div_self hp0, sub_self, act_origin]
  · rw [if_neg (not_le.2 hm), applyMap1]
    have : p0 / pref * (1 + (pref / p0 - 1)) - 1 = 0 := by field_simp; ring
    simp only [this]
    rw [applyMap_eq _ hM, act_origin, Outcome.bind]

end

end Verif.TransportMaps
