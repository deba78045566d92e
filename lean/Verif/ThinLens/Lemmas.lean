import Verif.RectMultipole.Lemmas
import Verif.ThinLens.Spec
import Verif.TransportMaps.Step
import Verif.Transport.Chromatic
import Verif.Transport.Motion

/-!
# Steps of the standard integrators in closed form
-/

namespace Verif.ThinLens
open Verif Verif.Multipole Verif.Symplectic Verif.Symplectic.Spec Verif.Transport Verif.TransportMaps Verif.RectMultipole
  Verif.ThinLens.Spec Real

noncomputable section

/-- The step in a linear bend in closed form. -/
def lin (l h Kx Ky d : ℝ) (v : PS) : PS :=
  ⟨cK Kx l * v.x + sK Kx l * v.px + h * (1 - cK Kx l) / Kx * d, -Kx * sK Kx l * v.x + cK Kx l * v.px + h * sK Kx l * d,
   cK Ky l * v.y + sK Ky l * v.py, -Ky * sK Ky l * v.y + cK Ky l * v.py,
   -h * sK Kx l * v.x + -h * (1 - cK Kx l) / Kx * v.px + v.ct + -h * h * (l - sK Kx l) / Kx * d, v.dp⟩

/-- The curvature which the matrix has: none if the gradient cancels the focusing. -/
def hEff (h K : ℝ) : ℝ := if K + h * h = 0 then 0 else h

theorem hEff_cond (h K : ℝ) : hEff h K = 0 ∨ K + h * h ≠ 0 := by
  unfold hEff; split_ifs with e
  · exact Or.inl rfl
  · exact Or.inr e

/-- The matrix of a bend applied. -/
theorem applyBend6_eq {l h K pref p0 : ℝ} (hp : pref ≠ 0) (v : PS) :
    applyBend6 (sectorBend 6 l h K) pref p0 v =
      lin l (hEff h K) (K + h * h) (-K) (p0 * (1 + v.dp) / pref - 1) v := by
  have g' : ∀ i j, i < 6 → j < 6 → sectorBend 6 l h K i j = closed l (hEff h K) (K + h * h) (-K) i j := sbr_gen l h K
  unfold applyBend6 MatrixMap.withMomentum
  rw [if_neg hp]
  simp [ofVec, MatrixMap.applyVec, MatrixMap.loopSum, LinMap.upd, lin, PS.mk.injEq, g', closed, toVec, MatrixMap.scaledp]

theorem lin_zero (h Kx Ky d : ℝ) (v : PS) : lin 0 h Kx Ky d v = v := by
  ext <;> simp [lin]

theorem lin_lin {h Kx : ℝ} (hd : h = 0 ∨ Kx ≠ 0) (a b Ky d : ℝ) (v : PS) :
    lin b h Kx Ky d (lin a h Kx Ky d v) = lin (a + b) h Kx Ky d v := by
  have q := cK_sq Kx a
  unfold lin
  simp only [PS.mk.injEq, cK_add, sK_add]
  rcases hd with rfl | hK
  · refine ⟨?_, ?_, ?_, ?_, ?_, trivial⟩ <;> ring
  · refine ⟨?_, ?_, ?_, ?_, ?_, trivial⟩ <;> field_simp <;> ring

theorem lin_dp (l h Kx Ky d : ℝ) (v : PS) : (lin l h Kx Ky d v).dp = v.dp := rfl

/-- The derivative of the step by its length. -/
theorem lin_der {h Kx : ℝ} (hd : h = 0 ∨ Kx ≠ 0) (Ky d : ℝ) (v : PS) (l : ℝ) :
    Der (fun l => lin l h Kx Ky d v)
      ⟨(lin l h Kx Ky d v).px, -Kx * (lin l h Kx Ky d v).x + h * d, (lin l h Kx Ky d v).py, -Ky * (lin l h Kx Ky d v).y,
        -h * (lin l h Kx Ky d v).x, 0⟩ l := by
  have c1 := hasDerivAt_cK Kx l
  have s1 := hasDerivAt_sK Kx l
  have c2 := hasDerivAt_cK Ky l
  have s2 := hasDerivAt_sK Ky l
  refine ⟨?_, ?_, ?_, ?_, ?_, ?_⟩
  · refine (((c1.mul_const v.x).add (s1.mul_const v.px)).add
      ((((c1.const_sub 1).const_mul h).div_const Kx).mul_const d)).congr_deriv ?_
    simp only [lin]
    rcases hd with rfl | hK
    · ring
    · field_simp
  · refine ((((s1.const_mul (-Kx)).mul_const v.x).add (c1.mul_const v.px)).add
      ((s1.const_mul h).mul_const d)).congr_deriv ?_
    simp only [lin]
    rcases hd with rfl | hK
    · ring
    · field_simp; ring
  · refine ((c2.mul_const v.y).add (s2.mul_const v.py)).congr_deriv ?_
    simp only [lin]
  · refine (((s2.const_mul (-Ky)).mul_const v.y).add (c2.mul_const v.py)).congr_deriv ?_
    simp only [lin]; ring
  · refine (((((s1.const_mul (-h)).mul_const v.x).add
      ((((c1.const_sub 1).const_mul (-h)).div_const Kx).mul_const v.px)).add_const v.ct).add
      (((((hasDerivAt_id' l).sub s1).const_mul (-h * h)).div_const Kx).mul_const d)).congr_deriv ?_
    simp only [lin]
    rcases hd with rfl | hK
    · ring
    · field_simp; ring
  · exact hasDerivAt_const l v.dp

/-! ## The step in a bend -/

/-- The matched momentum of a bend. -/
def matched (cl : ℝ) (c : TransportMaps.Bend) (b : Bunch) (b0 : ℝ) : ℝ := cl * (b0 * c.field.b0) / c.h / b.q

/-- The step in a bend with linear field. -/
theorem thin_linear {eps ec cl : ℝ} {c : TransportMaps.Bend} {bu : Bunch} {ds b b1 : ℝ} (hd : ds ≠ 0) (hh : c.h ≠ 0)
    (hq : bu.q ≠ 0) (hl : Linear c.field b b1) (hp : 0 < matched cl c bu b) (hr : bu.p0 / ec ≠ 0) (v : PS) :
    thinBend eps ec cl c bu ds v = .ok (tiltBy eps (-c.tilt)
      (lin ds (hEff c.h (gradient ec c.field.b0 b1 bu)) (gradient ec c.field.b0 b1 bu + c.h * c.h)
        (-gradient ec c.field.b0 b1 bu) (bu.p0 * (1 + (tiltBy eps c.tilt v).dp) / matched cl c bu b - 1)
        (tiltBy eps c.tilt v)), c.field) := by
  obtain ⟨h, t, ⟨B, ts⟩, f⟩ := c
  rcases hl with ⟨rfl, rfl⟩ | rfl
  · unfold thinBend
    rw [if_neg hd, coef_one]
    simp only
    rw [if_neg (by rintro (e | e); exacts [hh e, hq e])]
    rw [if_neg (not_not.2 (show 0 < matchedMomentum cl h bu.q (b * B) from hp)), if_neg (by simp [highest])]
    simp only [Outcome.bind]
    have e1 : ¬ ((0 : ℝ) ≠ 0 ∨ (0 : Cx ℝ).im ≠ 0 ∨ highest (⟨B, [⟨b, 0⟩]⟩ : MField ℝ) > 1) := by
      simp [highest]
    have e2 : gradient ec B 0 bu = (0 : Cx ℝ).re := by simp [gradient]
    simp only [if_neg e1]
    rw [e2, applyBend6_eq (ne_of_gt (show 0 < matchedMomentum cl h bu.q (b * B) from hp))]
    rfl
  · have hk : getKn (⟨B, [⟨b, 0⟩, ⟨b1, 0⟩]⟩ : MField ℝ) 1 (bu.p0 / ec) = .ok ⟨B / (bu.p0 / ec) * b1, 0⟩ := by
      simp [getKn, hr, Cx.smul, factorial, factLoop]
    unfold thinBend
    rw [if_neg hd, coef_two]
    simp only
    rw [if_neg (by rintro (e | e); exacts [hh e, hq e])]
    rw [if_neg (not_not.2 (show 0 < matchedMomentum cl h bu.q (b * B) from hp)), if_pos (by simp [highest]), hk]
    simp only [Outcome.bind]
    have e0 : Cx.smul bu.q (⟨B / (bu.p0 / ec) * b1, 0⟩ : Cx ℝ) = ⟨gradient ec B b1 bu, 0⟩ := by simp [Cx.smul, gradient]
    rw [e0]
    have e1 : ¬ ((0 : ℝ) ≠ 0 ∨ (0 : ℝ) ≠ 0 ∨ highest (⟨B, [⟨b, 0⟩, ⟨b1, 0⟩]⟩ : MField ℝ) > 1) := by
      simp [highest]
    simp only [if_neg e1]
    rw [applyBend6_eq (ne_of_gt (show 0 < matchedMomentum cl h bu.q (b * B) from hp))]
    rfl

theorem tilt_zero (eps : ℝ) (v : PS) : tiltBy eps 0 v = v := by simp [tiltBy]

theorem tilt_turn {eps t : ℝ} (h : t = 0 ∨ eps < |t|) (v : PS) : tiltBy eps t v = turn t v := by
  by_cases h0 : t = 0
  · subst h0; rw [tilt_zero]; ext <;> simp [turn]
  · unfold tiltBy; rw [if_pos h0, rotate_turn (h.resolve_left h0)]

theorem neg_cond {eps t : ℝ} (h : t = 0 ∨ eps < |t|) : -t = 0 ∨ eps < |(-t)| := by
  rwa [abs_neg, neg_eq_zero]

theorem turn_back (t : ℝ) (v : PS) : turn t (turn (-t) v) = v := by
  have q := sin_sq_add_cos_sq t
  ext <;> simp only [turn, cos_neg, sin_neg]
  · linear_combination v.x * q
  · linear_combination v.px * q
  · linear_combination v.y * q
  · linear_combination v.py * q

theorem thinKick_dp {eps ec len : ℝ} {m : MField ℝ} {b : Bunch} {v w : PS} (h : thinKick eps ec m len b v = .ok w) :
    w.dp = v.dp := by
  unfold thinKick at h
  split at h
  · cases h
  · obtain ⟨B, _, h⟩ := bind_ok_iff.mp h
    cases h; rfl

theorem applyBend6_dp {R : Mat} {pref p0 : ℝ} (hp : pref ≠ 0) (v : PS) : (applyBend6 R pref p0 v).dp = v.dp := by
  unfold applyBend6 MatrixMap.withMomentum
  rw [if_neg hp]
  simp [ofVec, LinMap.upd, toVec]

/-- The drift as straight motion. -/
theorem thinDrift_straight (s : ℝ) (v : PS) : thinDrift s v = straight s v := by
  unfold thinDrift straight
  split_ifs with h
  · ext <;> simp only <;> ring
  · simp only [ne_eq, not_not] at h; subst h; ext <;> simp

theorem straight_straight (a b : ℝ) (v : PS) : straight b (straight a v) = straight (a + b) v := by
  ext <;> simp only [straight] <;> ring

end

end Verif.ThinLens
