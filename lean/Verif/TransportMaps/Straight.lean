import Verif.Transport.Lemmas
import Verif.TransportMaps.Apply

/-!
# Drift, quadrupole and sextupole
-/

namespace Verif.TransportMaps
open Verif Verif.Symplectic Verif.TransportMaps.Spec Real Verif.Transport

theorem drift_inside (s : ℝ) : Inside (driftTM s) := by
  constructor <;> simp [driftTM, r2, t3]

theorem drift_lin (s : ℝ) (v : PS) : lin (driftTM s) v = ⟨v.x + s * v.px, v.px, v.y + s * v.py, v.py, v.ct, v.dp⟩ := by
  simp [lin, driftTM, r2, linSum, ofVec, toVec]

theorem drift_quad (s : ℝ) (v : PS) : quad (driftTM s) v = ⟨0, 0, 0, 0, -s / 2 * (v.px * v.px) + -s / 2 * (v.py * v.py), 0⟩ := by
  simp [quad, driftTM, t3, quadSum, ofVec, toVec]

theorem act_eq (m : RT) (v : PS) : act m v = addPS (lin m v) (quad m v) := rfl

/-- Derivative of an expression built from functions with known derivatives. -/
macro "ader" : tactic => `(tactic| repeat' first
  | assumption | exact hasDerivAt_const _ _ | exact hasDerivAt_id' _
  | apply HasDerivAt.fun_add | apply HasDerivAt.fun_sub | apply HasDerivAt.fun_neg
  | apply HasDerivAt.div_const | apply HasDerivAt.fun_pow | apply HasDerivAt.fun_mul)

theorem sext_inside (s K : ℝ) : Inside (sextupoleTM s K) := by
  constructor <;> simp [sextupoleTM, r2, t3]

theorem sext_lin (s K : ℝ) (v : PS) : lin (sextupoleTM s K) v = ⟨v.x + s * v.px, v.px, v.y + s * v.py, v.py, v.ct, v.dp⟩ := by
  simp [lin, sextupoleTM, r2, linSum, ofVec, toVec]

theorem sext_quad (s K : ℝ) (v : PS) : quad (sextupoleTM s K) v =
    ⟨K / 2 * (s ^ 2 / 2 * (v.y ^ 2 - v.x ^ 2) + s ^ 3 / 3 * (v.y * v.py - v.x * v.px) + s ^ 4 / 12 * (v.py ^ 2 - v.px ^ 2)),
      K / 2 * (s * (v.y ^ 2 - v.x ^ 2) + s ^ 2 * (v.y * v.py - v.x * v.px) + s ^ 3 / 3 * (v.py ^ 2 - v.px ^ 2)),
      K / 2 * (s ^ 2 * (v.x * v.y) + s ^ 3 / 3 * (v.x * v.py + v.px * v.y) + s ^ 4 / 6 * (v.px * v.py)),
      K / 2 * (2 * s * (v.x * v.y) + s ^ 2 * (v.x * v.py + v.px * v.y) + 2 * s ^ 3 / 3 * (v.px * v.py)),
      -(s / 2 * (v.px ^ 2 + v.py ^ 2)), 0⟩ := by
  simp only [quad, sextupoleTM, t3, quadSum, ofVec, toVec]
  norm_num
  refine ⟨?_, ?_, ?_, ?_, ?_⟩ <;> ring

/-- The linear part of a drift and a sextupole has the right derivative. -/
theorem free_lin (v : PS) (s : ℝ) : Spec.Der (fun s => (⟨v.x + s * v.px, v.px, v.y + s * v.py, v.py, v.ct, v.dp⟩ : PS))
    (lorLin 0 0 ⟨v.x + s * v.px, v.px, v.y + s * v.py, v.py, v.ct, v.dp⟩) s := by
  simp only [lorLin]
  refine ⟨?_, ?_, ?_, ?_, ?_, ?_⟩ <;>
  · refine HasDerivAt.congr_deriv (by ader) ?_
    ring

theorem drift_follows (z : PS) : Follows (lorentz 0 (bxField 0 0) (byField 0 0 0)) (fun s => applyMap (driftTM s)) z := by
  refine follows_lorentz 0 0 0 z _ driftTM (fun s v => applyMap_eq _ (drift_inside s) v) (fun v => ?_) (fun s => ?_)
    (fun s => ?_)
  · rw [act_eq, drift_lin, drift_quad]; simp [addPS]
  · simp only [drift_lin]; exact free_lin z s
  · simp only [drift_quad, drift_lin, addPS, lorLin, lorQuad]
    refine ⟨?_, ?_, ?_, ?_, ?_, ?_⟩ <;>
    · refine HasDerivAt.congr_deriv (by ader) ?_
      ring

theorem sext_follows (K : ℝ) (z : PS) :
    Follows (lorentz 0 (bxField 0 (K / 2)) (byField 0 0 (K / 2))) (fun s => applyMap (sextupoleTM s K)) z := by
  refine follows_lorentz 0 0 (K / 2) z _ (fun s => sextupoleTM s K) (fun s v => applyMap_eq _ (sext_inside s K) v)
    (fun v => ?_) (fun s => ?_) (fun s => ?_)
  · rw [act_eq, sext_lin, sext_quad]; simp [addPS]
  · simp only [sext_lin]; exact free_lin z s
  · simp only [sext_quad, sext_lin, addPS, lorLin, lorQuad]
    refine ⟨?_, ?_, ?_, ?_, ?_, ?_⟩ <;>
    · refine HasDerivAt.congr_deriv (by ader) ?_
      push_cast
      ring

/-- The quadrupole in terms of functions for both signs. -/
noncomputable def quadClosed (s K1 : ℝ) : RT where
  r := [r2 1 1 (cK K1 s), r2 1 2 (sK K1 s), r2 2 1 (-K1 * sK K1 s), r2 2 2 (cK K1 s), r2 3 3 (cK (-K1) s),
    r2 3 4 (sK (-K1) s), r2 4 3 (K1 * sK (-K1) s), r2 4 4 (cK (-K1) s), r2 5 5 1, r2 6 6 1]
  t := [t3 1 1 6 (K1 * s * sK K1 s / 2), t3 1 2 6 ((sK K1 s - s * cK K1 s) / 2),
    t3 2 1 6 (K1 * (sK K1 s + s * cK K1 s) / 2), t3 2 2 6 (K1 * s * sK K1 s / 2),
    t3 3 3 6 (-(K1 * s * sK (-K1) s) / 2), t3 3 4 6 ((sK (-K1) s - s * cK (-K1) s) / 2),
    t3 4 3 6 (-(K1 * (sK (-K1) s + s * cK (-K1) s)) / 2), t3 4 4 6 (-(K1 * s * sK (-K1) s) / 2),
    t3 5 1 1 (-(K1 * (s - cK K1 s * sK K1 s)) / 4), t3 5 1 2 (K1 * sK K1 s ^ 2 / 2),
    t3 5 2 2 (-(s + cK K1 s * sK K1 s) / 4), t3 5 3 3 (K1 * (s - cK (-K1) s * sK (-K1) s) / 4),
    t3 5 3 4 (-(K1 * sK (-K1) s ^ 2) / 2), t3 5 4 4 (-(s + cK (-K1) s * sK (-K1) s) / 4)]

theorem quad_closed (s K1 : ℝ) (hK : K1 ≠ 0) : quadrupoleTM s K1 = .ok (quadClosed s K1) := by
  unfold quadrupoleTM
  rw [if_neg hK]
  rcases lt_or_gt_of_ne hK with h | h
  · have hn : ¬ K1 > 0 := not_lt.2 h.le
    have hm : (0 : ℝ) < -K1 := by linarith
    have hm0 : -K1 ≠ 0 := hm.ne'
    obtain ⟨h1, h2⟩ := sqrt_facts hm
    simp only [h, hn, if_true, if_false, abs_of_neg h, quadClosed, cK, sK, hK, hm, hm0, neg_neg]
    have e2 : sin (2 * √(-K1) * s) = 2 * (sin (√(-K1) * s) * cos (√(-K1) * s)) := by
      rw [mul_assoc, sin_two_mul]; ring
    have e3 : sinh (2 * √(-K1) * s) = 2 * (sinh (√(-K1) * s) * cosh (√(-K1) * s)) := by
      rw [mul_assoc, sinh_two_mul]; ring
    rw [e2, e3]
    generalize sin (√(-K1) * s) = S
    generalize cos (√(-K1) * s) = C
    generalize sinh (√(-K1) * s) = S'
    generalize cosh (√(-K1) * s) = C'
    generalize √(-K1) = w at *
    have hk : K1 = -(w * w) := by linarith
    subst hk
    simp only [Outcome.ok.injEq, RT.mk.injEq, List.cons.injEq, r2, t3, LinMap.Rij.mk.injEq, LinMap.Tijk.mk.injEq, true_and,
      and_true]
    repeat' apply And.intro
    all_goals first | rfl | (field_simp; done) | (field_simp; ring)
  · have hn : ¬ K1 < 0 := not_lt.2 h.le
    have hm : ¬ (0 : ℝ) < -K1 := by linarith
    have hm0 : -K1 ≠ 0 := neg_ne_zero.2 hK
    obtain ⟨h1, h2⟩ := sqrt_facts h
    have hp : (0 : ℝ) < K1 := h
    simp only [h, hn, if_true, if_false, abs_of_pos h, quadClosed, cK, sK, hK, hm, hm0, neg_neg, hp]
    have e2 : sin (2 * √K1 * s) = 2 * (sin (√K1 * s) * cos (√K1 * s)) := by
      rw [mul_assoc, sin_two_mul]; ring
    have e3 : sinh (2 * √K1 * s) = 2 * (sinh (√K1 * s) * cosh (√K1 * s)) := by
      rw [mul_assoc, sinh_two_mul]; ring
    rw [e2, e3]
    generalize sin (√K1 * s) = S
    generalize cos (√K1 * s) = C
    generalize sinh (√K1 * s) = S'
    generalize cosh (√K1 * s) = C'
    generalize √K1 = w at *
    have hk : K1 = w * w := by linarith
    subst hk
    simp only [Outcome.ok.injEq, RT.mk.injEq, List.cons.injEq, r2, t3, LinMap.Rij.mk.injEq, LinMap.Tijk.mk.injEq, true_and,
      and_true]
    repeat' apply And.intro
    all_goals first | rfl | (field_simp; done) | (field_simp; ring)

theorem quad_inside (s K : ℝ) : Inside (quadClosed s K) := by
  constructor <;> simp [quadClosed, r2, t3]

theorem quad_lin (s K : ℝ) (v : PS) : lin (quadClosed s K) v =
    ⟨cK K s * v.x + sK K s * v.px, -(K * sK K s) * v.x + cK K s * v.px, cK (-K) s * v.y + sK (-K) s * v.py,
      K * sK (-K) s * v.y + cK (-K) s * v.py, v.ct, v.dp⟩ := by
  simp [lin, quadClosed, r2, linSum, ofVec, toVec]

theorem quad_quad (s K : ℝ) (v : PS) : quad (quadClosed s K) v =
    ⟨(K * s * sK K s / 2 * v.x + (sK K s - s * cK K s) / 2 * v.px) * v.dp,
      (K * (sK K s + s * cK K s) / 2 * v.x + K * s * sK K s / 2 * v.px) * v.dp,
      (-(K * s * sK (-K) s) / 2 * v.y + (sK (-K) s - s * cK (-K) s) / 2 * v.py) * v.dp,
      (-(K * (sK (-K) s + s * cK (-K) s)) / 2 * v.y + -(K * s * sK (-K) s) / 2 * v.py) * v.dp,
      -(K * (s - cK K s * sK K s)) / 4 * v.x ^ 2 + K * sK K s ^ 2 / 2 * (v.x * v.px) +
        -(s + cK K s * sK K s) / 4 * v.px ^ 2 + K * (s - cK (-K) s * sK (-K) s) / 4 * v.y ^ 2 +
        -(K * sK (-K) s ^ 2) / 2 * (v.y * v.py) + -(s + cK (-K) s * sK (-K) s) / 4 * v.py ^ 2, 0⟩ := by
  simp only [quad, quadClosed, t3, quadSum, ofVec, toVec]
  norm_num
  refine ⟨?_, ?_, ?_, ?_, ?_⟩ <;> ring

theorem quad_follows (K : ℝ) (hK : K ≠ 0) (z : PS) : Follows (lorentz 0 (bxField K 0) (byField 0 K 0))
    (fun s v => (quadrupoleTM s K).bind fun m => applyMap m v) z := by
  refine follows_lorentz 0 K 0 z _ (fun s => quadClosed s K) (fun s v => ?_) (fun v => ?_) (fun s => ?_) (fun s => ?_)
  · rw [quad_closed s K hK, Outcome.bind, applyMap_eq _ (quad_inside s K)]
  · rw [act_eq, quad_lin, quad_quad]; simp [addPS]
  all_goals
    have h1 : HasDerivAt (fun s => cK K s) (-K * sK K s) s := hasDerivAt_cK K s
    have h2 : HasDerivAt (fun s => sK K s) (cK K s) s := hasDerivAt_sK K s
    have h3 : HasDerivAt (fun s => cK (-K) s) (- -K * sK (-K) s) s := hasDerivAt_cK (-K) s
    have h4 : HasDerivAt (fun s => sK (-K) s) (cK (-K) s) s := hasDerivAt_sK (-K) s
  · simp only [quad_lin, lorLin]
    refine ⟨?_, ?_, ?_, ?_, ?_, ?_⟩ <;>
    · refine HasDerivAt.congr_deriv (by ader) ?_
      ring
  · simp only [quad_quad, quad_lin, addPS, lorLin, lorQuad]
    have e1 := cK_sq K s
    have e2 := cK_sq (-K) s
    refine ⟨?_, ?_, ?_, ?_, ?_, ?_⟩
    · refine HasDerivAt.congr_deriv (by ader) ?_
      ring
    · refine HasDerivAt.congr_deriv (by ader) ?_
      ring
    · refine HasDerivAt.congr_deriv (by ader) ?_
      ring
    · refine HasDerivAt.congr_deriv (by ader) ?_
      ring
    · refine HasDerivAt.congr_deriv (by ader) ?_
      push_cast
      linear_combination (K * z.x ^ 2 / 4 + z.px ^ 2 / 4) * e1 + (-K * z.y ^ 2 / 4 + z.py ^ 2 / 4) * e2
    · refine HasDerivAt.congr_deriv (by ader) ?_
      ring

end Verif.TransportMaps
