import Mathlib.Analysis.SpecialFunctions.Trigonometric.Bounds
import Verif.RectMultipole.Lemmas

/-!
# Orbits in gradients
-/

namespace Verif.RectMultipole
open Verif Verif.Multipole Verif.Symplectic Verif.Symplectic.Spec Verif.RectMultipole.Spec Verif.TransportMaps
  Verif.TransportMaps.Spec Verif.Transport Real

noncomputable section

/-- The exact motion in a normal gradient. -/
def quadExact (l K : ℝ) (v : PS) : PS where
  x := cK K l * v.x + sK K l * v.px
  px := -K * sK K l * v.x + cK K l * v.px
  y := cK (-K) l * v.y + sK (-K) l * v.py
  py := - -K * sK (-K) l * v.y + cK (-K) l * v.py
  ct := v.ct
  dp := v.dp

theorem quadExact_zero (K : ℝ) (v : PS) : quadExact 0 K v = v := by
  have c0 : ∀ K, cK K 0 = 1 := fun K => by unfold cK; split_ifs <;> simp
  have s0 : ∀ K, sK K 0 = 0 := fun K => by unfold sK; split_ifs <;> simp
  simp [quadExact, c0, s0]

theorem quadAct_exact (l K : ℝ) {v : PS} (h : v.dp = 0) : quadAct l K v = quadExact l K v := by
  simp [quadAct, quadExact, h]

theorem quadExact_line (l : ℝ) (v : PS) : quadExact l 0 v = line l v := by
  simp [quadExact, line, cK, sK]

theorem exact_motion (K : ℝ) (v : PS) : InGradient ⟨K, 0⟩ fun s => quadExact s K v := by
  intro s
  have h1 : HasDerivAt (fun s => cK K s) (-K * sK K s) s := hasDerivAt_cK K s
  have h2 : HasDerivAt (fun s => sK K s) (cK K s) s := hasDerivAt_sK K s
  have h3 : HasDerivAt (fun s => cK (-K) s) (- -K * sK (-K) s) s := hasDerivAt_cK (-K) s
  have h4 : HasDerivAt (fun s => sK (-K) s) (cK (-K) s) s := hasDerivAt_sK (-K) s
  simp only [quadExact]
  refine ⟨?_, ?_, ?_, ?_, ?_, ?_⟩ <;>
  · refine HasDerivAt.congr_deriv (by ader) ?_
    ring

/-- The motion in turned axes is motion in the turned gradient. -/
theorem turned_motion {K t : ℝ} {o : ℝ → PS} (h : InGradient ⟨K, 0⟩ o) :
    InGradient ⟨K * cos (2 * t), -(K * sin (2 * t))⟩ fun s => turn t (o s) := by
  intro s
  obtain ⟨h1, h2, h3, h4, h5, h6⟩ := h s
  have hc := cos_two_mul t
  have hs := sin_two_mul t
  have hp := sin_sq_add_cos_sq t
  simp only [turn]
  refine ⟨?_, ?_, ?_, ?_, ?_, ?_⟩ <;>
  · refine HasDerivAt.congr_deriv (by ader) ?_
    first | (simp only [hc, hs]; done) | (simp only [hc, hs]; grind)

theorem norm_cos_arg (k : Cx ℝ) : ‖toC k‖ * cos (Complex.arg (toC k)) = k.re :=
  Complex.norm_mul_cos_arg (toC k)

theorem norm_sin_arg (k : Cx ℝ) : ‖toC k‖ * sin (Complex.arg (toC k)) = k.im :=
  Complex.norm_mul_sin_arg (toC k)

/-- The half angle of a skew strength. -/
def half (k : Cx ℝ) : ℝ := Complex.arg (toC k) / 2

theorem quadMatrices_real {l : ℝ} {k : Cx ℝ} (hi : k.im = 0) (hl : l ≠ 0) (hk : k ≠ 0) (v : PS) :
    applyRdp (quadMatrices l k) v = quadAct l k.re v := by
  have hr : k.re ≠ 0 := fun h => hk (Cx.ext h hi)
  unfold quadMatrices
  simp only [hi, if_true, ne_eq, not_true_eq_false, if_false]
  exact applyRdp_quad hl hr v

theorem quadMatrices_skew {l : ℝ} {k : Cx ℝ} (hi : k.im ≠ 0) (ha : Transport.eps < |half k|) (hl : l ≠ 0) (v : PS) :
    applyRdp (quadMatrices l k) v = turn (half k) (quadAct l ‖toC k‖ (turn (-half k) v)) := by
  have hr : ‖toC k‖ ≠ 0 := (toC_ne k).2 fun h => hi (by rw [h]; rfl)
  unfold quadMatrices
  simp only [hi, if_true, if_false, ne_eq, not_false_eq_true]
  rw [← applyRdp_quad hl hr]
  exact applyRdp_turned ha _ _ v

theorem quadMatrices_tiny {l : ℝ} {k : Cx ℝ} (hi : k.im ≠ 0) (ha : |half k| ≤ Transport.eps) (v : PS) :
    applyRdp (quadMatrices l k) v = ⟨0, 0, 0, 0, v.ct, v.dp⟩ := by
  have hs : (srotAngle (Complex.arg (toC k) / 2) fun _ _ => (0 : ℝ)) = fun _ _ => 0 := by
    unfold srotAngle
    rw [if_pos]
    unfold Fequal
    rw [sub_zero]
    exact ha
  unfold quadMatrices
  simp only [hi, if_false, ne_eq, not_false_eq_true, if_true, hs]
  rw [applyRdp_four]
  simp [mmul, transp, MatrixMap.loopSum]

theorem pure_unsplit (B : ℝ) (k : Cx ℝ) : ¬ Split ⟨B, [0, k]⟩ := by simp [Split]

theorem pure_normK (ec B : ℝ) (k : Cx ℝ) (b : Bunch) : normK ec ⟨B, [0, k]⟩ b 1 = Cx.smul (perField ec b * B) k := by
  simp [normK, factorial, factLoop]

open Classical in
theorem thin_pure {eps ec : ℝ} {b : Bunch} (hp : b.p0 ≠ 0) (he : ec ≠ 0) (L B : ℝ) (k : Cx ℝ) (s : ℝ) (v : PS) :
    ∃ m, thinStep eps ec ⟨L, ⟨B, [0, k]⟩⟩ b s v = .ok (if s = 0 then v else
      if Cx.smul (perField ec b * B) k ≠ 0 then applyRdp (quadMatrices s (Cx.smul (perField ec b * B) k)) v
      else line s v, m) := by
  by_cases hs : s = 0
  · exact ⟨_, by rw [thinStep, if_pos hs, if_pos hs]⟩
  · refine ⟨(getCoefficient ⟨B, [0, k]⟩ 0 1).2, (thin_plain (c := ⟨L, ⟨B, [0, k]⟩⟩) hp he (pure_unsplit B k) hs v).trans ?_⟩
    rw [if_neg hs, thinHalf, pure_normK]

/-- In a pure gradient the steps of two sets agree. -/
theorem sy_pure {eps ec : ℝ} {b : Bunch} (hp : b.p0 ≠ 0) (he : ec ≠ 0) {L : ℝ} (hL : L ≠ 0) (B : ℝ) {k : Cx ℝ}
    (hk : Cx.smul (perField ec b * B) k ≠ 0) (s : ℝ) (v : PS) :
    particle (syStep eps ec ⟨L, ⟨B, [0, k]⟩⟩ b s v) = particle (thinStep eps ec ⟨L, ⟨B, [0, k]⟩⟩ b s v) := by
  by_cases hs : s = 0
  · have h1 : ¬ (L = 0 ∧ s = 0 ∧ isNull eps (⟨B, [0, k]⟩ : MField ℝ) = false) := by tauto
    rw [syStep, if_neg h1, if_pos hs, thinStep, if_pos hs]
  · obtain ⟨f, g, -, -, h⟩ := sy_form (eps := eps) (c := ⟨L, ⟨B, [0, k]⟩⟩) hp he hs v
    obtain ⟨m, hm⟩ := thin_pure (eps := eps) hp he L B k s v
    rw [h, hm]
    simp only [pure_normK, hk, ne_eq, not_false_eq_true, if_true, pure_unsplit, if_false, hs, particle, Outcome.bind]

/-! ## Equations of motion in turned axes -/

theorem follows_congr {V : PS → PS} {F G : ℝ → PS → Outcome Unit PS} {z : PS} (h : Follows V F z)
    (hz : ∀ v, G 0 v = .ok v) (hs : ∀ s v, s ≠ 0 → G s v = F s v) : Follows V G z := by
  obtain ⟨M, h1, h2, h3⟩ := h
  refine ⟨M, fun s e => ?_, h2, h3⟩
  by_cases h0 : s = 0
  · rw [h0, hz, h2]
  · rw [hs s _ h0, h1]

theorem turn_scale (t e : ℝ) (v : PS) : turn t (scale e v) = scale e (turn t v) := by
  ext <;> simp [turn, scale] <;> ring

theorem third_const_mul {f : ℝ → ℝ} (c : ℝ) (h : Third f) : Third fun e => c * f e := by
  simpa [mul_comm] using third_mul h (Asymptotics.isBigO_const_one ℝ c (nhds (0 : ℝ)))

theorem follows_turn {V : PS → PS} {F : ℝ → PS → Outcome Unit PS} {z : PS} (t : ℝ) (h : Follows V F (turn (-t) z)) :
    Follows (fun v => turn t (V (turn (-t) v))) (fun s v => (F s (turn (-t) v)).bind fun w => .ok (turn t w)) z := by
  obtain ⟨M, h1, h2, h3⟩ := h
  refine ⟨fun s e => turn t (M s e), fun s e => ?_, fun e => ?_, fun s => ?_⟩
  · show (F s (turn (-t) (scale e z))).bind _ = _
    rw [turn_scale, h1, Outcome.bind]
  · show turn t (M 0 e) = _
    rw [h2, turn_scale, turn_turn, add_neg_cancel, turn_zero]
  · obtain ⟨W, g1, t1, t2, t3, t4, t5, t6⟩ := h3 s
    refine ⟨fun e => turn t (W e), fun e => ?_, ?_⟩
    · obtain ⟨d1, d2, d3, d4, d5, d6⟩ := g1 e
      simp only [turn]
      refine ⟨?_, ?_, ?_, ?_, ?_, ?_⟩ <;>
      · refine HasDerivAt.congr_deriv (by ader) ?_
        ring
    · simp only [turn_turn, neg_add_cancel, turn_zero]
      simp only [turn]
      refine ⟨third_of_eq ((third_const_mul (cos t) t1).sub (third_const_mul (sin t) t3)) fun e => by ring,
        third_of_eq ((third_const_mul (cos t) t2).sub (third_const_mul (sin t) t4)) fun e => by ring,
        third_of_eq ((third_const_mul (sin t) t1).add (third_const_mul (cos t) t3)) fun e => by ring,
        third_of_eq ((third_const_mul (sin t) t2).add (third_const_mul (cos t) t4)) fun e => by ring, t5, t6⟩

/-- The Lorentz equations in turned axes are those in the turned field. -/
theorem lorentz_turn (t : ℝ) (bx by' : ℝ → ℝ → ℝ) (v : PS) : turn t (lorentz 0 bx by' (turn (-t) v)) = lorentz 0
    (fun x y => cos t * bx (cos t * x + sin t * y) (-sin t * x + cos t * y) -
      sin t * by' (cos t * x + sin t * y) (-sin t * x + cos t * y))
    (fun x y => cos t * by' (cos t * x + sin t * y) (-sin t * x + cos t * y) +
      sin t * bx (cos t * x + sin t * y) (-sin t * x + cos t * y)) v := by
  have hp := sin_sq_add_cos_sq t
  have hr : 1 + (cos t * v.px + sin t * v.py) ^ 2 + (-sin t * v.px + cos t * v.py) ^ 2 = 1 + v.px ^ 2 + v.py ^ 2 := by
    grind
  have hx : cos t * v.x - -sin t * v.y = cos t * v.x + sin t * v.y := by ring
  have hpx : cos t * v.px - -sin t * v.py = cos t * v.px + sin t * v.py := by ring
  simp only [turn, lorentz, cos_neg, sin_neg, hx, hpx, hr, zero_mul, add_zero, one_mul, zero_add]
  generalize by' (cos t * v.x + sin t * v.y) (-sin t * v.x + cos t * v.y) = P
  generalize bx (cos t * v.x + sin t * v.y) (-sin t * v.x + cos t * v.y) = Q
  generalize 1 / ((1 + v.dp) / √(1 + v.px ^ 2 + v.py ^ 2)) = g
  ext <;> simp only [] <;> grind

end

end Verif.RectMultipole
