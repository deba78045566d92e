import Verif.TransportMaps.Gen

/-!
# Pole faces
-/

namespace Verif.TransportMaps
open Verif Verif.Symplectic Verif.TransportMaps.Spec Real Asymptotics Filter Topology

noncomputable section

/-- A map of the form of a pole face: coefficients `a`, `b` of the shears, `A`, `B`, `D` of the sextupole-like terms. -/
def faceMap (f g a b A B D : ℝ) (v : PS) : PS :=
  ⟨v.x - a * v.x ^ 2 + b * v.y ^ 2, v.px + f * v.x + 2 * a * (v.x * v.px - v.y * v.py) + A * v.x ^ 2 + B * v.y ^ 2,
    v.y + 2 * a * (v.x * v.y), v.py - g * v.y - 2 * a * (v.x * v.py) - 2 * b * (v.px * v.y) + D * (v.x * v.y), v.ct, v.dp⟩

/-- Its derivative. -/
def faceDer (f g a b A B D : ℝ) (z u : PS) : PS :=
  ⟨u.x - 2 * a * z.x * u.x + 2 * b * z.y * u.y,
    u.px + f * u.x + 2 * a * (u.x * z.px + z.x * u.px - (u.y * z.py + z.y * u.py)) + 2 * A * z.x * u.x + 2 * B * z.y * u.y,
    u.y + 2 * a * (u.x * z.y + z.x * u.y),
    u.py - g * u.y - 2 * a * (u.x * z.py + z.x * u.py) - 2 * b * (u.px * z.y + z.px * u.y) + D * (u.x * z.y + z.x * u.y),
    u.ct, u.dp⟩

theorem face_der (f g a b A B D : ℝ) {c : ℝ → PS} {u : PS} {t : ℝ} (h : Symplectic.Spec.Der c u t) :
    Symplectic.Spec.Der (fun s => faceMap f g a b A B D (c s)) (faceDer f g a b A B D (c t) u) t := by
  obtain ⟨h1, h2, h3, h4, h5, h6⟩ := h
  simp only [faceMap, faceDer]
  refine ⟨?_, ?_, ?_, ?_, h5, h6⟩ <;>
  · refine HasDerivAt.congr_deriv (by ader) ?_
    push_cast
    ring

/-- The form after a face: what is left is proportional to one combination of the terms, up to second order. -/
theorem face_form (f g a b A B D : ℝ) (z u w : PS) : ∃ q : ℝ, ∀ e,
    Symplectic.Spec.form (faceDer f g a b A B D (scale e z) u) (faceDer f g a b A B D (scale e z) w) -
      Symplectic.Spec.form u w =
    e * ((2 * B - D - 2 * a * g - 2 * b * f) * (z.y * (u.x * w.y - u.y * w.x))) + e ^ 2 * q := by
  let J : PS → PS := fun u => ⟨-2 * a * z.x * u.x + 2 * b * z.y * u.y,
    2 * a * (u.x * z.px + z.x * u.px - (u.y * z.py + z.y * u.py)) + 2 * A * z.x * u.x + 2 * B * z.y * u.y,
    2 * a * (u.x * z.y + z.x * u.y),
    -2 * a * (u.x * z.py + z.x * u.py) - 2 * b * (u.px * z.y + z.px * u.y) + D * (u.x * z.y + z.x * u.y), 0, 0⟩
  refine ⟨Symplectic.Spec.form (J u) (J w), fun e => ?_⟩
  simp only [Symplectic.Spec.form, faceDer, scale, J]
  ring

/-- A face keeps the form to first order if and only if one combination of its terms vanishes. -/
theorem face_symplectic (f g a b A B D : ℝ) (F : PS → Outcome Unit PS) (hF : ∀ v, F v = .ok (faceMap f g a b A B D v)) :
    SymplecticTo F ↔ 2 * B - D - 2 * a * g - 2 * b * f = 0 := by
  constructor
  · intro h
    obtain ⟨L, hL, hO⟩ := h ⟨0, 0, 1, 0, 0, 0⟩ ⟨1, 0, 0, 0, 0, 0⟩ ⟨0, 0, 1, 0, 0, 0⟩
    have hLe : ∀ e u, L e u = faceDer f g a b A B D (scale e ⟨0, 0, 1, 0, 0, 0⟩) u := by
      intro e u
      let c : ℝ → PS := fun s => ⟨s * u.x, s * u.px, e + s * u.y, s * u.py, s * u.ct, s * u.dp⟩
      have c0 : c 0 = scale e ⟨0, 0, 1, 0, 0, 0⟩ := by simp [c, scale]
      have cd : Symplectic.Spec.Der c u 0 := by
        refine ⟨?_, ?_, ?_, ?_, ?_, ?_⟩ <;>
        · refine HasDerivAt.congr_deriv (by ader) ?_
          ring
      obtain ⟨d, hd, hdd⟩ := hL e c u 0 c0 cd
      have he : d = fun s => faceMap f g a b A B D (c s) := by
        funext s; exact Outcome.ok.inj ((hd s).symm.trans (hF _))
      have hf := face_der f g a b A B D cd
      rw [he] at hdd
      rw [c0] at hf
      have k1 := hdd.1.unique hf.1
      have k2 := hdd.2.1.unique hf.2.1
      have k3 := hdd.2.2.1.unique hf.2.2.1
      have k4 := hdd.2.2.2.1.unique hf.2.2.2.1
      have k5 := hdd.2.2.2.2.1.unique hf.2.2.2.2.1
      have k6 := hdd.2.2.2.2.2.unique hf.2.2.2.2.2
      generalize L e u = l at *
      generalize faceDer f g a b A B D (scale e ⟨0, 0, 1, 0, 0, 0⟩) u = r at *
      obtain ⟨l1, l2, l3, l4, l5, l6⟩ := l
      obtain ⟨r1, r2, r3, r4, r5, r6⟩ := r
      simp only at k1 k2 k3 k4 k5 k6
      rw [k1, k2, k3, k4, k5, k6]
    obtain ⟨q, hq⟩ := face_form f g a b A B D ⟨0, 0, 1, 0, 0, 0⟩ ⟨1, 0, 0, 0, 0, 0⟩ ⟨0, 0, 1, 0, 0, 0⟩
    simp only [hLe, hq] at hO
    have h3 : Third fun e => e * (e * ((2 * B - D - 2 * a * g - 2 * b * f) * (1 * (1 * 1 - 0 * 0))) + e ^ 2 * q) := by
      have := (isBigO_refl (fun e : ℝ => e) (𝓝 0)).mul hO
      refine this.congr_right fun e => by ring
    have hj : Jet (fun e => e * (e * ((2 * B - D - 2 * a * g - 2 * b * f) * (1 * (1 * 1 - 0 * 0))) + e ^ 2 * q)) 0 0
        (2 * B - D - 2 * a * g - 2 * b * f) := by
      have : Third fun e => q * e ^ 3 := (isBigO_refl (fun e : ℝ => e ^ 3) (𝓝 0)).const_mul_left q
      exact third_of_eq this fun e => by ring
    exact (third_zero h3 hj).2
  · intro h z u w
    refine ⟨fun e u => faceDer f g a b A B D (scale e z) u, fun e c u t hc hd => ⟨fun s => faceMap f g a b A B D (c s),
      fun s => hF _, ?_⟩, ?_⟩
    · have := face_der f g a b A B D hd
      rw [hc] at this
      exact this
    · obtain ⟨q, hq⟩ := face_form f g a b A B D z u w
      simp only [hq, h, zero_mul, mul_zero, zero_add]
      exact ((isBigO_refl (fun e : ℝ => e ^ 2) (𝓝 0)).const_mul_left q).congr_left fun e => by ring

theorem face_inside (h K1 t t' a6 c : ℝ) (ent : Bool) : Inside (poleFaceTerms h K1 t t' a6 c ent) := by
  cases ent <;> constructor <;> simp [poleFaceTerms, r2, t3]

/-- The map of a pole face at the entrance. -/
theorem face_entrance (h K1 t t' a6 c : ℝ) (v : PS) : applyMap (poleFaceTerms h K1 t t' a6 c true) v =
    .ok (faceMap (t * h) (h * t') (h / 2 * t ^ 2) (h / 2 * a6 ^ 2) (h / 2 * c * a6 ^ 3 + K1 * t)
      (h ^ 2 / 2 * t ^ 3 - h / 2 * c * a6 ^ 3 + K1 * t + (h * a6) ^ 2 * t / 2) (-(h / 2 * c * a6 ^ 3 + K1 * t)) v) := by
  rw [applyMap_eq _ (face_inside ..)]
  simp [act, poleFaceTerms, r2, t3, linSum, quadSum, ofVec, toVec, faceMap]
  refine ⟨?_, ?_, ?_, ?_⟩ <;> first | (ring; done) | (left; ring)

/-- The map of a pole face at the exit. -/
theorem face_exit (h K1 t t' a6 c : ℝ) (v : PS) : applyMap (poleFaceTerms h K1 t t' a6 c false) v =
    .ok (faceMap (t * h) (h * t') (-(h / 2 * t ^ 2)) (-(h / 2 * a6 ^ 2)) (h / 2 * c * a6 ^ 3 + K1 * t - (h * t) ^ 2 * t / 2)
      (-(h ^ 2 / 2 * t ^ 3) - h / 2 * c * a6 ^ 3 + K1 * t) (-(h / 2 * c * a6 ^ 3 + K1 * t) + (h * a6) ^ 2 * t) v) := by
  rw [applyMap_eq _ (face_inside ..)]
  simp [act, poleFaceTerms, r2, t3, linSum, quadSum, ofVec, toVec, faceMap]
  refine ⟨?_, ?_, ?_, ?_⟩ <;> first | (ring; done) | (left; ring)

end

end Verif.TransportMaps
