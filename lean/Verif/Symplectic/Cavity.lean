import Verif.Symplectic.Step

/-!
# The standing wave cavity near its axis
-/

set_option linter.unusedSimpArgs false

namespace Verif.Symplectic
open Verif Verif.Symplectic.Spec Real

def origin : PS := ⟨0, 0, 0, 0, 0, 0⟩

/-- The phase of the transverse oscillation in the cavity. -/
noncomputable def swAlpha (vn phi : ℝ) : ℝ := log (1 + vn * cos phi) / cos phi / (2 * √2)

theorem rs_det {vn phi len : ℝ} (hc : cos phi ≠ 0) (hv : vn ≠ 0) (hl : len ≠ 0) (hd : 0 < 1 + vn * cos phi) :
    ((rsMatrix vn phi len).1 * (rsMatrix vn phi len).2.2.2 - (rsMatrix vn phi len).2.1 * (rsMatrix vn phi len).2.2.1)
      * (1 + vn * cos phi) = 1 + 2 * sin (swAlpha vn phi) ^ 2 * cos phi * (sin phi - cos phi) := by
  have h2 : √2 * √2 = 2 := mul_self_sqrt (by norm_num)
  have h2' : √2 ≠ 0 := (sqrt_pos.mpr (by norm_num)).ne'
  have e : log (1 + vn * cos phi) / cos phi / (2 * √2) = swAlpha vn phi := rfl
  simp only [rsMatrix, e]
  have sc := sin_sq_add_cos_sq (swAlpha vn phi)
  generalize swAlpha vn phi = α at *
  generalize cos phi = C at *
  generalize sin phi = S at *
  generalize sin α = s at *
  generalize cos α = co at *
  generalize √2 = q at *
  have hd' := hd.ne'
  obtain ⟨d, hd0⟩ : ∃ d, d = 1 + vn * C := ⟨_, rfl⟩
  rw [← hd0] at hd' ⊢
  have e3 : -(1 - 1 / d) = -(vn * C / d) := by field_simp; linarith
  rw [e3]
  linear_combination (norm := (field_simp; ring)) sc - s ^ 2 * C ^ 2 * h2

/-- Velocity after the cavity for a curve through the origin. -/
noncomputable def swL (vn k phi len : ℝ) (u : PS) : PS :=
  let M := rsMatrix vn phi len
  ⟨M.1 * u.x + M.2.1 * u.px, M.2.2.1 * u.x + M.2.2.2 * u.px, M.1 * u.y + M.2.1 * u.py, M.2.2.1 * u.y + M.2.2.2 * u.py,
    u.ct, (u.dp + vn * (k * u.ct * sin phi)) / (1 + vn * cos phi)⟩

theorem along2_zero : along2 0 0 0 = 1 := by simp [along2]

theorem rs_der {vn k phi len : ℝ} (hc : vn * cos phi ≠ 0) (hl : len ≠ 0) (hd : 0 < 1 + vn * cos phi) {c : ℝ → PS} {u : PS}
    {t : ℝ} (ht : c t = origin) (hu : Der c u t) :
    ∃ d : ℝ → PS, (∀ᶠ s in nhds t, rsMap vn 0 k phi 0 len (c s) = .ok (d s)) ∧ Der d (swL vn k phi len u) t := by
  obtain ⟨d1, d2, d3, d4, d5, d6⟩ := id hu
  have x0 : (c t).x = 0 := by rw [ht]; rfl
  have px0 : (c t).px = 0 := by rw [ht]; rfl
  have y0 : (c t).y = 0 := by rw [ht]; rfl
  have py0 : (c t).py = 0 := by rw [ht]; rfl
  have ct0 : (c t).ct = 0 := by rw [ht]; rfl
  have dp0 : (c t).dp = 0 := by rw [ht]; rfl
  have r0 : along2 (c t).dp (c t).px (c t).py = 1 := by simp [along2, px0, py0, dp0]
  have n0 := along2_near hu (by rw [r0]; exact one_pos)
  have hk := along_der d2 d4 d6 (by rw [r0]; exact one_pos)
  have hk1 : √(along2 (c t).dp (c t).px (c t).py) ≠ 0 := by rw [r0]; simp
  let M := rsMatrix vn phi len
  let K := fun s => √(along2 (c s).dp (c s).px (c s).py)
  have hX : HasDerivAt (fun s => (c s).px / K s) u.px t :=
    (d2.div hk hk1).congr_deriv (by simp [along2_zero, px0, py0, dp0])
  have hY : HasDerivAt (fun s => (c s).py / K s) u.py t :=
    (d4.div hk hk1).congr_deriv (by simp [along2_zero, px0, py0, dp0])
  let X := fun s => M.2.2.1 * (c s).x + M.2.2.2 * ((c s).px / K s)
  let Y := fun s => M.2.2.1 * (c s).y + M.2.2.2 * ((c s).py / K s)
  let D := fun s => ((c s).dp + vn * (1 + 0) * cos (phi + 0 - k * (c s).ct) - vn * cos phi) / (1 + vn * cos phi)
  have hX1 : HasDerivAt X (M.2.2.1 * u.x + M.2.2.2 * u.px) t := (d1.const_mul _).add (hX.const_mul _)
  have hY1 : HasDerivAt Y (M.2.2.1 * u.y + M.2.2.2 * u.py) t := (d3.const_mul _).add (hY.const_mul _)
  have hD : HasDerivAt D ((u.dp + vn * (k * u.ct * sin phi)) / (1 + vn * cos phi)) t := by
    have h1 : HasDerivAt (fun s => phi + 0 - k * (c s).ct) (-(k * u.ct)) t := by
      simpa using (d5.const_mul k).const_sub (phi + 0)
    have h2 := (hasDerivAt_cos (phi + 0 - k * (c t).ct)).comp t h1
    refine (((d6.add (h2.const_mul (vn * (1 + 0)))).sub_const (vn * cos phi)).div_const (1 + vn * cos phi)).congr_deriv ?_
    rw [ct0]
    simp
    ring
  have X0 : X t = 0 := by simp [X, x0, px0]
  have Y0 : Y t = 0 := by simp [Y, y0, py0]
  have D0 : D t = 0 := by simp [D, dp0, ct0]
  have r1 : along2 (D t) (X t) (Y t) = 1 := by simp [along2, X0, Y0, D0]
  have n1 : ∀ᶠ s in nhds t, 0 < along2 (D s) (X s) (Y s) :=
    (along2_der hX1 hY1 hD).continuousAt.eventually_const_lt (by show 0 < along2 (D t) (X t) (Y t); rw [r1]; exact one_pos)
  have hq := along_der hX1 hY1 hD (by rw [r1]; exact one_pos)
  refine ⟨fun s => ⟨M.1 * (c s).x + M.2.1 * ((c s).px / K s), X s * √(along2 (D s) (X s) (Y s)),
    M.1 * (c s).y + M.2.1 * ((c s).py / K s), Y s * √(along2 (D s) (X s) (Y s)), (c s).ct, D s⟩, ?_, ?_⟩
  · filter_upwards [n0, n1] with s a b
    simp only [rsMap]
    rw [if_neg (by
      rintro (h | h | h | h)
      · exact hc h
      · linarith
      · exact hl h
      · exact absurd a (not_lt.mpr h))]
    simp only [along2, D, X, Y, K, M] at b ⊢
    rw [if_neg (not_le.mpr b)]
  · refine ⟨(d1.const_mul _).add (hX.const_mul _), ?_, (d3.const_mul _).add (hY.const_mul _), ?_, d5, hD⟩
    · refine (hX1.mul hq).congr_deriv ?_
      simp [X0, Y0, D0, along2_zero, swL, M]
    · refine (hY1.mul hq).congr_deriv ?_
      simp [X0, Y0, D0, along2_zero, swL, M]

theorem sw_form (vn k phi len : ℝ) (hd : 0 < 1 + vn * cos phi) (u w : PS) :
    form (swL vn k phi len u) (swL vn k phi len w) =
      ((rsMatrix vn phi len).1 * (rsMatrix vn phi len).2.2.2 - (rsMatrix vn phi len).2.1 * (rsMatrix vn phi len).2.2.1) *
        ((u.x * w.px - u.px * w.x) + (u.y * w.py - u.py * w.y)) + 1 / (1 + vn * cos phi) * (u.ct * w.dp - u.dp * w.ct) := by
  have := hd.ne'
  simp only [form, swL]
  field_simp
  ring

theorem der_unique {d e : ℝ → PS} {a b : PS} {t : ℝ} (h : ∀ᶠ s in nhds t, (Outcome.ok (d s) : Outcome Unit PS) = .ok (e s))
    (hd : Der d a t) (he : Der e b t) : a = b := by
  have g : ∀ f : PS → ℝ, (fun s => f (d s)) =ᶠ[nhds t] fun s => f (e s) := fun f => by
    filter_upwards [h] with s hs
    rw [Outcome.ok.inj hs]
  have k : ∀ (f : PS → ℝ) (p q : ℝ), HasDerivAt (fun s => f (d s)) p t → HasDerivAt (fun s => f (e s)) q t → p = q :=
    fun f p q hp hq => (hp.congr_of_eventuallyEq (g f).symm).unique hq
  obtain ⟨a1, a2, a3, a4, a5, a6⟩ := hd
  obtain ⟨b1, b2, b3, b4, b5, b6⟩ := he
  ext
  · exact k PS.x _ _ a1 b1
  · exact k PS.px _ _ a2 b2
  · exact k PS.y _ _ a3 b3
  · exact k PS.py _ _ a4 b4
  · exact k PS.ct _ _ a5 b5
  · exact k PS.dp _ _ a6 b6

theorem rs_scales {vn k phi len : ℝ} (hc : cos phi ≠ 0) (hv : vn ≠ 0) (hl : len ≠ 0) (hd : 0 < 1 + vn * cos phi) :
    Scales (1 / (1 + vn * cos phi)) (rsMap vn 0 k phi 0 len) origin ↔ sin (swAlpha vn phi) = 0 ∨ sin phi = cos phi := by
  have hvc := mul_ne_zero hv hc
  have hd' := hd.ne'
  have det := rs_det hc hv hl hd
  have key : (rsMatrix vn phi len).1 * (rsMatrix vn phi len).2.2.2 - (rsMatrix vn phi len).2.1 * (rsMatrix vn phi len).2.2.1
      = 1 / (1 + vn * cos phi) ↔ sin (swAlpha vn phi) = 0 ∨ sin phi = cos phi := by
    rw [eq_div_iff hd', det]
    constructor
    · intro h
      have h1 : 2 * sin (swAlpha vn phi) ^ 2 * cos phi * (sin phi - cos phi) = 0 := by linarith
      rcases mul_eq_zero.mp h1 with h2 | h2
      · left
        rcases mul_eq_zero.mp h2 with h3 | h3
        · rcases mul_eq_zero.mp h3 with h4 | h4
          · norm_num at h4
          · exact pow_eq_zero_iff (two_ne_zero) |>.mp h4
        · exact absurd h3 hc
      · right; linarith
    · rintro (h | h) <;> simp [h]
  constructor
  · rintro ⟨L, hL, fL⟩
    refine key.mp ?_
    have lin : ∀ u : PS, L u = swL vn k phi len u := fun u => by
      let c : ℝ → PS := fun s => ⟨u.x * s, u.px * s, u.y * s, u.py * s, u.ct * s, u.dp * s⟩
      have h0 : c 0 = origin := by ext <;> simp [c, origin]
      have m : ∀ a : ℝ, HasDerivAt (fun s : ℝ => a * s) a 0 := fun a => by simpa using (hasDerivAt_id (0 : ℝ)).const_mul a
      have hu : Der c u 0 := ⟨m _, m _, m _, m _, m _, m _⟩
      obtain ⟨d, e1, e2⟩ := hL c u 0 h0 hu
      obtain ⟨d', f1, f2⟩ := rs_der (k := k) hvc hl hd h0 hu
      refine der_unique ?_ e2 f2
      filter_upwards [e1, f1] with s a b
      rw [← a, b]
    have := fL ⟨1, 0, 0, 0, 0, 0⟩ ⟨0, 1, 0, 0, 0, 0⟩
    rw [lin, lin, sw_form _ _ _ _ hd] at this
    simp only [form] at this
    linear_combination this
  · intro h
    refine ⟨swL vn k phi len, fun c u t hc' hu => rs_der hvc hl hd hc' hu, fun u w => ?_⟩
    rw [sw_form _ _ _ _ hd, key.mpr h, form]
    ring

end Verif.Symplectic
