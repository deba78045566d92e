import Verif.Transport.Lemmas

/-!
# Composition and motion of the closed form
-/

noncomputable section
namespace Verif.Transport
open Verif Real Verif.LinMap.Spec Verif.Transport.Spec

set_option maxHeartbeats 2000000 in
theorem closed_compose (a b h Kx Ky : ℝ) (hd : h = 0 ∨ Kx ≠ 0) :
    Same 6 (closed (a + b) h Kx Ky) (mul 6 (closed b h Kx Ky) (closed a h Kx Ky)) := by
  intro i j hi hj
  unfold mul
  rw [sumTo6]
  rcases hd with h0 | h0
  · subst h0
    interval_cases i <;> interval_cases j <;> simp [closed, cK_add, sK_add] <;> ring
  · interval_cases i <;> interval_cases j <;> simp [closed, cK_add, sK_add] <;> field_simp <;> ring

theorem closed_deriv (h Kx Ky : ℝ) (hd : h = 0 ∨ Kx ≠ 0) (l : ℝ) (i j : Nat) (hi : i < 6) (hj : j < 6) :
    HasDerivAt (fun l => closed l h Kx Ky i j) (mul 6 (magnet h Kx Ky) (closed l h Kx Ky) i j) l := by
  have cx := hasDerivAt_cK Kx l
  have sx := hasDerivAt_sK Kx l
  have cy := hasDerivAt_cK Ky l
  have sy := hasDerivAt_sK Ky l
  have k0 := hasDerivAt_const l (0 : ℝ)
  have k1 := hasDerivAt_const l (1 : ℝ)
  have hdisp : h * Kx / Kx = h := by rcases hd with e | e <;> [simp [e]; field_simp]
  have e1 : HasDerivAt (fun l => h * (1 - cK Kx l) / Kx) (h * sK Kx l) l := by
    refine (((cx.const_sub 1).const_mul h).div_const Kx).congr_deriv ?_
    linear_combination (sK Kx l) * hdisp
  have e2 : HasDerivAt (fun l => -h * (1 - cK Kx l) / Kx) (-h * sK Kx l) l := by
    refine (((cx.const_sub 1).const_mul (-h)).div_const Kx).congr_deriv ?_
    linear_combination -(sK Kx l) * hdisp
  have e3 : HasDerivAt (fun l => -h * h * (l - sK Kx l) / Kx) (-h * (h * (1 - cK Kx l) / Kx)) l := by
    refine ((((hasDerivAt_id' l).sub sx).const_mul (-h * h)).div_const Kx).congr_deriv ?_
    ring
  have e4 : HasDerivAt (fun l => h * sK Kx l) (h * cK Kx l) l := sx.const_mul h
  have e5 : HasDerivAt (fun l => -h * sK Kx l) (-h * cK Kx l) l := sx.const_mul (-h)
  have e6 : HasDerivAt (fun l => -Kx * sK Kx l) (-Kx * cK Kx l) l := sx.const_mul (-Kx)
  have e7 : HasDerivAt (fun l => -Ky * sK Ky l) (-Ky * cK Ky l) l := sy.const_mul (-Ky)
  have hdisp' : -Kx * (h * (1 - cK Kx l) / Kx) + h = h * cK Kx l := by
    linear_combination (-(1 - cK Kx l)) * hdisp
  unfold mul
  rw [sumTo6]
  interval_cases i <;> interval_cases j <;> simp only [closed, magnet] <;>
    first
      | exact k0.congr_deriv (by ring)
      | exact k1.congr_deriv (by ring)
      | exact cx.congr_deriv (by ring)
      | exact sx.congr_deriv (by ring)
      | exact cy.congr_deriv (by ring)
      | exact sy.congr_deriv (by ring)
      | exact e1.congr_deriv (by ring)
      | exact e2.congr_deriv (by ring)
      | exact e3.congr_deriv (by ring)
      | exact e4.congr_deriv (by linear_combination -hdisp')
      | exact e5.congr_deriv (by ring)
      | exact e6.congr_deriv (by ring)
      | exact e7.congr_deriv (by ring)

theorem closed_flow (h Kx Ky : ℝ) (hd : h = 0 ∨ Kx ≠ 0) : Flow 6 (magnet h Kx Ky) (fun l => closed l h Kx Ky) :=
  ⟨closed_zero h Kx Ky, fun l i j hi hj => closed_deriv h Kx Ky hd l i j hi hj⟩

/-- The first four rows and columns do not depend on the curvature other than through the strength. -/
theorem closed_four (l h Kx Ky : ℝ) : Same 4 (closed l h Kx Ky) (closed l 0 Kx Ky) := by
  intro i j hi hj
  interval_cases i <;> interval_cases j <;> rfl

/-- Restriction of a motion without coupling to the last two coordinates. -/
theorem flow_restrict {A : Mat} {R : ℝ → Mat} (h : Flow 6 A R)
    (hA : ∀ i, i < 4 → A i 4 = 0 ∧ A i 5 = 0) : Flow 4 A R := by
  refine ⟨fun i j hi hj => h.1 i j (by omega) (by omega), fun l i j hi hj => ?_⟩
  refine (h.2 l i j (by omega) (by omega)).congr_deriv ?_
  unfold mul
  rw [sumTo6, sumTo4, (hA i hi).1, (hA i hi).2]
  ring

end Verif.Transport
