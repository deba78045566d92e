import Verif.Beam.Model
import Verif.Transport.Spec
import Verif.Bunch.Spec

/-!
# Specification of beam matrices
-/

namespace Verif.Beam.Spec
open Verif Verif.Beam

/-- Dispersion of the six coordinates. -/
def disp (t : BeamData) (i : Nat) : ℝ :=
  match i with | 0 => t.Dx | 1 => t.Dxp | 2 => t.Dy | 3 => t.Dyp | 5 => 1 | _ => 0

/-- Second moments without dispersion: emittance times β, -α and γ in each plane. -/
noncomputable def twiss (t : BeamData) (i j : Nat) : ℝ :=
  match i, j with
  | 0, 0 => t.emit_x * t.beta_x | 0, 1 => -(t.emit_x * t.alpha_x) | 1, 0 => -(t.emit_x * t.alpha_x)
  | 1, 1 => t.emit_x * gamma t.alpha_x t.beta_x
  | 2, 2 => t.emit_y * t.beta_y | 2, 3 => -(t.emit_y * t.alpha_y) | 3, 2 => -(t.emit_y * t.alpha_y)
  | 3, 3 => t.emit_y * gamma t.alpha_y t.beta_y
  | 4, 4 => t.sig_z ^ 2
  | _, _ => 0

/-- Second moments of an uncoupled beam. -/
noncomputable def beamSigma (t : BeamData) (i j : Nat) : ℝ := twiss t i j + disp t i * disp t j * t.sig_dp ^ 2

/-- A beam without coupling between the planes. -/
def Uncoupled (t : BeamData) : Prop := t.c_xy = 0 ∧ t.c_xyp = 0 ∧ t.c_xpy = 0 ∧ t.c_xpyp = 0

/-- A sample of vectors with mean zero and covariances of independent variables of variance one. -/
def Standard (us : List (Nat → ℝ)) : Prop :=
  us ≠ [] ∧ (∀ i, i < 6 → Bunch.Spec.mean (us.map fun u => u i) = 0) ∧
    ∀ i j, i < 6 → j < 6 → Bunch.Spec.cov us i j = if i = j then 1 else 0

end Verif.Beam.Spec
