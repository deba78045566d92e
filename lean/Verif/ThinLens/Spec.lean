import Verif.Symplectic.Spec
import Verif.ThinLens.Model

/-!
# Specification for the standard integrators

Motion in magnets, structures and monitors, written without reference to the matrices.
-/

namespace Verif.ThinLens.Spec
open Verif Verif.Symplectic Verif.Symplectic.Spec Verif.Multipole Real

noncomputable section

/-- The linear equations of motion in a magnet of curvature `h` and gradient `k` for a particle whose momentum deviates
by the fraction `d` from that of the orbit. -/
def bendMotion (h k d : ℝ) (v : PS) : PS := ⟨v.px, -(k + h ^ 2) * v.x + h * d, v.py, k * v.y, -h * v.x, 0⟩

/-- The field is a dipole without skew part, or one with a gradient without skew part. -/
def Linear (m : MField ℝ) (b b1 : ℝ) : Prop := m.terms = [⟨b, 0⟩] ∧ b1 = 0 ∨ m.terms = [⟨b, 0⟩, ⟨b1, 0⟩]

/-- Straight motion along a length. -/
def straight (s : ℝ) (v : PS) : PS := { v with x := v.x + s * v.px, y := v.y + s * v.py }

/-- The momentum of a particle. -/
def momentum (p0 : ℝ) (v : PS) : ℝ := p0 * (1 + v.dp)

/-- The angular momentum about the axis of a solenoid, canonical. -/
def angular (v : PS) : ℝ := v.x * v.py - v.y * v.px

/-- The energy of the oscillation in the rotating frame of a solenoid of strength `k`. -/
def oscillation (k : ℝ) (v : PS) : ℝ := v.px ^ 2 + v.py ^ 2 + (k / 2) ^ 2 * (v.x ^ 2 + v.y ^ 2)

/-- The motion in a solenoid of strength `k` (field over rigidity, with the sign of the charge) in canonical momenta. -/
def solMotion (k : ℝ) (v : PS) : PS :=
  ⟨v.px + k / 2 * v.y, -(k / 2) ^ 2 * v.x + k / 2 * v.py, v.py - k / 2 * v.x, -(k / 2) ^ 2 * v.y - k / 2 * v.px, 0, 0⟩

/-- The number of steps which end beyond a point. -/
def endsBeyond (p : ℝ) : ℝ → List ℝ → Nat
  | _, [] => 0
  | s, d :: l => (open Classical in if p < s + d then 1 else 0) + endsBeyond p (s + d) l

/-- The class itself or one of those it is derived from, by the class declarations (Collimator.h, CrabMarker.h,
HollowElectronLens.h, BPM.h, RMSProfileMonitor.h, StandardMultipoles.h, CorrectorDipoles.h); `AcceleratorComponent` is
not listed. -/
def IsA : Cls → Cls → Prop
  | .collimator, .drift | .crabMarker, .drift | .hollowLens, .drift => True
  | .bpm, .monitor | .profile, .monitor => True
  | .quadrupole, .rectMultipole | .skewQuadrupole, .rectMultipole | .sextupole, .rectMultipole => True
  | .skewSextupole, .rectMultipole | .octupole, .rectMultipole | .decapole, .rectMultipole => True
  | .xcor, .rectMultipole | .ycor, .rectMultipole => True
  | c, d => c = d

end

end Verif.ThinLens.Spec
