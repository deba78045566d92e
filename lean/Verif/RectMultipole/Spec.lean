import Verif.Multipole.Spec
import Verif.RectMultipole.Model
import Verif.TransportMaps.Spec

/-!
# Specification for rectangular multipoles

Written without reference to the steps: the field as a power series, straight lines, deflections by an integrated
field, and the motion in a gradient.
-/

namespace Verif.RectMultipole.Spec
open Verif Verif.Multipole Verif.Multipole.Spec Verif.Symplectic Verif.Symplectic.Spec Verif.TransportMaps

noncomputable section

/-- The field at the place of a particle: vertical component, and horizontal component as imaginary part. -/
def fieldAt (m : MField ℝ) (v : PS) : Cx ℝ := ofReal m.b0 * series m.terms (-1) ⟨v.x, v.y⟩

/-- The field without its component of order `n`. -/
def without (m : MField ℝ) (n : Nat) : MField ℝ := { m with terms := m.terms.set n 0 }

/-- The pure gradient among the components of a field. -/
def gradientOf (m : MField ℝ) : MField ℝ := ⟨m.b0, [0, m.terms.getD 1 0]⟩

/-- The pure sextupole among the components of a field. -/
def sextupoleOf (m : MField ℝ) : MField ℝ := ⟨m.b0, [0, 0, m.terms.getD 2 0]⟩

/-- The factor from the field to the curvature of orbits: charge over momentum. -/
def perField (ec : ℝ) (b : Bunch) : ℝ := b.q * ec / b.p0

/-- A straight line, transverse coordinates being slopes. -/
def line (l : ℝ) (v : PS) : PS := { v with x := v.x + l * v.px, y := v.y + l * v.py }

/-- A straight line with the delay to second order. -/
def lineDelay (l : ℝ) (v : PS) : PS := { line l v with ct := v.ct - l / 2 * (v.px ^ 2 + v.py ^ 2) }

/-- Deflection by an integrated field in units of the reference momentum: change of slopes. -/
def bendSlopes (k : ℝ) (F : Cx ℝ) (v : PS) : PS :=
  { v with px := v.px - k * F.re / (1 + v.dp), py := v.py + k * F.im / (1 + v.dp) }

/-- Deflection by an integrated field in units of the reference momentum: change of momenta. -/
def bendMomenta (k : ℝ) (F : Cx ℝ) (v : PS) : PS := { v with px := v.px - k * F.re, py := v.py + k * F.im }

/-- The linear motion in the gradient `k` (real part normal, imaginary part skew): the field is `k (x + i y)`. -/
def InGradient (k : Cx ℝ) (o : ℝ → PS) : Prop := ∀ s, Symplectic.Spec.Der o
  ⟨(o s).px, -(k.re * (o s).x - k.im * (o s).y), (o s).py, k.re * (o s).y + k.im * (o s).x, 0, 0⟩ s

/-- The orbit of a particle through magnets of one kind and any length. -/
def Orbit (F : ℝ → PS → Outcome Unit (PS × MField ℝ)) (v : PS) (o : ℝ → PS) : Prop :=
  o 0 = v ∧ ∀ s, ∃ m, F s v = .ok (o s, m)

/-- The particle after a step. -/
def particle (r : Outcome Unit (PS × MField ℝ)) : Outcome Unit PS := r.bind fun r => .ok r.1

/-- In the plane of symmetry. -/
def Flat (v : PS) : Prop := v.y = 0 ∧ v.py = 0

/-- A field without skew components. -/
def Normal (m : MField ℝ) : Prop := ∀ n, (m.terms.getD n 0).im = 0

/-- The strength of the opposite skew component. -/
def conj (k : Cx ℝ) : Cx ℝ := ⟨k.re, -k.im⟩

/-- The field of a gradient with a skew component. -/
def gradBx (k : Cx ℝ) : ℝ → ℝ → ℝ := fun x y => k.re * y + k.im * x

/-- The other component. -/
def gradBy (k : Cx ℝ) : ℝ → ℝ → ℝ := fun x y => k.re * x - k.im * y

/-- The field of a sextupole with a skew component. -/
def sextBx (k : Cx ℝ) : ℝ → ℝ → ℝ := fun x y => k.re * (2 * x * y) + k.im * (x ^ 2 - y ^ 2)

/-- The other component. -/
def sextBy (k : Cx ℝ) : ℝ → ℝ → ℝ := fun x y => k.re * (x ^ 2 - y ^ 2) - k.im * (2 * x * y)

end

end Verif.RectMultipole.Spec
