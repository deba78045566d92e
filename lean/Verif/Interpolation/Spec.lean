import Verif.Interpolation.Model

/-!
# Specification of interpolation
-/

namespace Verif.Interpolation.Spec
open Verif Verif.Interpolation

variable {K : Type} [Field K] [LinearOrder K]

/-- The points given by two vectors. -/
def points (xs ys : List K) : List (Pt K) := List.zipWith Pt.mk xs ys

/-- `v` lies at `x` on the straight line between two neighbouring points around `x`. -/
def OnLine (pts : List (Pt K)) (x v : K) : Prop :=
  ∃ a ∈ pts, ∃ b ∈ pts, a.x < b.x ∧ a.x ≤ x ∧ x ≤ b.x ∧ (∀ c ∈ pts, c.x ≤ a.x ∨ b.x ≤ c.x) ∧
    v * (b.x - a.x) = a.y * (b.x - x) + b.y * (x - a.x)

/-- The value of the polynomial with the given coefficients, lowest first. -/
def poly (c : List K) (x : K) : K := c.foldr (fun a s => a + x * s) 0

end Verif.Interpolation.Spec
