import Mathlib.Algebra.Field.Basic
import Mathlib.Algebra.BigOperators.Group.List.Basic

/-!
# Specification of charge distributions

A distribution of charge is a list of charges with their coordinates; nothing of the model is used.
-/

namespace Verif.Slices.Spec

variable {K : Type} [Field K]

/-- Point charges with six coordinates. -/
abbrev Cloud (K : Type) := List (K × (Nat → K))

/-- The charge of a distribution. -/
def total (l : Cloud K) : K := (l.map (·.1)).sum

/-- The charge times its `i`th coordinate. -/
def first (l : Cloud K) (i : Nat) : K := (l.map fun p => p.1 * p.2 i).sum

/-- The mean of a coordinate. -/
def mean (l : Cloud K) (i : Nat) : K := first l i / total l

/-- The charge times the product of two deviations from a given centre. -/
def second (l : Cloud K) (m : Nat → K) (i j : Nat) : K := (l.map fun p => p.1 * ((p.2 i - m i) * (p.2 j - m j))).sum

/-- The covariance of two coordinates. -/
def cov (l : Cloud K) (i j : Nat) : K := second l (mean l) i j / total l

/-- Physical momentum of a deviation `dp`. -/
def momentum (p0 dp : K) : K := p0 * (1 + dp)

/-- Physical time of arrival (times c); `ct` positive is early. -/
def arrival (ct0 ct : K) : K := ct0 - ct

/-- The plane rotation of the transverse position and direction of a point charge after a displacement, with a
deflection. -/
def planeMap (r11 r12 r21 r22 dx dy tx ty : K) (p : Nat → K) : Nat → K
  | 0 => r11 * (p 0 - dx) + r12 * (p 2 - dy)
  | 1 => r11 * p 1 + r12 * p 3 + tx
  | 2 => r21 * (p 0 - dx) + r22 * (p 2 - dy)
  | 3 => r21 * p 1 + r22 * p 3 + ty
  | n => p n

end Verif.Slices.Spec
