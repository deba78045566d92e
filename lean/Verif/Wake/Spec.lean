import Verif.Wake.Model
import Mathlib.Algebra.BigOperators.Group.Finset.Basic

/-!
# Specification of slices and of the wake of a bunch
-/

namespace Verif.Wake.Spec
open Verif.Wake

variable {K : Type} [Field K] [LinearOrder K]

/-- The particles in a half open interval. -/
def within (l : List (Part K)) (a b : K) : List (Part K) := l.filter fun p => decide (a ≤ p.ct ∧ p.ct < b)

/-- In order of `ct`. -/
def InOrder (l : List (Part K)) : Prop := l.Pairwise fun p q => p.ct ≤ q.ct

/-- What is known of a sorting function. -/
def Sorts (sort : List (Part K) → List (Part K)) : Prop := ∀ l, (sort l).Perm l ∧ InOrder (sort l)

/-- The wake at boundary `i` of `nb` slices of width `dz` from `z0` on: every particle of slice `i` and of those after it
counts with its charge `q`, the weight `u` and the potential at the distance of the centre of its slice. -/
def bunchWake (W : K → K) (u : Part K → K) (q z0 dz : K) (nb : Nat) (l : List (Part K)) (i : Nat) : K :=
  ∑ j ∈ Finset.range nb, if i ≤ j then
    q * W ((z0 + (j + 1 / 2) * dz) - (z0 + i * dz)) * ((within l (z0 + j * dz) (z0 + (j + 1) * dz)).map u).sum else 0

/-- The straight line between the values at the boundaries of slice `n`. -/
def line (w : Nat → K) (z0 dz : K) (n : Nat) (ct : K) : K :=
  w n * ((z0 + (n + 1) * dz - ct) / dz) + w (n + 1) * ((ct - (z0 + n * dz)) / dz)

end Verif.Wake.Spec
