import Mathlib.Data.Matrix.Mul
import Mathlib.Algebra.BigOperators.Fin
import Mathlib.Algebra.Order.Field.Basic

/-!
# Specification: closed orbit, transfer matrix and dispersion
-/

namespace Verif.Orbit.Spec

variable {K : Type} [Field K]

/-- The map of a linear lattice: a matrix and an offset. -/
def Linear (f : (Fin 6 → K) → Fin 6 → K) (r : Matrix (Fin 6) (Fin 6) K) (d : Fin 6 → K) : Prop :=
  ∀ p i, f p i = ∑ j, r i j * p j + d i

/-- The first `c` coordinates come back. -/
def Closed (c : Nat) (f : (Fin 6 → K) → Fin 6 → K) (p : Fin 6 → K) : Prop := ∀ i : Fin 6, i.val < c → f p i = p i

/-- The coordinates from `c` on are the same. -/
def SameRest (c : Nat) (p q : Fin 6 → K) : Prop := ∀ i : Fin 6, c ≤ i.val → p i = q i

/-- A solution of least squares: the residual is orthogonal to the columns (shown for the solver in `LU.svd_normal`). -/
def LeastSquares {c : Nat} (a : Matrix (Fin c) (Fin c) K) (b x : Fin c → K) : Prop :=
  ∀ k, ∑ m, a m k * (∑ j, a m j * x j - b m) = 0

/-- A dispersion which repeats itself after the turn. -/
def Periodic (r : Matrix (Fin 6) (Fin 6) K) (D : Fin 4 → K) : Prop :=
  ∀ i : Fin 4, ∑ j : Fin 4, r (Fin.castLE (by decide) i) (Fin.castLE (by decide) j) * D j + r (Fin.castLE (by decide) i) 5 = D i

/-- The integral of the square of a quantity which is linear within each component: start value, lengths and end values. -/
def squareIntegral : K → List (K × K) → K
  | _, [] => 0
  | a, (l, b) :: r => l * (a * a + a * b + b * b) / 3 + squareIntegral b r

/-- The integral of the square by trapezia. -/
def trapezia : K → List (K × K) → K
  | _, [] => 0
  | a, (l, b) :: r => l * (a * a + b * b) / 2 + trapezia b r

/-- The length. -/
def total (l : List (K × K)) : K := (l.map (·.1)).sum

end Verif.Orbit.Spec
