import Verif.LU.Model
import Mathlib.Algebra.BigOperators.Group.Finset.Basic
import Mathlib.LinearAlgebra.Matrix.Determinant.Basic

/-!
# Specification of linear equations
-/

namespace Verif.LU.Spec
open Verif.LU

variable {K : Type} [Field K]

/-- `A x = b` for the first `n` rows and columns. -/
def Solves (n : Nat) (a : Nat → Nat → K) (x b : Nat → K) : Prop :=
  ∀ i < n, ∑ c ∈ Finset.range n, a i c * x c = b i

/-- A matrix which maps no vector but zero to zero. -/
def Regular (n : Nat) (a : Nat → Nat → K) : Prop := ∀ x, Solves n a x (fun _ => 0) → ∀ i < n, x i = 0

/-- The matrix as a square. -/
def square (n : Nat) (a : Nat → Nat → K) : Matrix (Fin n) (Fin n) K := Matrix.of fun i j => a i j

/-- The sum of the squares of the residuals. -/
def residual {m n : Nat} (a : Matrix (Fin m) (Fin n) K) (x : Fin n → K) (b : Fin m → K) : K :=
  ∑ i, (a.mulVec x i - b i) * (a.mulVec x i - b i)

end Verif.LU.Spec
