import Mathlib.Algebra.BigOperators.Group.Finset.Basic
import Mathlib.Algebra.Field.Defs

/-! # Sums of products of rows and columns -/

namespace Verif.Dense.Spec

open Finset

variable {K : Type} [Field K]

/-- The element `i, j` of the product of two matrices, with `n` terms. -/
def product (n : ℕ) (A B : ℕ → ℕ → K) (i j : ℕ) : K := ∑ k ∈ range n, A i k * B k j

/-- A matrix or its transpose. -/
def op (t : Bool) (A : ℕ → ℕ → K) : ℕ → ℕ → K := fun i j => if t then A j i else A i j

end Verif.Dense.Spec
