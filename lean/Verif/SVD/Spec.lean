import Mathlib.Algebra.BigOperators.Group.Finset.Basic
import Mathlib.Data.Real.Basic
import Mathlib.LinearAlgebra.Matrix.Defs

/-! # The matrix a bidiagonal matrix and two sets of columns stand for -/

namespace Verif.SVD.Spec

open Finset

/-- The element of `M B` in the row `u` of `M` and the column `c`, where `B` has the diagonal `w` and the elements `e c`
above `w c`. -/
def element (w e u : ℕ → ℝ) (c : ℕ) : ℝ := w c * u c + if c = 0 then 0 else e c * u (c - 1)

/-- The product of two rows of `n` columns. -/
def dot (n : ℕ) (u v : ℕ → ℝ) : ℝ := ∑ k ∈ range n, u k * v k

/-- The element of `M B Sᵀ` for the row `u` of `M` and the row `v` of `S`, with `n` columns. -/
def product (n : ℕ) (w e u v : ℕ → ℝ) : ℝ := ∑ c ∈ range n, v c * element w e u c

/-- The first `n` rows and columns as a matrix. -/
def matrix (n : ℕ) (A : ℕ → ℕ → ℝ) : Matrix (Fin n) (Fin n) ℝ := fun i j => A i j

end Verif.SVD.Spec
