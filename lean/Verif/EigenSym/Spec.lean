import Mathlib.Algebra.BigOperators.Group.Finset.Basic
import Mathlib.Data.Real.Basic

/-! # What the eigenvalues of a tridiagonal matrix are -/

namespace Verif.EigenSym.Spec

open Finset

/-- The product of the rows `u` and `v` with `n` entries. -/
def dot (n : ℕ) (u v : ℕ → ℝ) : ℝ := ∑ k ∈ range n, u k * v k

/-- The form `u T vᵀ` of the symmetric tridiagonal matrix `T` with the diagonal `d` and, beside `d k` and `d (k + 1)`,
the element `e (k + 1)`, as `tqli` is given it. -/
def form (n : ℕ) (d e u v : ℕ → ℝ) : ℝ :=
  ∑ k ∈ range n, d k * (u k * v k) + ∑ k ∈ range (n - 1), e (k + 1) * (u k * v (k + 1) + u (k + 1) * v k)

/-- The sum of the squares of the elements of `T`. -/
def squares (n : ℕ) (d e : ℕ → ℝ) : ℝ := ∑ k ∈ range n, d k ^ 2 + 2 * ∑ k ∈ range (n - 1), e (k + 1) ^ 2

/-- The element `a b` of `Z D Zᵀ` with the diagonal matrix `D` of the `d k`. -/
def recombined (n : ℕ) (d : ℕ → ℝ) (Z : ℕ → ℕ → ℝ) (a b : ℕ) : ℝ := ∑ k ∈ range n, d k * (Z a k * Z b k)

/-- The symmetric matrix whose lower triangle is that of `a`. -/
def lower (a : ℕ → ℕ → ℝ) (r c : ℕ) : ℝ := if c ≤ r then a r c else a c r

end Verif.EigenSym.Spec
