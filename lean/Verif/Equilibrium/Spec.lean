import Mathlib.MeasureTheory.Integral.IntervalIntegral.TrapezoidalRule
import Mathlib.LinearAlgebra.Matrix.NonsingularInverse
import Mathlib.Analysis.Complex.Basic

/-!
# Specification: symplectic rows and the matrix of moments
-/

namespace Verif.Equilibrium.Spec

/-- The form `x₀ y₁ - x₁ y₀ + …` of two rows or columns. -/
def form {K : Type} [CommRing K] (x y : Fin 6 → K) : K :=
  (x 0 * y 1 - x 1 * y 0) + (x 2 * y 3 - x 3 * y 2) + (x 4 * y 5 - x 5 * y 4)

/-- Multiplication with the matrix of the form. -/
def turn {K : Type} [CommRing K] (y : Fin 6 → K) : Fin 6 → K := fun i =>
  match i with
  | 0 => y 1 | 1 => -y 0 | 2 => y 3 | 3 => -y 2 | 4 => y 5 | 5 => -y 4

end Verif.Equilibrium.Spec
