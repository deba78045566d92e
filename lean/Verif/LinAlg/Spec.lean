import Verif.LinAlg.Model

/-!
# Specification of inverses, symplectic matrices and eigenvectors
-/

namespace Verif.LinAlg.Spec
open Verif.LinAlg

/-- The form of the phase space: `x₀ y₁ - x₁ y₀ + …` for the three planes. -/
def form {K : Type} [CommRing K] (x y : Fin 6 → K) : K :=
  (x 0 * y 1 - x 1 * y 0) + (x 2 * y 3 - x 3 * y 2) + (x 4 * y 5 - x 5 * y 4)

/-- A matrix keeps the form. -/
def Symplectic {K : Type} [CommRing K] (a : Matrix (Fin 6) (Fin 6) K) : Prop :=
  ∀ x y, form (a.mulVec x) (a.mulVec y) = form x y

/-- `v` is an eigenvector. -/
def Eigen (m : Matrix (Fin 6) (Fin 6) ℂ) (lam : ℂ) (v : Fin 6 → ℂ) : Prop := ∀ i, ∑ j, m i j * v j = lam * v i

end Verif.LinAlg.Spec
