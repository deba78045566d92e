import Verif.MatrixMap.Model

/-!
# Specification of matrix maps
-/

namespace Verif.MatrixMap.Spec
open Verif Verif.Beam Verif.LinMap Verif.MatrixMap

/-- The moments are those of a list of particles. -/
def MomentsOf (S : Moments) (l : List (Nat → ℝ)) : Prop :=
  (∀ i < 6, S.mean i = Bunch.Spec.mean (l.map fun x => x i)) ∧
  ∀ i < 6, ∀ j < 6, sig 6 S.cov i j = Bunch.Spec.cov l i j

/-- A particle with the same physical momentum, relative to `p1` instead of `p0`. -/
noncomputable def express (p0 p1 : ℝ) (x : Nat → ℝ) : Nat → ℝ :=
  fun i => if i = 5 then p0 * (1 + x 5) / p1 - 1 else x i

end Verif.MatrixMap.Spec
