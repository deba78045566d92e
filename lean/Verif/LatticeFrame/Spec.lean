import Verif.LatticeFrame.Model

/-!
# Specification for the frame hierarchy
-/

namespace Verif.LatticeFrame.Spec
open Verif Verif.Frame Verif.LatticeFrame

variable {K G : Type} [Add K] [Zero K] [Group G]

/-- The chain lists distinct frames. -/
def Distinct (c : List (Link K G)) : Prop := (c.map (·.id)).Nodup

/-- No transformation has been applied to the frame. -/
def Undisturbed (x : Link K G) : Prop := x.localT = none

/-- The geometry of the super-frame `y` continues that of the sub-frame `x` sitting at `x.s0`: going
from the origin of `y` to the point `u` of `x` is going to the origin of `x` and from there to `u`,
for every `u` in `x` that the chain can ask for. -/
def Continues (x y : Link K G) (dom : K → Prop) : Prop :=
  ∃ t0, y.geo 0 x.s0 = .ok t0 ∧ ∀ u, dom u → ∃ t, x.geo 0 u = .ok t ∧ y.geo 0 (x.s0 + u) = .ok (t * t0)

/-- The plane `p` of `x` is the plane `p` of its super-frame `y`. -/
def SharesPlane (p : Bool) (x y : Link K G) : Prop :=
  ∃ a b t, x.plane p = .ok a ∧ y.plane p = .ok b ∧ y.geo 0 x.s0 = .ok t ∧ b = a * t

end Verif.LatticeFrame.Spec
