import Verif.Coupler.Model
import Verif.Wake.Spec

/-! Specification: the kicks of couplers. -/

namespace Verif.Coupler.Spec
open Verif.Wake Verif.Wake.Spec Verif.Coupler

variable {K : Type} [Field K] [LinearOrder K]

/-- The mean of a coordinate. -/
def mean (u : Part K → K) (l : List (Part K)) : K := (l.map u).sum / l.length

/-- The particles of slice `i`. -/
def inSlice (l : List (Part K)) (z0 dz : K) (i : Nat) : List (Part K) := within l (z0 + i * dz) (z0 + (i + 1) * dz)

/-- The charge in slice `i` and after it, for particles of charge `q`. -/
def chargeFrom (q z0 dz : K) (nb : Nat) (l : List (Part K)) (i : Nat) : K :=
  ∑ j ∈ Finset.range nb, if i ≤ j then q * (inSlice l z0 dz j).length else 0

/-- The force per length at boundary `i` but the last: the accelerating voltage times the kick of the couplers at phase `phase`, the charge
from there on times the wake of the couplers, both over the length, and the wake of the structure. -/
def force (c : Combined K) (V phase q z0 dz clen : K) (nb : Nat) (l : List (Part K)) (pick : K × K → K) (u : Part K → K) (i : Nat) : K :=
  let x := mean Part.x (inSlice l z0 dz i)
  let y := mean Part.y (inSlice l z0 dz i)
  V * pick (c.rf x y phase) / clen + chargeFrom q z0 dz nb l i * pick (c.wxy x y) / clen + bunchWake c.base.trans u q z0 dz nb l i

/-- The phase at the centre of slice `i`, by a phase at the centre of the bunch. -/
def phaseAt (phi k z0 dz : K) (i : Nat) : K := phi + k * (z0 + (i + 1 / 2) * dz)

/-- The field of a component that kicks: that of a travelling wave structure. -/
def field : Kind K → Rf K
  | .tw rf => ⟨rf.phi, rf.V, rf.k⟩
  | .sw _ => ⟨0, 0, 0⟩
  | .bend => ⟨0, 0, 0⟩
  | .other => ⟨0, 0, 0⟩

/-- A component with the potentials of couplers, of number `n`. -/
def Couplers (comp : Component K) (n : Nat) : Prop := ∃ x, comp.wake = some (n, true, x)

end Verif.Coupler.Spec
