import Mathlib.Algebra.Ring.Defs
import Verif.Common.Outcome

/-!
# Model of channel arrays, `RWChannelState`, `LinearFBSystem` and `CorrectorWinding`

Sources: `Merlin++/Channels.cpp`, `Merlin++/Channels.h`, `Merlin++/RWChannelState.cpp`,
`Merlin++/LinearFBSystem.cpp`, `Merlin++/CorrectorWinding.cpp`, `Merlin++/MultipoleField.cpp`.

Simplifications: `σ` is the state of the machine (all elements), doubles are numbers of a ring `K`,
vectors are lists.  A channel reads a number from the machine and writes one.  The pseudo-inverse
computed by `SVDMatrix` is an arbitrary function between vectors.
-/

namespace Verif.Feedback
open Verif

variable {σ K : Type}

/-- `RWChannel` (Channels.h 47-62); `ROChannel` (Channels.h 22-39) is one whose `write` is unused. -/
structure Chan (σ K : Type) where
  read : σ → K
  write : K → σ → σ

/-- `RWChannel::Increment` (Channels.h 201-206). -/
def Chan.increment [Add K] (c : Chan σ K) (d : K) (s : σ) : K × σ :=
  let v := c.read s + d
  (v, c.write v s)

/-- `ROChannelArray::ReadAll` (Channels.cpp 26-33) into a vector of the right size. -/
def readAll (cs : List (Chan σ K)) (s : σ) : List K := cs.map (fun c => c.read s)

/-- The loop of `RWChannelArray::WriteAll` (Channels.cpp 102-105). -/
def writeLoop : List (Chan σ K) → List K → σ → σ
  | c :: cs, v :: vs, s => writeLoop cs vs (c.write v s)
  | _, _, s => s

/-- `RWChannelArray::WriteAll(const RealVector&)` (Channels.cpp 99-106). -/
def writeAll (cs : List (Chan σ K)) (vs : List K) (s : σ) : Outcome Empty σ :=
  if vs.length = cs.length then .ok (writeLoop cs vs s) else .ub

/-- The loop of `RWChannelArray::IncrementAll` (Channels.cpp 119-122). -/
def incrementLoop [Add K] : List (Chan σ K) → List K → σ → σ
  | c :: cs, v :: vs, s => incrementLoop cs vs (c.increment v s).2
  | _, _, s => s

/-- `RWChannelArray::IncrementAll(const RealVector&)` (Channels.cpp 116-123). -/
def incrementAll [Add K] (cs : List (Chan σ K)) (vs : List K) (s : σ) : Outcome Empty σ :=
  if vs.length = cs.length then .ok (incrementLoop cs vs s) else .ub

/-- `RWChannelState` (RWChannelState.h 15-28). -/
structure ChanState (σ K : Type) where
  chs : List (Chan σ K)
  values : List K

/-- `RWChannelState::RWChannelState` and `CacheCurrentState` (RWChannelState.cpp 10-14, 21-24). -/
def ChanState.make (chs : List (Chan σ K)) (s : σ) : ChanState σ K := ⟨chs, readAll chs s⟩

/-- `RWChannelState::Reset` (RWChannelState.cpp 16-19). -/
def ChanState.reset (st : ChanState σ K) (s : σ) : Outcome Empty σ := writeAll st.chs st.values s

/-! ## `LinearFBSystem` -/

/-- Members of `LinearFBSystem` (LinearFBSystem.h 61-75). -/
structure FB (σ K : Type) where
  gain : K
  signals : List (Chan σ K)
  actuators : List (Chan σ K)
  setpoints : List K
  mi : List K → List K
  queue : Option (List (List K))
  cached : Option (List K)

/-- `LinearFBSystem::LinearFBSystem` (LinearFBSystem.cpp 26-39). -/
def FB.make [Zero K] [One K] (signals actuators : List (Chan σ K)) (mi : List K → List K) : FB σ K :=
  ⟨1, signals, actuators, List.replicate signals.length 0, mi, none, none⟩

/-- `LinearFBSystem::SignalsToSetpoints` (LinearFBSystem.cpp 57-60). -/
def FB.signalsToSetpoints (f : FB σ K) (s : σ) : FB σ K :=
  { f with setpoints := readAll f.signals s }

/-- `LinearFBSystem::StoreActuators` (LinearFBSystem.cpp 62-71). -/
def FB.store (f : FB σ K) (s : σ) : FB σ K := { f with cached := some (readAll f.actuators s) }

/-- `LinearFBSystem::RestoreActuators` (LinearFBSystem.cpp 73-77). -/
def FB.restore (f : FB σ K) (s : σ) : Outcome Empty σ :=
  match f.cached with
  | none => .ub
  | some v => writeAll f.actuators v s

/-- `LinearFBSystem::SetGain` (LinearFBSystem.cpp 89-92). -/
def FB.setGain (f : FB σ K) (g : K) : FB σ K := { f with gain := g }

/-- `LinearFBSystem::SetSetpoints` (LinearFBSystem.cpp 121-125). -/
def FB.setSetpoints (f : FB σ K) (s0 : List K) : Outcome Empty (FB σ K) :=
  if s0.length = f.setpoints.length then .ok { f with setpoints := s0 } else .ub

/-- The new actuator values (LinearFBSystem.cpp 101-107). -/
def FB.newActs [CommRing K] (f : FB σ K) (s : σ) : List K :=
  let S := List.zipWith (· - ·) (readAll f.signals s) f.setpoints
  List.zipWith (· + ·) (readAll f.actuators s) ((f.mi S).map (fun x => -f.gain * x))

/-- `LinearFBSystem::Apply` (LinearFBSystem.cpp 99-119). -/
def FB.apply [CommRing K] (f : FB σ K) (s : σ) : Outcome Empty (FB σ K × σ) :=
  match f.queue with
  | some q =>
    match q ++ [f.newActs s] with
    | [] => .ub
    | front :: rest => do
      let s' ← writeAll f.actuators front s
      pure ({ f with queue := some rest }, s')
  | none => do
    let s' ← writeAll f.actuators (f.newActs s) s
    pure (f, s')

/-- `LinearFBSystem::SetPulseDelay` (LinearFBSystem.cpp 150-173). -/
def FB.setPulseDelay [Zero K] (f : FB σ K) (n : Nat) : Outcome Empty (FB σ K) :=
  if n = 0 then .ub
  else if n = 1 then .ok { f with queue := none }
  else
    let q := List.replicate (n - 1) (List.replicate f.actuators.length 0)
    .ok { f with queue := some q }

/-- A sequence of pulses: at pulse `k` the machine changes by `env k` (tracking of the beam), then
the feedback is applied. -/
def FB.pulses [CommRing K] (f : FB σ K) (env : Nat → σ → σ) (s : σ) :
    Nat → Outcome Empty (FB σ K × σ)
  | 0 => .ok (f, s)
  | k + 1 => do
    let p ← f.pulses env s k
    p.1.apply (env k p.2)

/-! ## `CorrectorWinding` -/

/-- The dipole component of the field of a magnet: `expansion[0]`, the field scale and the length
of the magnet. -/
structure Magnet (K : Type) where
  re : K
  im : K
  scale : K
  len : K

/-- `MultipoleField::SetComponent(0, bn, an)` (MultipoleField.cpp 148-158) for the dipole component
with `B0 ≠ 0`: both parts of the coefficient are set, divided by the field scale. -/
def Magnet.setComponent [Div K] (m : Magnet K) (bn an : K) : Magnet K :=
  { m with re := bn / m.scale, im := an / m.scale }

/-- `CorrectorWinding::SetBx` (CorrectorWinding.cpp 15-24). -/
def Magnet.setBx [Div K] [Zero K] [DecidableEq K] (m : Magnet K) (v : K) : Magnet K :=
  if m.scale = 0 then m else m.setComponent 0 (v / m.len)

/-- `CorrectorWinding::SetBy` (CorrectorWinding.cpp 26-35). -/
def Magnet.setBy [Div K] [Zero K] [DecidableEq K] (m : Magnet K) (v : K) : Magnet K :=
  if m.scale = 0 then m else m.setComponent (v / m.len) 0

/-- `CorrectorWinding::GetBx` (CorrectorWinding.cpp 37-40) with `GetComponent`
(MultipoleField.cpp 160-163). -/
def Magnet.getBx [Mul K] (m : Magnet K) : K := m.scale * m.im * m.len

/-- `CorrectorWinding::GetBy` (CorrectorWinding.cpp 42-45). -/
def Magnet.getBy [Mul K] (m : Magnet K) : K := m.scale * m.re * m.len

/-- The channels registered for corrector windings (StdChannelDefs.cpp 60-61). -/
def chanX [Mul K] [Div K] [Zero K] [DecidableEq K] : Chan (Magnet K) K :=
  ⟨Magnet.getBy, fun v m => m.setBy v⟩

def chanY [Mul K] [Div K] [Zero K] [DecidableEq K] : Chan (Magnet K) K :=
  ⟨Magnet.getBx, fun v m => m.setBx v⟩

end Verif.Feedback
