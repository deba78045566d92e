import Mathlib.Algebra.Order.Field.Basic
import Verif.Common.Outcome

/-!
# Model of beam position and profile monitors with their buffers

Sources: `Merlin++/BPMChannel.cpp`, `Merlin++/BPMDataBuffer.h/.cpp`, `Merlin++/AMBufferManager.h`,
`Merlin++/BPM.h/.cpp`, `Merlin++/Monitor.h/.cpp`, `Merlin++/BPMDataBufferServer.cpp`,
`Merlin++/RMSProfileMonitor.cpp`.

Simplifications: monitors and buffers are known by numbers (addresses), the null pointer is `none`;
`std::set` is a list without duplicates; the recorded data is of an arbitrary type.
-/

namespace Verif.Monitor
open Verif

/-! ## Offsets of BPM channels -/

/-- `BPMDataBuffer` (BPMDataBuffer.h 47-53) without the identifier. -/
structure DataBuffer (K : Type) where
  x : K
  xOff : K
  y : K
  yOff : K
  deriving DecidableEq, Repr

/-- The plane of a `BPMChannel` (BPMChannel.cpp 12-16). -/
inductive Plane where
  | X | Y
  deriving DecidableEq, Repr

/-- `BPMDataBuffer::SetOffsets` (BPMDataBuffer.h 68-72). -/
def DataBuffer.setOffsets {K : Type} (b : DataBuffer K) (x y : K) : DataBuffer K :=
  { b with xOff := x, yOff := y }

/-- `BPMDataBuffer::Record` (BPMDataBuffer.cpp 10-14). -/
def DataBuffer.record {K : Type} (b : DataBuffer K) (x y : K) : DataBuffer K :=
  { b with x := x, y := y }

/-- `BPMChannel::Read` (BPMChannel.cpp 23-33). -/
def DataBuffer.read {K : Type} [Add K] (b : DataBuffer K) : Plane → K
  | .X => b.x + b.xOff
  | .Y => b.y + b.yOff

/-- `BPMChannel::SetBPMOffset` (BPMChannel.cpp 35-45). -/
def DataBuffer.setBPMOffset {K : Type} [Zero K] (b : DataBuffer K) (p : Plane) (v : K) :
    DataBuffer K :=
  match p with
  | .X => b.setOffsets v 0
  | .Y => b.setOffsets 0 v

/-! ## Buffers -/

/-- All monitors of one class: the static default buffer (AMBufferManager.h 64), the buffers of each
monitor (AMBufferManager.h 63), the flags of `Monitor` (Monitor.h 115, 135), and everything the
buffers have recorded, oldest first: buffer, monitor, data. -/
structure World (D : Type) where
  dflt : Option Nat
  buffers : Nat → List (Option Nat)
  active : Nat → Bool
  allInactive : Bool
  log : List (Nat × Nat × D)

/-- At program start: no buffers, monitors active (Monitor.cpp 12, 15-18). -/
def World.init (D : Type) : World D := ⟨none, fun _ => [], fun _ => true, false, []⟩

/-- `std::set::insert`. -/
def insert (b : Option Nat) (l : List (Option Nat)) : List (Option Nat) :=
  if b ∈ l then l else l ++ [b]

/-- `AMBufferManager::AddBuffer` (AMBufferManager.h 76-80). -/
def World.addBuffer {D : Type} (w : World D) (m : Nat) (b : Option Nat) : World D :=
  { w with buffers := fun k => if k = m then insert b (w.buffers k) else w.buffers k }

/-- `AMBufferManager::RemoveBuffer` (AMBufferManager.h 82-92). -/
def World.removeBuffer {D : Type} (w : World D) (m : Nat) (b : Option Nat) : World D × Bool :=
  ({ w with buffers := fun k => if k = m then (w.buffers k).filter (· ≠ b) else w.buffers k },
    decide (b ∈ w.buffers m))

/-- `AMBufferManager::ClearAllBuffers` (AMBufferManager.h 94-98). -/
def World.clearAll {D : Type} (w : World D) (m : Nat) : World D :=
  { w with buffers := fun k => if k = m then [] else w.buffers k }

/-- `AMBufferManager::SetDefaultBuffer` (AMBufferManager.h 100-104). -/
def World.setDefault {D : Type} (w : World D) (b : Option Nat) : World D := { w with dflt := b }

/-- `AMBufferManager::empty` (AMBufferManager.h 67-71). -/
def World.isEmpty {D : Type} (w : World D) (m : Nat) : Bool :=
  w.dflt.isNone && (w.buffers m).isEmpty

/-- `Monitor::IsActive` (Monitor.h 138-141). -/
def World.isActive {D : Type} (w : World D) (m : Nat) : Bool := w.active m && !w.allInactive

/-- The loop over the set (AMBufferManager.h 113-116): a null pointer is dereferenced. -/
def recordAll {D : Type} (m : Nat) (d : D) :
    List (Option Nat) → List (Nat × Nat × D) → Outcome Empty (List (Nat × Nat × D))
  | [], log => .ok log
  | none :: _, _ => .ub
  | some b :: bs, log => recordAll m d bs (log ++ [(b, m, d)])

/-- The default buffer records first (AMBufferManager.h 109-112). -/
def World.logDefault {D : Type} (w : World D) (m : Nat) (d : D) : List (Nat × Nat × D) :=
  match w.dflt with
  | some b => w.log ++ [(b, m, d)]
  | none => w.log

/-- `AMBufferManager::SendToBuffers` (AMBufferManager.h 106-117). -/
def World.send {D : Type} (w : World D) (m : Nat) (d : D) : Outcome Empty (World D) := do
  let log ← recordAll m d (w.buffers m) (w.logDefault m d)
  pure { w with log := log }

/-- `BPM::MakeMeasurement` (BPM.cpp 27-61) with `TakeData` (BPM.h 211-214), for the measured data
`d`. -/
def World.measure {D : Type} (w : World D) (m : Nat) (d : D) : Outcome Empty (World D) :=
  if w.isActive m && !w.isEmpty m then w.send m d else .ok w

/-- The calls of a program. -/
inductive Op (D : Type) where
  | add (m : Nat) (b : Option Nat)
  | remove (m : Nat) (b : Option Nat)
  | clear (m : Nat)
  | setDefault (b : Option Nat)
  | setActive (m : Nat) (a : Bool)
  | setAllInactive (a : Bool)
  | measure (m : Nat) (d : D)

/-- Effect of a call. -/
def World.step {D : Type} (w : World D) : Op D → Outcome Empty (World D)
  | .add m b => .ok (w.addBuffer m b)
  | .remove m b => .ok (w.removeBuffer m b).1
  | .clear m => .ok (w.clearAll m)
  | .setDefault b => .ok (w.setDefault b)
  | .setActive m a => .ok { w with active := fun k => if k = m then a else w.active k }
  | .setAllInactive a => .ok { w with allInactive := a }
  | .measure m d => w.measure m d

/-- A program. -/
def World.run {D : Type} (w : World D) : List (Op D) → Outcome Empty (World D)
  | [] => .ok w
  | o :: os => do
    let w ← w.step o
    w.run os

/-! ## `BPMDataBufferServer` -/

/-- `BPMDataBufferServer::GetDataBuffer` (BPMDataBufferServer.cpp 10-29): `server` is the map from
monitors to their buffers, `fresh` the address of the new map entry. -/
def getDataBuffer {D : Type} (w : World D) (server : List (Nat × Nat)) (fresh : Nat) (m : Nat)
    (create : Bool) : World D × List (Nat × Nat) × Option Nat :=
  match server.lookup m with
  | some b => (w, server, some b)
  | none =>
    if !create then (w, server, none)
    else (w.addBuffer m (some fresh), (m, fresh) :: server, some fresh)

/-! ## `RMSProfileMonitor` -/

/-- The noiseless results of a profile measurement. -/
structure Profile (K : Type) where
  x0 : K
  y0 : K
  u0 : K
  xrms : K
  yrms : K
  urms : K

/-- `RMSProfileMonitor::MakeMeasurement` (RMSProfileMonitor.cpp 37-65) without noise.  `mx my sx sy`
are the means and standard deviations, `c s` cosine and sine of the wire angle; `zero` and `right`
tell whether the angle is (nearly) 0 or π/2. -/
def profile {K : Type} [Sub K] [Mul K] (mx my sx sy c s : K) (zero right : Bool) : Profile K :=
  if zero then ⟨mx, my, mx, sx, sy, sx⟩
  else if right then ⟨mx, my, my, sx, sy, sy⟩
  else ⟨mx, my, c * mx - s * my, sx, sy, c * sx - s * sy⟩

/-! ## Reflection -/

/-- The reading of a BPM without noise (BPM.cpp 31-49): the flag `reflected` (Monitor.h 133) is not
looked at. -/
def reading {K : Type} [Mul K] (_reflected : Bool) (scaleX scaleY cx cy : K) : K × K :=
  (cx * scaleX, cy * scaleY)

end Verif.Monitor
