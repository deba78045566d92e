import Mathlib.Algebra.Order.Field.Basic
import Mathlib.Algebra.Order.Floor.Ring
import Verif.StepManager.Model
import Verif.Tracker.Model

/-!
# Model of the step control of bunch processes

Sources: `Merlin++/WakeFieldProcess.cpp`, `SynchRadParticleProcess.cpp`, `SpinParticleProcess.cpp`,
`RingDeltaTProcess.cpp`, `HollowELensProcess.cpp`, `MonitorProcess.cpp`, `CollimateParticleProcess.cpp`,
`CollimateProtonProcess.cpp`, `TTrackSim.h`, `ComponentStepper.cpp`.

Simplifications: doubles are exact numbers of an ordered field.  What a process does to the bunch is
recorded in a list kept with the process; the physics of the kicks is left out, only where they are
applied and over which length counts here.  All processes are initialised with a bunch of the type they
expect.
-/

namespace Verif.Processes
open Verif

/-- What the processes ask about a component. -/
structure Comp (K : Type) where
  len : K
  /-- identification, and the class indices given to the tracker -/
  id : Nat
  ids : List Nat
  /-- a wake potential for which the process is responsible -/
  wake : Bool
  /-- a sector bend (or, with `IncludeQuadRadiation`, a multipole) -/
  bend : Bool
  /-- has an electromagnetic field -/
  field : Bool
  hel : Bool
  /-- in the list of the monitor process -/
  dump : Bool
  aperture : Bool
  /-- has a collimator aperture -/
  jaw : Bool

section
variable {K : Type} [Field K] [LinearOrder K] [FloorRing K]

/-! ## Wake fields -/

/-- Members of `WakeFieldProcess` used for step control (WakeFieldProcess.h); `exit` is `imploc == atExit`;
`kicks` lists the lengths for which the wake was applied and where. -/
structure Wake (K : Type) where
  exit : Bool
  impulse : K
  cur : K
  clen : K
  active : Bool
  kicks : List (K × K)

/-- `WakeFieldProcess::SetCurrentComponent` (WakeFieldProcess.cpp 158-203). -/
def Wake.set (c : Comp K) (w : Wake K) : Wake K :=
  if c.wake then
    { w with clen := c.len, impulse := if w.exit then c.len else c.len / 2, cur := 0, active := true }
  else { w with active := false }

/-- `WakeFieldProcess::DoProcess` (WakeFieldProcess.cpp 205-233, without MPI). -/
def Wake.act (eps ds : K) (w : Wake K) : Wake K :=
  let cur := w.cur + ds
  if StepManager.fequal eps cur w.impulse then { w with cur := cur, kicks := w.kicks ++ [(w.clen, cur)], active := false }
  else { w with cur := cur }

/-- `WakeFieldProcess::GetMaxAllowedStepSize` (WakeFieldProcess.cpp 305-308). -/
def Wake.limit (w : Wake K) : K := w.impulse - w.cur

/-! ## Synchrotron radiation -/

/-- Members of `SynchRadParticleProcess` (SynchRadParticleProcess.h 118-130); `kicks` lists the lengths
for which radiation was applied. -/
structure Rad (K : Type) where
  ns : Int
  dsMax : K
  dL : K
  nk : Int
  intS : K
  active : Bool
  kicks : List K

/-- `SynchRadParticleProcess::SetCurrentComponent` (SynchRadParticleProcess.cpp 133-165): the number of
steps is truncated towards zero (line 158), which for the positive numbers here is the floor. -/
def Rad.set (c : Comp K) (r : Rad K) : Rad K :=
  let ns1 : Int := if r.ns = 0 then ⌊1 + c.len / r.dsMax⌋ else r.ns
  { r with dL := c.len / (ns1 : K), nk := 0, intS := 0, active := c.bend }

/-- `SynchRadParticleProcess::DoProcess` (SynchRadParticleProcess.cpp 167-190). -/
def Rad.act (eps ds : K) (r : Rad K) : Rad K :=
  let intS := r.intS + ds
  if StepManager.fequal eps intS (((r.nk : K) + 1) * r.dL) then
    { r with intS := intS, kicks := r.kicks ++ [r.dL], nk := r.nk + 1, active := decide (r.nk + 1 ≠ r.ns) }
  else { r with intS := intS, active := decide (r.nk ≠ r.ns) }

/-- `SynchRadParticleProcess::GetMaxAllowedStepSize` (SynchRadParticleProcess.cpp 192-197). -/
def Rad.limit (r : Rad K) : K := ((r.nk : K) + 1) * r.dL - r.intS

/-- `SynchRadParticleProcess::SetNumComponentSteps`, `SetMaxComponentStepSize`
(SynchRadParticleProcess.cpp 206-220). -/
def Rad.setNumSteps (n : Int) (r : Rad K) : Rad K := { r with ns := n, dsMax := 0 }

/-- See `Rad.setNumSteps`. -/
def Rad.setMaxStep (ds : K) (r : Rad K) : Rad K := { r with ns := 0, dsMax := ds }

/-! ## Spin -/

/-- What the spin process does: fringe fields and body. -/
inductive SpinEv (K : Type) where
  | entrance
  | body (ds : K)
  | exit
  deriving DecidableEq, Repr

/-- Members of `SpinParticleProcess` (SpinParticleProcess.h 87-95). -/
structure Spin (K : Type) where
  ns : Int
  nk : Int
  dL : K
  intS : K
  clen : K
  active : Bool
  log : List (SpinEv K)

/-- `SpinParticleProcess::SetCurrentComponent` (SpinParticleProcess.cpp 190-219). -/
def Spin.set (c : Comp K) (p : Spin K) : Spin K :=
  { p with nk := 0, intS := 0, clen := c.len, dL := c.len / (p.ns : K), active := c.field }

/-- `SpinParticleProcess::DoProcess` (SpinParticleProcess.cpp 287-393); note that `nk1` does not change. -/
def Spin.act (eps ds : K) (p : Spin K) : Spin K :=
  let l := if p.intS = 0 then p.log ++ [.entrance] else p.log
  let l := l ++ [.body ds]
  let l := if StepManager.fequal eps (p.intS + ds) p.clen then l ++ [.exit] else l
  { p with log := l, intS := p.intS + ds }

/-- `SpinParticleProcess::GetMaxAllowedStepSize` (SpinParticleProcess.cpp 395-398). -/
def Spin.limit (p : Spin K) : K := ((p.nk : K) + 1) * p.dL - p.intS

/-! ## Time shift in bends of a ring -/

/-- Members of `RingDeltaTProcess`; `shift` is what has been added to `ct` of each particle. -/
structure DeltaT (K : Type) where
  scale : K
  dL : K
  intS : K
  active : Bool
  shift : K

/-- `RingDeltaTProcess::SetCurrentComponent` (RingDeltaTProcess.cpp 41-46). -/
def DeltaT.set (c : Comp K) (p : DeltaT K) : DeltaT K := { p with active := c.bend, dL := c.len, intS := 0 }

/-- `RingDeltaTProcess::DoProcess` (RingDeltaTProcess.cpp 48-53). -/
def DeltaT.act (ds : K) (p : DeltaT K) : DeltaT K :=
  { p with intS := p.intS + ds, shift := p.shift + p.scale * ds, active := decide (p.intS + ds ≠ p.dL) }

/-- `RingDeltaTProcess::GetMaxAllowedStepSize` (RingDeltaTProcess.cpp 55-58). -/
def DeltaT.limit (p : DeltaT K) : K := p.dL - p.intS

/-! ## Hollow electron lens -/

/-- `HollowELensProcess` and the `Turn` of the lens; `kicks` counts how often the kick was given. -/
structure Hel (K : Type) where
  len : K
  active : Bool
  turn : Nat
  kicks : Nat

/-- `HollowELensProcess::SetCurrentComponent` (HollowELensProcess.cpp 38-55). -/
def Hel.set (c : Comp K) (p : Hel K) : Hel K := { p with active := c.hel, len := c.len }

/-- `HollowELensProcess::DoProcess` in mode `DC` (HollowELensProcess.cpp 57-109, 228-231). -/
def Hel.act (p : Hel K) : Hel K := { p with turn := p.turn + 1, kicks := p.kicks + 1 }

/-- `HollowELensProcess::GetMaxAllowedStepSize` (HollowELensProcess.cpp 234-237). -/
def Hel.limit (p : Hel K) : K := p.len

/-! ## Monitor -/

/-- `MonitorProcess`: `files` counts the files written. -/
structure Mon where
  active : Bool
  files : Nat

/-- `MonitorProcess::SetCurrentComponent` (MonitorProcess.cpp 73-81). -/
def Mon.set (c : Comp K) (p : Mon) : Mon := { p with active := c.dump }

/-- `MonitorProcess::DoProcess` (MonitorProcess.cpp 42-66). -/
def Mon.act (p : Mon) : Mon := { p with files := p.files + 1 }

/-! ## Collimation -/

/-- Step control members of `CollimateParticleProcess` (CollimateParticleProcess.h 161-215); `checks`
lists where the aperture was checked, as (`int_s`, `s`).  The member `s_total`, which is never read, is
left out. -/
structure Coll (K : Type) where
  mEntr : Bool
  mCent : Bool
  mExit : Bool
  scatter : Bool
  bin : K
  len : K
  s : K
  next : K
  isColl : Bool
  atEntr : Bool
  atCent : Bool
  atExit : Bool
  active : Bool
  checks : List (K × K)

/-- `CollimateParticleProcess::SetNextS` (CollimateParticleProcess.cpp 480-515). -/
def Coll.setNext (p : Coll K) : Coll K :=
  let p1 : Coll K :=
    if p.atEntr then { p with next := 0, atEntr := false }
    else if p.atCent then { p with next := p.len / 2, atCent := false }
    else if p.atExit then { p with next := p.len, atExit := false }
    else { p with active := false }
  if p1.isColl then
    { p1 with active := true, next := if p1.len < p1.s + p1.bin then p1.len else p1.s + p1.bin }
  else p1

/-- `CollimateParticleProcess::SetCurrentComponent` (CollimateParticleProcess.cpp 87-141). -/
def Coll.set (c : Comp K) (p : Coll K) : Coll K :=
  if c.aperture then
    let p := { p with active := true, len := c.len, s := 0, isColl := p.scatter && c.jaw }
    if p.isColl then Coll.setNext { p with atCent := false, atEntr := false, atExit := true }
    else Coll.setNext { p with atEntr := p.mEntr, atCent := p.mCent, atExit := p.mExit }
  else { p with active := false }

/-- `CollimateParticleProcess::DoProcess` (CollimateParticleProcess.cpp 143-161). -/
def Coll.act (eps ds : K) (p : Coll K) : Coll K :=
  let p1 := { p with s := p.s + ds }
  if StepManager.fequal eps p1.s p1.next then
    Coll.setNext { p1 with checks := p1.checks ++ [(p1.s - ds, p1.s)] }
  else p1

/-- `CollimateParticleProcess::GetMaxAllowedStepSize` (CollimateParticleProcess.cpp 163-173). -/
def Coll.limit (p : Coll K) : K := if p.isColl then p.bin else p.next - p.s

/-! ## Transport -/

/-- The transport process with its tracker; `failed` means that a call on the tracker was not legal. -/
structure Transport (K : Type) where
  trk : Tracker.Trk K
  failed : Bool

/-- `TTrnsProc::SetCurrentComponent` (TTrackSim.h 64-75). -/
def Transport.set (c : Comp K) (p : Transport K) : Transport K :=
  match Tracker.prepare p.trk c.ids c.id c.len with
  | .ok t => { p with trk := t }
  | _ => { p with failed := true }

/-- `TTrnsProc::DoProcess` (TTrackSim.h 77-83). -/
def Transport.act (eps ds : K) (p : Transport K) : Transport K :=
  match Tracker.trackStep eps p.trk ds with
  | .ok r => { p with trk := r.1 }
  | _ => { p with failed := true }

/-- `TTrnsProc::GetMaxAllowedStepSize` (TTrackSim.h 85-88). -/
def Transport.limit (eps : K) (p : Transport K) : K :=
  match Tracker.getRemainingLength eps p.trk with
  | .ok r => r
  | _ => 0

/-! ## All processes -/

/-- A process. -/
inductive Proc (K : Type) where
  | wake (w : Wake K)
  | rad (r : Rad K)
  | spin (p : Spin K)
  | deltaT (p : DeltaT K)
  | hel (p : Hel K)
  | mon (p : Mon)
  | coll (p : Coll K)
  | transport (p : Transport K)

/-- Virtual `SetCurrentComponent`. -/
def Proc.set (c : Comp K) : Proc K → Proc K
  | .wake w => .wake (w.set c)
  | .rad r => .rad (r.set c)
  | .spin p => .spin (p.set c)
  | .deltaT p => .deltaT (p.set c)
  | .hel p => .hel (p.set c)
  | .mon p => .mon (p.set c)
  | .coll p => .coll (p.set c)
  | .transport p => .transport (p.set c)

/-- `BunchProcess::IsActive` (BunchProcess.h 151-154); the transport process is always active once it is
initialised. -/
def Proc.active : Proc K → Bool
  | .wake w => w.active
  | .rad r => r.active
  | .spin p => p.active
  | .deltaT p => p.active
  | .hel p => p.active
  | .mon p => p.active
  | .coll p => p.active
  | .transport _ => true

/-- Virtual `GetMaxAllowedStepSize`; the number of the monitor process is from MonitorProcess.cpp
68-71. -/
def Proc.limit (eps : K) : Proc K → K
  | .wake w => w.limit
  | .rad r => r.limit
  | .spin p => p.limit
  | .deltaT p => p.limit
  | .hel p => p.limit
  | .mon _ => 1000
  | .coll p => p.limit
  | .transport p => p.limit eps

/-- Virtual `DoProcess`. -/
def Proc.act (eps ds : K) : Proc K → Proc K
  | .wake w => .wake (w.act eps ds)
  | .rad r => .rad (r.act eps ds)
  | .spin p => .spin (p.act eps ds)
  | .deltaT p => .deltaT (p.act ds)
  | .hel p => .hel p.act
  | .mon p => .mon p.act
  | .coll p => .coll (p.act eps ds)
  | .transport p => .transport (p.act eps ds)

/-- The processes as seen by the step manager. -/
def V (eps : K) : StepManager.Virtual (Proc K) Unit (Comp K) K where
  initialise _ p := p
  setComponent c _ p := p.set c
  active := Proc.active
  maxStep := Proc.limit eps
  doProcess ds b p := (b, p.act eps ds)
  length c := c.len

/-! ## Component divider -/

/-- Members of `ComponentDivider` (ComponentStepper.h 58-64). -/
structure Divider (K : Type) where
  s : K
  next : K
  delta : K
  minStep : K
  nstep : Int

/-- `ComponentDivider::ComponentDivider` (ComponentStepper.cpp 12-15). -/
def Divider.make (ns : Int) (minStep : K) : Divider K := ⟨0, 0, 0, minStep, ns⟩

/-- `ComponentDivider::SetComponent` (ComponentStepper.cpp 17-35). -/
def Divider.set (l : K) (d : Divider K) : Divider K :=
  if l ≠ 0 then
    let delta := l / (d.nstep : K)
    let delta := if delta < d.minStep then l / ((⌊l / d.minStep + 1⌋ : Int) : K) else delta
    { d with delta := delta, next := delta, s := 0 }
  else { d with next := 0, s := 0 }

/-- `ComponentDivider::Increment` (ComponentStepper.cpp 37-46). -/
def Divider.increment (eps ds : K) (d : Divider K) : Divider K × Bool :=
  if StepManager.fequal eps (d.s + ds) d.next then ({ d with s := d.s + ds, next := d.next + d.delta }, true)
  else ({ d with s := d.s + ds }, false)

/-- `ComponentDivider::DistanceToStepBoundary` (ComponentStepper.cpp 48-51). -/
def Divider.distance (d : Divider K) : K := d.next - d.s

end

end Verif.Processes
