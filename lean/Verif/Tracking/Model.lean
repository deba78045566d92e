import Verif.Ring.Model
import Verif.StringPattern.Model

/-!
# Model of `TrackingSimulation`

`Merlin++/TrackingSimulation.cpp`, `TrackingSimulation.h`, `AcceleratorModel.h` (59-222, Beamline).  What a
simulation does is described by its trace of calls on the bunch, the step manager and the output object.
Transforms and components are of arbitrary types `T` and `C`.  Iterators are indices into the lattice.
The loop over the frames is bounded by a number of passes; `running` says that it has not ended by then.
-/

namespace Verif.Tracking
open Verif

variable {T C : Type}

/-- What is asked of a `ComponentFrame`: the transforms to and from its planes, its geometry patches and its
component (ComponentFrame.h 37-59). -/
structure Frame (T C : Type) where
  entrance : T
  exit : T
  inPatch : Option T
  outPatch : Option T
  comp : Option C
  name : List Char

/-- Calls made by a simulation. -/
inductive Event (T C : Type) where
  | construct
  | initialise
  | recordInitial
  | transform (t : T)
  | track (c : C)
  | record (name : List Char)
  | recordFinal
  deriving DecidableEq

/-- How a sequence of calls ends. -/
inductive Status where
  | done
  | threw
  | ub
  | running
  deriving DecidableEq, Repr

/-- A trace and its end. -/
structure Res (T C : Type) where
  events : List (Event T C)
  status : Status
  deriving DecidableEq

/-- First `e`, then `r`. -/
def Res.after (e : List (Event T C)) (r : Res T C) : Res T C := ⟨e ++ r.events, r.status⟩

/-- A `SimulationOutput` (TrackingSimulation.h 25-58). -/
structure Output where
  all : Bool
  initial : Bool
  final : Bool
  ids : List StringPattern.Pattern

/-- `SimulationOutput::DoRecord` with `IsMember` (TrackingSimulation.cpp 297-324). -/
def doRecord (o : Option Output) (f : Frame T C) : List (Event T C) :=
  match o with
  | none => []
  | some o =>
    match f.comp with
    | none => []
    | some _ => if o.all || o.ids.any (fun p => p.matches f.name) then [.record f.name] else []

/-- The settings of a simulation (TrackingSimulation.h 248-262). -/
structure Cfg (C : Type) where
  incX : Bool
  injOnAxis : Bool
  handle : Bool
  out : Option Output
  /-- Components in which a process throws a `MerlinException`. -/
  throws : C → Bool

/-- A transform if there is one. -/
def patch : Option T → List (Event T C)
  | none => []
  | some t => [.transform t]

/-- One pass of `PerformTracking` (TrackingSimulation.cpp 20-58), `fb` for the first frame: the calls, and
whether an exception ended them. -/
def passEvents (cfg : Cfg C) (fb : Bool) (f : Frame T C) : List (Event T C) × Bool :=
  let e1 := (if cfg.incX && !(fb && cfg.injOnAxis) then [.transform f.entrance] else []) ++ patch f.inPatch
  let e3 := patch f.outPatch ++ (if cfg.incX then [.transform f.exit] else []) ++ doRecord cfg.out f
  match f.comp with
  | none => (e1 ++ e3, false)
  | some c => if cfg.throws c then (e1 ++ [.track c], true) else (e1 ++ .track c :: e3, false)

/-- `PerformTracking` (TrackingSimulation.cpp 16-60) from the iterator `p` to `last`. -/
def perform (cfg : Cfg C) (deref : Nat → Option (Frame T C)) (next : Nat → Option Nat) (last : Nat) :
    Nat → Bool → Nat → Res T C
  | 0, _, _ => ⟨[], .running⟩
  | k + 1, fb, p =>
    match deref p with
    | none => ⟨[], .ub⟩
    | some f =>
      let e := passEvents cfg fb f
      if e.2 then ⟨e.1, .threw⟩
      else match next p with
        | none => ⟨e.1, .ub⟩
        | some q => if q = last then ⟨e.1, .done⟩ else .after e.1 (perform cfg deref next last k false q)

/-- `Beamline` of a lattice: the indices of the first and the last frame (AcceleratorModel.h 59-222), or a
`RingIterator` (AcceleratorModel.h 226), or nothing. -/
inductive Line where
  | beamline (first last : Nat)
  | ring (start : Nat)
  | undefined
  deriving DecidableEq, Repr

/-- `GetBeamline()` (AcceleratorModel.cpp 107-112). -/
def wholeLine (l : List (Frame T C)) : Line := .beamline 0 (l.length - 1)

/-- `GetReversedBeamline()` (AcceleratorModel.cpp 168-173). -/
def reversedLine (l : List (Frame T C)) : Line := .beamline (l.length - 1) 0

/-- `operator++` of the ring iterator, see `Verif.Ring.inc`. -/
def ringNext (n p : Nat) : Option Nat :=
  match Ring.inc n p with
  | .ok q => some q
  | _ => none

/-- The loop over the line; a default ring iterator is not initialised (TrackingSimulation.cpp 153-160). -/
def trackLine (cfg : Cfg C) (l : List (Frame T C)) (fuel : Nat) : Line → Res T C
  | .beamline i j => perform cfg (fun p => l[p]?) (fun p => if p < l.length then some (p + 1) else none) (j + 1) fuel true i
  | .ring s => perform cfg (fun p => l[p]?) (ringNext l.length) s fuel true s
  | .undefined => ⟨[], .ub⟩

/-- The state between calls: whether there is a bunch constructor, a bunch, and the place of the stepper (none
without stepper; the length of the part for its end). -/
structure Sim where
  ctor : Bool
  bunch : Bool
  stepper : Option (Nat × Nat)
  deriving DecidableEq, Repr

/-- `DoRun` (TrackingSimulation.cpp 120-183); a failing assertion and the use of the null bunch are undefined. -/
def doRun (cfg : Cfg C) (l : List (Frame T C)) (line : Line) (fuel : Nat) (s : Sim) (newBunch doInit : Bool) :
    Res T C × Sim :=
  let doInit := newBunch || doInit || !s.bunch
  if newBunch && !s.ctor then (⟨[], .ub⟩, s)
  else
    let s' := { s with bunch := s.bunch || newBunch }
    let e0 := (if newBunch then [.construct] else []) ++
      (match cfg.out with | some o => if o.initial then [.recordInitial] else [] | none => [])
    if !s'.bunch then (⟨e0, .ub⟩, s')
    else
      let e1 := e0 ++ (if doInit then [.initialise] else [])
      let fin : List (Event T C) := match cfg.out with | some o => if o.final then [.recordFinal] else [] | none => []
      let r := trackLine cfg l fuel line
      match r.status with
      | .done => (⟨e1 ++ r.events ++ fin, .done⟩, s')
      | .threw => if cfg.handle then (⟨e1 ++ r.events ++ fin, .done⟩, s') else (⟨e1 ++ r.events, .threw⟩, s')
      | st => (⟨e1 ++ r.events, st⟩, s')

/-- `Run` (TrackingSimulation.cpp 185-188). -/
def run (cfg : Cfg C) (l : List (Frame T C)) (line : Line) (fuel : Nat) (s : Sim) : Res T C × Sim :=
  doRun cfg l line fuel s true true

/-- `Continue` (TrackingSimulation.cpp 190-193). -/
def cont (cfg : Cfg C) (l : List (Frame T C)) (line : Line) (fuel : Nat) (s : Sim) : Res T C × Sim :=
  doRun cfg l line fuel s false false

/-- `InitStepper(bool)` (TrackingSimulation.cpp 220-244): the stepper dereferences its beginning (66-69);
there is none for rings. -/
def initStepper (l : List (Frame T C)) (line : Line) (s : Sim) (gen : Bool) : Res T C × Sim :=
  if !s.ctor then (⟨[], .ub⟩, s)
  else
    let e := (if gen || !s.bunch then [.construct] else []) ++ [.initialise]
    match line with
    | .beamline i j =>
      if i < l.length then (⟨e, .done⟩, { s with bunch := true, stepper := some (i, j + 1) })
      else (⟨e, .ub⟩, { s with bunch := true })
    | _ => (⟨e, .done⟩, { s with bunch := true, stepper := none })

/-- `StepComponent` (TrackingSimulation.cpp 266-286) with `NextFrame` (71-76): the calls, the new place and the
result.  A frame without component throws a string, which nothing in the library catches (ComponentFrame.h
132-139). -/
def stepComponent (cfg : Cfg C) (l : List (Frame T C)) (s : Sim) : Res T C × Sim × Bool :=
  match s.stepper with
  | none => (⟨[], .ub⟩, s, false)
  | some (p, last) =>
    if p = last then (⟨[], .ub⟩, s, false)
    else match l[p]? with
    | none => (⟨[], .ub⟩, s, false)
    | some f =>
      let e1 := if cfg.incX then [.transform f.entrance] else []
      match f.comp with
      | none => (⟨e1, .threw⟩, s, false)
      | some c =>
        if cfg.throws c then (⟨e1 ++ [.track c], .threw⟩, s, false)
        else
          let e := e1 ++ .track c :: ((if cfg.incX then [.transform f.exit] else []) ++ doRecord cfg.out f)
          (⟨e, .done⟩, { s with stepper := some (p + 1, last) }, decide (p + 1 ≠ last))

/-- `while(sim.StepComponent());` in a program that uses the stepper. -/
def stepAll (cfg : Cfg C) (l : List (Frame T C)) : Nat → Sim → Res T C × Sim
  | 0, s => (⟨[], .running⟩, s)
  | k + 1, s =>
    let r := stepComponent cfg l s
    if r.1.status ≠ .done then (r.1, r.2.1)
    else if r.2.2 then
      let t := stepAll cfg l k r.2.1
      (.after r.1.events t.1, t.2)
    else (r.1, r.2.1)

end Verif.Tracking
