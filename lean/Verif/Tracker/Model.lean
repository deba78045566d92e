import Mathlib.Algebra.Order.Field.Basic
import Verif.Common.Outcome
import Verif.Range.Model

/-!
# Model of `ComponentTracker` and `ComponentIntegrator`

Sources: `Merlin++/ComponentTracker.h/.cpp`, `Merlin++/ComponentIntegrator.h`,
`Merlin++/AcceleratorComponent.cpp`.

Simplifications: doubles are exact numbers of an ordered field.  What an integrator does to the bunch
is recorded as a list of events.  Integrators are known by numbers; the members `cur_S`, `tot_S` and
`component` are kept only for the current integrator, since they are set whenever an integrator is
selected.  A failing assertion and the use of a null pointer are undefined behaviour.
-/

namespace Verif.Tracker
open Verif

/-- What integrators do: entrance map, step and exit map of a component. -/
inductive Ev (K : Type) where
  | entrance (c : Nat)
  | body (c : Nat) (ds : K)
  | exit (c : Nat)
  deriving DecidableEq, Repr

/-- `ComponentTracker::State` (ComponentTracker.h 47-54). -/
inductive State where
  | undefined | initialised | tracking | finished
  deriving DecidableEq, Repr

/-- The number of a state in the C++ enumeration. -/
def State.code : State → Nat
  | .undefined => 0
  | .initialised => 1
  | .tracking => 2
  | .finished => 3

/-- Members of `ComponentTracker` (ComponentTracker.h 181-184) and of the current integrator
(ComponentIntegrator.h 122-128), the reference time of the bunch and what has been done to it. -/
structure Trk (K : Type) where
  state : State
  integrator : Option Nat
  cur : K
  tot : K
  comp : Nat
  iset : List (Nat × Nat)
  refTime : K
  log : List (Ev K)
  deriving DecidableEq, Repr

/-- `UnknownComponent` (ComponentTracker.h 57-60). -/
inductive Exn where
  | unknownComponent
  deriving DecidableEq, Repr

section
variable {K : Type} [Field K] [LinearOrder K]

/-- A tracker at construction with a given set of integrators (ComponentTracker.cpp 75-84). -/
def Trk.make (iset : List (Nat × Nat)) : Trk K := ⟨.undefined, none, 0, 0, 0, iset, 0, []⟩

/-- `ComponentIntegrator::GetRemainingLength` (ComponentIntegrator.h 161-165). -/
def remaining (eps : K) (t : Trk K) : K :=
  if Range.fequal eps (t.tot - t.cur) 0 then 0 else t.tot - t.cur

/-- `ComponentIntegrator::IsValidStep` (ComponentIntegrator.h 167-170, 200-203). -/
def isValidStep (eps : K) (t : Trk K) (ds : K) : Bool :=
  Range.contains eps (Range.mk2 0 (remaining eps t)) ds

/-- `ComponentIntegrator::Track` (ComponentIntegrator.h 172-188) with `AtEntrance`, `AtExit` (190-198),
as called by `B_Integrator::Track` (ComponentTracker.h 221-226). -/
def integrate (eps : K) (t : Trk K) (ds : K) : Trk K :=
  let log := if Range.fequal eps t.cur 0 then t.log ++ [.entrance t.comp] else t.log
  let log := log ++ [.body t.comp ds]
  let cur := t.cur + ds
  let log := if Range.fequal eps cur t.tot then log ++ [.exit t.comp] else log
  { t with cur := cur, log := log, refTime := t.refTime + ds }

/-- `ComponentTracker::Track` (ComponentTracker.cpp 94-99) with `TrackAll` (ComponentIntegrator.h
144-147). -/
def track (eps : K) (t : Trk K) : Outcome Exn (Trk K) :=
  if t.state = .initialised then
    match t.integrator with
    | some _ => .ok { integrate eps t t.tot with state := .finished }
    | none => .ub
  else .ub

/-- `ComponentTracker::TrackStep` (ComponentTracker.cpp 101-109) and the number it returns. -/
def trackStep (eps : K) (t : Trk K) (ds : K) : Outcome Exn (Trk K × K) :=
  if t.state = .initialised ∨ t.state = .tracking then
    match t.integrator with
    | some _ =>
      if isValidStep eps t ds then
        let t' := integrate eps t ds
        let st := if Range.fequal eps (remaining eps t') 0 then State.finished else State.tracking
        .ok ({ t' with state := st }, (st.code : K))
      else .ub
    | none => .ub
  else .ub

/-- `ComponentTracker::Reset` (ComponentTracker.cpp 111-115). -/
def reset (t : Trk K) : Trk K := { t with integrator := none, state := .undefined }

/-- `ComponentTracker::GetRemainingLength` (ComponentTracker.cpp 117-121). -/
def getRemainingLength (eps : K) (t : Trk K) : Outcome Exn K :=
  if t.state = .undefined then .ub
  else match t.integrator with
    | some _ => .ok (remaining eps t)
    | none => .ub

/-- `ComponentTracker::SelectIntegrator` (ComponentTracker.cpp 129-141) with `InitialiseIntegrator`
(143-146), for component `c` of length `len`. -/
def selectIntegrator (t : Trk K) (index : Nat) (c : Nat) (len : K) :
    Outcome Exn (Trk K × Bool) :=
  if t.state = .undefined ∨ t.state = .finished then
    match t.iset.lookup index with
    | none => .ok ({ t with integrator := none }, false)
    | some i =>
      .ok ({ t with integrator := some i, cur := 0, tot := len, comp := c, state := .initialised }, true)
  else .ub

/-- `PrepareTracker` of a component whose class and base classes have the given indices, most derived
first: `_PREPTRACK` (ComponentTracker.h 353), `AcceleratorComponent::PrepareTracker`
(AcceleratorComponent.cpp 38-44). -/
def prepare (t : Trk K) : List Nat → Nat → K → Outcome Exn (Trk K)
  | [], _, _ => .throw .unknownComponent
  | i :: is, c, len => do
    let r ← selectIntegrator t i c len
    if r.2 then pure r.1 else prepare r.1 is c len

/-- `IntegratorSet::Add` (ComponentTracker.cpp 44-57): the new set and whether an integrator was
replaced. -/
def addIntegrator (iset : List (Nat × Nat)) (index i : Nat) : List (Nat × Nat) × Bool :=
  match iset.lookup index with
  | some _ => (iset.map (fun p => if p.1 = index then (index, i) else p), true)
  | none => (iset ++ [(index, i)], false)

/-- Calls on a tracker. -/
inductive Op (K : Type) where
  | prepare (ids : List Nat) (c : Nat) (len : K)
  | track
  | trackStep (ds : K)
  | reset

/-- Effect of a call. -/
def step (eps : K) (t : Trk K) : Op K → Outcome Exn (Trk K)
  | .prepare ids c len => prepare t ids c len
  | .track => track eps t
  | .trackStep ds => do
    let r ← trackStep eps t ds
    pure r.1
  | .reset => .ok (reset t)

/-- A sequence of calls, all of which succeed. -/
def run (eps : K) : Trk K → List (Op K) → Outcome Exn (Trk K)
  | t, [] => .ok t
  | t, o :: os => do
    let t ← step eps t o
    run eps t os

end

end Verif.Tracker
