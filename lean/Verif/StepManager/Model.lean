import Mathlib.Algebra.Order.Field.Basic
import Verif.Common.Outcome

/-!
# Model of `ProcessStepManager`

Sources: `Merlin++/ProcessStepManager.cpp`, `Merlin++/BunchProcess.h`, `Merlin++/utils.h`.

Simplifications: doubles are exact numbers of an ordered field; log output and profiling are left
out.  A process consists of its own state (arbitrary type `σ`) and acts on itself and on the shared
bunch (arbitrary type `B`); `C` is the type of components.  The loop of `Track` need not end: the
model counts iterations, `none` means that it has not ended after the given number.
-/

namespace Verif.StepManager
open Verif

/-! ## The process table -/

section
variable {α : Type}

/-- The search and insertion for non-negative priorities (ProcessStepManager.cpp 163-168). -/
def insertPrio (prio : α → Int) (p : α) : List α → List α
  | [] => [p]
  | q :: t => if prio q ≤ prio p then q :: insertPrio prio p t else p :: q :: t

/-- `ProcessStepManager::AddProcess` (ProcessStepManager.cpp 155-171). -/
def addProcess (prio : α → Int) (t : List α) (p : α) : List α :=
  if prio p < 0 then t ++ [p] else insertPrio prio p t

/-- `std::find` and `list::erase` (ProcessStepManager.cpp 175-176): the list and the part behind the
erased element; `none` when the element is not found. -/
def findErase [DecidableEq α] (p : α) : List α → Option (List α × List α)
  | [] => none
  | q :: t =>
    if q = p then some (t, t)
    else match findErase p t with
      | some (l, r) => some (q :: l, r)
      | none => none

/-- `ProcessStepManager::RemoveProcess` (ProcessStepManager.cpp 173-178): erasing `end()` is undefined;
the result tells whether the iterator behind the erased element is not `end()`. -/
def removeProcess [DecidableEq α] (t : List α) (p : α) : Outcome Empty (List α × Bool) :=
  match findErase p t with
  | none => .ub
  | some (l, r) => .ok (l, !r.isEmpty)

/-- Calls that change the table; `ClearProcesses` (ProcessStepManager.cpp 180-184). -/
inductive TableOp (α : Type) where
  | add (p : α)
  | remove (p : α)
  | clear

/-- Effect of a call on the table. -/
def tableStep [DecidableEq α] (prio : α → Int) (t : List α) : TableOp α → Outcome Empty (List α)
  | .add p => .ok (addProcess prio t p)
  | .remove p => do
    let r ← removeProcess t p
    pure r.1
  | .clear => .ok []

/-- A sequence of calls. -/
def tableRun [DecidableEq α] (prio : α → Int) : List α → List (TableOp α) → Outcome Empty (List α)
  | t, [] => .ok t
  | t, o :: os => do
    let t ← tableStep prio t o
    tableRun prio t os

end

/-! ## Tracking a component -/

/-- The virtual functions of `BunchProcess` (BunchProcess.h 29-110) and the length of a component. -/
structure Virtual (σ B C K : Type) where
  initialise : B → σ → σ
  setComponent : C → B → σ → σ
  active : σ → Bool
  maxStep : σ → K
  doProcess : K → B → σ → B × σ
  length : C → K

section
variable {σ B C K : Type} [Field K] [LinearOrder K]

/-- `fequal` (utils.h 16-19). -/
def fequal (eps x y : K) : Bool := decide (|x - y| ≤ eps)

/-- `CalcStepSize` applied to all processes (ProcessStepManager.cpp 59-74, 142). -/
def calcStep (V : Virtual σ B C K) (smax : K) (ps : List σ) : K :=
  ps.foldl (fun ds p => if V.active p then min ds (V.maxStep p) else ds) smax

/-- `DoProc` applied to all processes (ProcessStepManager.cpp 76-105, 143). -/
def doProcs (V : Virtual σ B C K) (ds : K) (b : B) : List σ → B × List σ
  | [] => (b, [])
  | p :: ps =>
    if V.active p then
      let r := V.doProcess ds b p
      let t := doProcs V ds r.1 ps
      (t.1, r.2 :: t.2)
    else
      let t := doProcs V ds b ps
      (t.1, p :: t.2)

/-- One pass of the loop as seen from outside: the state of the processes when the step is chosen and
the step. -/
structure Step (σ K : Type) where
  procs : List σ
  ds : K

/-- The loop of `ProcessStepManager::Track` (ProcessStepManager.cpp 140-145), at most `n` passes. -/
def loop (V : Virtual σ B C K) (eps sc : K) : Nat → K → B → List σ →
    Option (B × List σ × List (Step σ K))
  | 0, _, _, _ => none
  | n + 1, s, b, ps =>
    let ds := calcStep V (sc - s) ps
    let r := doProcs V ds b ps
    if fequal eps sc (s + ds) then some (r.1, r.2, [⟨ps, ds⟩])
    else match loop V eps sc n (s + ds) r.1 r.2 with
      | some (b', ps', l) => some (b', ps', ⟨ps, ds⟩ :: l)
      | none => none

/-- The members of `ProcessStepManager` (ProcessStepManager.h 75-84) and the bunch. -/
structure Manager (σ B K : Type) where
  total : K
  procs : List σ
  bunch : B

/-- `ProcessStepManager::Initialise` (ProcessStepManager.cpp 126-130). -/
def initialise (V : Virtual σ B C K) (m : Manager σ B K) (b : B) : Manager σ B K :=
  ⟨0, m.procs.map (V.initialise b), b⟩

/-- `ProcessStepManager::Track` (ProcessStepManager.cpp 132-148), at most `n` steps. -/
def track (V : Virtual σ B C K) (eps : K) (n : Nat) (m : Manager σ B K) (c : C) :
    Option (Manager σ B K × List (Step σ K)) :=
  match loop V eps (V.length c) n 0 m.bunch (m.procs.map (V.setComponent c m.bunch)) with
  | some (b, ps, l) => some (⟨m.total + V.length c, ps, b⟩, l)
  | none => none

/-- Tracking several components one after the other. -/
def trackAll (V : Virtual σ B C K) (eps : K) (n : Nat) :
    Manager σ B K → List C → Option (Manager σ B K)
  | m, [] => some m
  | m, c :: cs =>
    match track V eps n m c with
    | some (m', _) => trackAll V eps n m' cs
    | none => none

end

end Verif.StepManager
