import Mathlib.Algebra.Order.Field.Basic
import Verif.Common.Outcome
import Verif.Range.Model

/-!
# Model of `AcceleratorModelConstructor`

Sources: `Merlin++/AcceleratorModelConstructor.h/.cpp`, `SequenceFrame.cpp`, `ComponentFrame.h`,
`ElementRepository.cpp`.

Simplifications: frames, components and other elements are known by numbers (their addresses); a component
frame carries its component (if any) and its length with it.  Frames made by the constructor for drifts
get the number given with the call.  Doubles are exact numbers.  The frames of the hierarchy are kept as
trees; cached transformations are left out (see the topic Frame).
-/

namespace Verif.Constructor
open Verif

/-- A `ComponentFrame`: its address, its component (none for an empty frame), its geometry length. -/
structure CFrame (K : Type) where
  id : Nat
  comp : Option Nat
  len : K
  deriving DecidableEq, Repr

/-- Frames of the hierarchy: component frames and sequence frames with their sub-frames. -/
inductive Tree (K : Type) where
  | leaf (f : CFrame K)
  | seq (id : Nat) (sub : List (Tree K))
  deriving Repr

/-- Members of the repository. -/
inductive Elem where
  | frame (id : Nat)
  | seq (id : Nat)
  | comp (id : Nat)
  | other (id : Nat)
  deriving DecidableEq, Repr

section
variable {K : Type} [Field K] [LinearOrder K]

/-- A sequence frame on the stack: address, sub-frames, `len_t`. -/
structure Open (K : Type) where
  id : Nat
  sub : List (Tree K)
  len : K

/-- `AcceleratorModelConstructor` (AcceleratorModelConstructor.h 127-128) with the model under
construction; `alive` is `currentModel != nullptr`; the top of the stack is the head of the list;
`frameIdx`, `compIdx` are the beamline indices stored in frames and components. -/
structure State (K : Type) where
  alive : Bool
  stack : List (Open K)
  lattice : List (CFrame K)
  repo : List Elem
  frameIdx : Nat → Nat
  compIdx : Nat → Nat

/-- `ElementRepository::Add` on a set (ElementRepository.cpp 47-51). -/
def addElem (e : Elem) (r : List Elem) : List Elem := if e ∈ r then r else r ++ [e]

/-- `NewModel` (AcceleratorModelConstructor.cpp 99-114), with the address of the global frame; indices of
frames and components not yet placed are zero (ComponentFrame.h 117, AcceleratorComponent.h 230). -/
def newModel (g : Nat) : State K := ⟨true, [⟨g, [], 0⟩], [], [], fun _ => 0, fun _ => 0⟩

/-- `SequenceFrame::AppendFrame` on the top of the stack (SequenceFrame.cpp 122-131). -/
def appendTop (t : Tree K) (len : K) : List (Open K) → Option (List (Open K))
  | [] => none
  | o :: os => some ({ o with sub := o.sub ++ [t], len := o.len + len } :: os)

/-- `NewFrame` (AcceleratorModelConstructor.cpp 128-133). -/
def newFrame (id : Nat) (s : State K) : Outcome Unit (State K) :=
  if s.alive then .ok { s with repo := addElem (.seq id) s.repo, stack := ⟨id, [], 0⟩ :: s.stack } else .ub

/-- `EndFrame` (AcceleratorModelConstructor.cpp 135-140): `top` and `pop` of an empty stack are
undefined. -/
def endFrame (s : State K) : Outcome Unit (State K) :=
  match s.stack with
  | [] => .ub
  | o :: os =>
    match appendTop (.seq o.id o.sub) o.len os with
    | some os' => .ok { s with stack := os' }
    | none => .ub

/-- `AppendComponentFrame` (AcceleratorModelConstructor.cpp 191-202) with `ComponentFrame::
SetBeamlineIndex` (ComponentFrame.h 156-163). -/
def appendComponentFrame (f : CFrame K) (s : State K) : Outcome Unit (State K) :=
  if s.alive then
    match appendTop (.leaf f) f.len s.stack with
    | some os =>
      let repo := addElem (.frame f.id) s.repo
      let repo := match f.comp with
        | some c => addElem (.comp c) repo
        | none => repo
      let n := s.lattice.length
      .ok { s with
        stack := os
        lattice := s.lattice ++ [f]
        repo := repo
        frameIdx := fun i => if i = f.id then n else s.frameIdx i
        compIdx := fun c => if f.comp = some c then n else s.compIdx c }
    | none => .ub
  else .ub

/-- `AppendComponent(acc, d)` (AcceleratorModelConstructor.h 62-70) with `AppendDrift`
(AcceleratorModelConstructor.cpp 142-146): `drift` is the frame made for a drift. -/
def appendComponent (eps : K) (f : CFrame K) (d : K) (drift : Nat × Nat) (s : State K) :
    Outcome Unit (State K) :=
  if Range.fequal eps d 0 then appendComponentFrame f s
  else do
    let s ← appendComponentFrame ⟨drift.1, some drift.2, d⟩ s
    appendComponentFrame f s

mutual
/-- `Traverse` (SequenceFrame.cpp 448-458, LatticeFrame.cpp 165-168) with `MEExtractor::ActOn`
(AcceleratorModelConstructor.cpp 56-76): `GetComponent` of an empty frame throws (ComponentFrame.h
132-139), which is caught, so that the frame does not get into the lattice. -/
def extract : Tree K → List Elem × List (CFrame K) → List Elem × List (CFrame K)
  | .leaf f, (r, l) =>
    match f.comp with
    | some c => (addElem (.comp c) (addElem (.frame f.id) r), l ++ [f])
    | none => (addElem (.frame f.id) r, l)
  | .seq id sub, (r, l) => extractAll sub (addElem (.seq id) r, l)

/-- See `extract`. -/
def extractAll : List (Tree K) → List Elem × List (CFrame K) → List Elem × List (CFrame K)
  | [], x => x
  | t :: ts, x => extractAll ts (extract t x)
end

mutual
/-- The geometry length of a frame completed elsewhere: sums made by `AppendFrame` (SequenceFrame.cpp
130). -/
def length : Tree K → K
  | .leaf f => f.len
  | .seq _ sub => lengths sub

/-- See `length`. -/
def lengths : List (Tree K) → K
  | [] => 0
  | t :: ts => length t + lengths ts
end

/-- `AppendFrame(SequenceFrame*)` (AcceleratorModelConstructor.cpp 176-189). -/
def appendFrame (id : Nat) (sub : List (Tree K)) (s : State K) : Outcome Unit (State K) :=
  if s.alive then
    match appendTop (.seq id sub) (length (.seq id sub)) s.stack with
    | some os =>
      .ok { s with
        stack := os
        lattice := (extract (.seq id sub) (s.repo, s.lattice)).2
        repo := (extract (.seq id sub) (s.repo, s.lattice)).1 }
    | none => .ub
  else .ub

/-- `AddModelElement` (AcceleratorModelConstructor.cpp 148-151). -/
def addModelElement (e : Nat) (s : State K) : Outcome Unit (State K) :=
  if s.alive then .ok { s with repo := addElem (.other e) s.repo } else .ub

/-- What `GetModel` hands out. -/
structure Model (K : Type) where
  globalFrame : Open K
  lattice : List (CFrame K)
  repo : List Elem
  frameIdx : Nat → Nat
  compIdx : Nat → Nat

/-- `GetModel` (AcceleratorModelConstructor.cpp 116-126): the model and the constructor afterwards. -/
def getModel (s : State K) : Outcome Unit (Model K × State K) :=
  match s.stack with
  | [] => .ub
  | o :: os =>
    if s.alive ∧ os.isEmpty then
      .ok (⟨o, s.lattice, s.repo, s.frameIdx, s.compIdx⟩, { s with alive := false, stack := [] })
    else .ub

/-- `GetCurrentFrameDepth` (AcceleratorModelConstructor.h 103-106), as the `int` returned. -/
def depth (s : State K) : Int := s.stack.length - 1

/-- Calls between `NewModel` and `GetModel`. -/
inductive Op (K : Type) where
  | newFrame (id : Nat)
  | endFrame
  | append (f : CFrame K) (d : K) (drift : Nat × Nat)
  | appendFrame (id : Nat) (sub : List (Tree K))
  | add (e : Nat)

/-- One call. -/
def step (eps : K) (s : State K) : Op K → Outcome Unit (State K)
  | .newFrame id => newFrame id s
  | .endFrame => endFrame s
  | .append f d drift => appendComponent eps f d drift s
  | .appendFrame id sub => appendFrame id sub s
  | .add e => addModelElement e s

/-- Several calls. -/
def run (eps : K) (s : State K) : List (Op K) → Outcome Unit (State K)
  | [] => .ok s
  | o :: os => do
    let s ← step eps s o
    run eps s os

end

end Verif.Constructor
