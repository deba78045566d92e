import Verif.Common.Outcome

/-!
# Model of the reference counting of `Rotation3D` (Merlin++/Rotation3D.h:153-201, 213-231, 258-300)

The heap maps the identity of a representation (`Rot3Drep`) to its counter `refc`; a deleted one, or
one that was never allocated, has no entry.  Handles are the `Rotation3D` objects of the program.
Which class a representation belongs to is irrelevant here; what matters is that `inv`, `dot`
and the half-turn functions sometimes return a new representation and sometimes one of the
arguments (IdentityRotation.cpp:12-75, AxisRotations.cpp:77-80, 163-166, 249-252); both are allowed
here for every call.
-/

namespace Verif.RefCount
open Verif

structure State where
  /-- counter of each live representation -/
  heap : Nat → Option Nat
  /-- identity for the next allocation -/
  next : Nat
  /-- representation of each handle; `none` once it is destroyed -/
  handles : List (Option Nat)

def State.init : State := ⟨fun _ => none, 0, []⟩

/-- Write one heap cell. -/
def State.set (s : State) (r : Nat) (c : Option Nat) : State :=
  { s with heap := fun i => if i = r then c else s.heap i }

/-- `new` of a representation; the counter starts at 0 (Rot3Drep.cpp:13-16). -/
def State.alloc (s : State) : State × Nat :=
  ({ s.set s.next (some 0) with next := s.next + 1 }, s.next)

/-- `rep->refc++`. -/
def State.incr (s : State) (r : Nat) : Outcome Empty State :=
  match s.heap r with
  | some c => .ok (s.set r (some (c + 1)))
  | none => .ub

/-- `if(--rep->refc == 0) delete rep;`.  Decrementing 0 would wrap around: `ub` here. -/
def State.decr (s : State) (r : Nat) : Outcome Empty State :=
  match s.heap r with
  | some 0 => .ub
  | some (c + 1) => if c = 0 then .ok (s.set r none) else .ok (s.set r (some c))
  | none => .ub

/-- The representation of a live handle; using a destroyed handle is an error of the caller. -/
def State.repOf (s : State) (h : Nat) : Outcome Empty Nat :=
  match s.handles[h]? with
  | some (some r) => .ok r
  | _ => .ub

/-- Which representation a function returned. -/
inductive Result where
  | fresh | first | second

inductive Op where
  /-- constructors and factories, Rotation3D.h:164-168, 258-276 -/
  | create
  /-- copy constructor, 170-174 -/
  | copy (h : Nat)
  /-- destructor, 182-188 -/
  | destroy (h : Nat)
  /-- assignment `h = g`, 190-201 -/
  | assign (h g : Nat)
  /-- `h * g`, `h.inv()`, `h.rotXbyPI()`... (213-216, 228-231, 278-291): constructor from the representation
  returned, 176-180.  For the unary functions `g` is `h`. -/
  | apply (h g : Nat) (res : Result)

/-- A new handle for a representation: `rep(nrep)`, `rep->refc++`. -/
def State.newHandle (s : State) (r : Nat) : Outcome Empty State := do
  let s1 ← s.incr r
  .ok { s1 with handles := s1.handles ++ [some r] }

def step (s : State) : Op → Outcome Empty State
  | .create => let (s1, r) := s.alloc; s1.newHandle r
  | .copy h => do
    let r ← s.repOf h
    s.newHandle r
  | .destroy h => do
    let r ← s.repOf h
    let s1 ← s.decr r
    .ok { s1 with handles := s1.handles.set h none }
  | .assign h g => do
    let r ← s.repOf h
    let q ← s.repOf g
    if r = q then .ok s
    else do
      let s1 ← s.decr r
      let s2 ← ({ s1 with handles := s1.handles.set h (some q) } : State).incr q
      .ok s2
  | .apply h g res => do
    let r ← s.repOf h
    let q ← s.repOf g
    -- the virtual call reads both representations
    match s.heap r, s.heap q with
    | some _, some _ =>
      match res with
      | .fresh => let (s1, n) := s.alloc; s1.newHandle n
      | .first => s.newHandle r
      | .second => s.newHandle q
    | _, _ => .ub

def run (s : State) : List Op → Outcome Empty State
  | [] => .ok s
  | op :: ops => do
    let s1 ← step s op
    run s1 ops

end Verif.RefCount
