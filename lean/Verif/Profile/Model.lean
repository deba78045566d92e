import Mathlib.Algebra.Order.Ring.Int

/-!
# Model of `MerlinProfile`

Source: `Merlin++/MerlinProfile.h`, `MerlinProfile.cpp`, for a library built with `MERLIN_PROFILE`.  The two maps are lists in the order of their keys.  Seconds and nanoseconds are integers without
bounds; the clock is what `clock_gettime` returns.
-/

namespace Verif.Profile

/-- `timespec` (MerlinProfile.h 36-39). -/
structure Time where
  sec : Int
  nsec : Int
deriving DecidableEq, Repr

abbrev Table := List (String × Time)

/-- `find`. -/
def look (k : String) : Table → Option Time
  | [] => none
  | a :: l => if a.1 = k then some a.2 else look k l

/-- `insert` of a key that is not there. -/
def ins (k : String) (v : Time) : Table → Table
  | [] => [(k, v)]
  | a :: l => if k < a.1 then (k, v) :: a :: l else a :: ins k v l

/-- Assignment through an iterator found for a key. -/
def upd (k : String) (f : Time → Time) (l : Table) : Table := l.map fun a => if a.1 = k then (a.1, f a.2) else a

/-- `erase`. -/
def del (k : String) (l : Table) : Table := l.filter fun a => a.1 ≠ k

/-- `pData` and `StartTime` (MerlinProfile.h 151-152). -/
structure State where
  data : Table
  start : Table
deriving DecidableEq, Repr

/-- `AddProcess` (MerlinProfile.h 43-56); the insertion into `StartTime` does nothing if the key is there. -/
def add (k : String) (s : State) : State :=
  match look k s.data with
  | some _ => s
  | none => ⟨ins k ⟨0, 0⟩ s.data, match look k s.start with | some _ => s.start | none => ins k ⟨0, 0⟩ s.start⟩

/-- `RemoveProcess` (MerlinProfile.h 59-67). -/
def remove (k : String) (s : State) : State := ⟨del k s.data, s.start⟩

/-- `StartProcessTimer` (MerlinProfile.h 69-80). -/
def startTimer (k : String) (now : Time) (s : State) : State := ⟨s.data, upd k (fun _ => now) s.start⟩

/-- `SetProcessDuration` (MerlinProfile.h 97-112). -/
def addDuration (t v : Time) : Time :=
  let n := v.nsec + t.nsec
  let s := v.sec + t.sec
  if n ≥ 1000000000 then ⟨s + 1, n - 1000000000⟩ else ⟨s, n⟩

/-- `EndProcessTimer` (MerlinProfile.h 82-95). -/
def endTimer (k : String) (now : Time) (s : State) : State :=
  match look k s.start with
  | none => s
  | some b => ⟨upd k (addDuration ⟨now.sec - b.sec, now.nsec - b.nsec⟩) s.data, s.start⟩

/-- `ClearTime` (MerlinProfile.h 114-122): what `begin()` points to. -/
def clear (s : State) : State :=
  match s.data with
  | [] => s
  | a :: l => ⟨(a.1, ⟨0, 0⟩) :: l, s.start⟩

/-- The calls a program makes. -/
inductive Op where
  | add (k : String)
  | remove (k : String)
  | start (k : String) (now : Time)
  | stop (k : String) (now : Time)
  | clear
deriving DecidableEq

def step (s : State) : Op → State
  | .add k => add k s
  | .remove k => remove k s
  | .start k t => startTimer k t s
  | .stop k t => endTimer k t s
  | .clear => clear s

def run (l : List Op) : State := l.foldl step ⟨[], []⟩

end Verif.Profile
