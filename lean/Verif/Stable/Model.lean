import Verif.Collimation.Model
import Verif.Common.Outcome

/-!
# Model of `StableOrbits`

Source: `Merlin++/StableOrbits.cpp`, with what it uses of `TrackingSimulation.cpp`, `ProcessStepManager.cpp`, `BunchConstructor.h` and `CollimateParticleProcess.cpp`.  A component is what it does to a
particle up to its centre, the check of its aperture there (always passed where there is none) and what it does after it.  The positions of losses are not modelled (C45, C115 have them).
-/

namespace Verif.Stable

open Verif

/-- `ExcessiveParticleLoss` (CollimateParticleProcess.cpp 471-475). -/
inductive Exn where
  | loss
deriving DecidableEq, Repr

/-- A component of the ring with the collimation at its centre (`COLL_AT_CENTER`, StableOrbits.cpp 40). -/
structure Elem (P : Type) where
  before : P → P
  inside : P → Bool
  after : P → P

/-- The bunch tracked, the list of indices and the number of particles lost. -/
structure St (P : Type) where
  bunch : List P
  index : List Nat
  nlost : Nat

variable {P : Type}

/-- `DoCollimation` without scattering (CollimateParticleProcess.cpp 204-476): nothing is done if all are inside; else bunch and index list are walked together, and the exception is thrown when the part
lost has reached the threshold, which is one (55).  An index list shorter than the bunch is walked beyond its end. -/
def collimate (nstart : Nat) (inside : P → Bool) (st : St P) : Outcome Exn (St P) :=
  if st.bunch.all inside then .ok st
  else if st.index.length < st.bunch.length then .ub
  else
    let kept := (st.bunch.zip st.index).filter fun q => inside q.1
    let nlost := st.nlost + (st.bunch.length - kept.length)
    if nstart ≤ nlost then .throw .loss
    else .ok ⟨kept.map (·.1), kept.map (·.2) ++ st.index.drop st.bunch.length, nlost⟩

/-- A component. -/
def pass (nstart : Nat) (e : Elem P) (st : St P) : Outcome Exn (St P) :=
  (collimate nstart e.inside ⟨st.bunch.map e.before, st.index, st.nlost⟩).bind fun st => .ok ⟨st.bunch.map e.after, st.index, st.nlost⟩

/-- `PerformTracking` once around the ring (TrackingSimulation.cpp 16-60). -/
def turn (nstart : Nat) : List (Elem P) → St P → Outcome Exn (St P)
  | [], st => .ok st
  | e :: l, st => (pass nstart e st).bind (turn nstart l)

/-- The turns after each other: the first with `Run`, the others with `Continue` (StableOrbits.cpp 44-58). -/
def turns (nstart : Nat) (ring : List (Elem P)) : Nat → St P → Outcome Exn (St P)
  | 0, st => .ok st
  | n + 1, st => (turn nstart ring st).bind (turns nstart ring n)

/-- `InitialiseProcess` (CollimateParticleProcess.cpp 68-85) for the copy of the bunch made by `Run` (TrackingSimulation.cpp 128-139, BunchConstructor.h 92-96). -/
def initial (bunch : List P) : St P := ⟨bunch, List.range bunch.length, 0⟩

/-- What the caller's list holds when the loop has ended. -/
def listed (ring : List (Elem P)) (nturns : Int) (bunch : List P) (index : List Nat) : Outcome Exn (List Nat) :=
  match nturns.toNat with
  | 0 => .ok index
  | n + 1 => (turns bunch.length ring (n + 1) (initial bunch)).bind fun st => .ok st.index

/-- What is left when `SelectStable` returns or throws: what was listed, and whether the list has been deleted. -/
structure Result where
  list : Outcome Exn (List Nat)
  deleted : Bool

/-- `SelectStable` (StableOrbits.cpp 35-61).  The process is given the list of the caller (41); the tracker is destroyed at the end, with it the process (ProcessStepManager.cpp 121-124): see the
model of its pointer in `Verif.Collimation`.  The bunch tracked is a copy, and the tracker does not own the source (37). -/
def selectStable (ring : List (Elem P)) (nturns : Int) (bunch : List P) (index : List Nat) : Result :=
  ⟨listed ring nturns bunch index, decide (Collimation.Ptr.user ∈ (Collimation.lifetime [.give]).freed)⟩

end Verif.Stable
