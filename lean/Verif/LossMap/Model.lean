import Mathlib.Algebra.Order.Field.Basic
import Verif.Common.Outcome

/-!
# Model of loss maps

Merlin++/LossMapCollimationOutput.cpp, CollimationOutput.h and DetailedCollimationOutput.cpp.  Doubles are elements of an
ordered field; counts, which are doubles in the code, are natural numbers.
-/

namespace Verif.LossMap
open Verif

variable {K : Type} [Field K] [LinearOrder K]

/-- What `Dispose` asks a component for: `GetQualifiedName`, `GetName`, `GetType`, `GetComponentLatticePosition` and
`GetLength`. -/
structure Comp (K : Type) where
  qname : String
  name : String
  type : String
  s : K
  len : K
  deriving DecidableEq

/-- `LossTypes` (CollimationOutput.h 28-34). -/
inductive Temp where
  | collimator | cold | warm | undefined
  deriving DecidableEq

/-- `LossData` (CollimationOutput.h 26-46), the particle being represented by its id. -/
structure LossData (K : Type) where
  elementName : String
  p : Int
  s : K
  interval : K
  position : K
  length : K
  lost : Nat
  temperature : Temp
  turn : Int
  deriving DecidableEq

/-- The loop that finds the interval of ten centimetres (LossMapCollimationOutput.cpp 33-44); `none` if it does not end
within `fuel` passes. -/
def findInterval (pos : K) : Nat → K → Option K
  | 0, _ => none
  | fuel + 1, inter =>
    if pos ≥ inter ∧ pos < inter + 1 / 10 then some inter else findInterval pos fuel (inter + 1 / 10)

/-- Kind of the loss (LossMapCollimationOutput.cpp 46-65). -/
def temperature (warm : List (K × K)) (c : Comp K) : Temp :=
  let t := if c.type = "Collimator" then Temp.collimator else Temp.cold
  warm.foldl (fun t r => if c.type ≠ "Collimator" ∧ c.s ≥ r.1 ∧ c.s ≤ r.2 then Temp.warm else t) t

/-- `LossMapCollimationOutput::Dispose` (LossMapCollimationOutput.cpp 13-71): the record that is appended.  The turn is
not stored. -/
def record (fuel : Nat) (warm : List (K × K)) (c : Comp K) (pos : K) (p : Int) : Option (LossData K) :=
  (findInterval pos fuel 0).map fun inter =>
    { elementName := c.qname, s := c.s, position := pos + c.s, length := c.len, lost := 1, interval := inter,
      temperature := temperature warm c, p := p, turn := 0 }

/-- A sequence of calls of `Dispose`: `DeadParticles` afterwards. -/
def disposeAll (fuel : Nat) (warm : List (K × K)) : List (Comp K × K × Int) → Option (List (LossData K))
  | [] => some []
  | l :: ls => (record fuel warm l.1 l.2.1 l.2.2).bind fun d => (disposeAll fuel warm ls).map fun ds => d :: ds

/-- `Compare_LossData` (CollimationOutput.h 126-129). -/
def compare (a b : LossData K) : Bool := decide (a.s + a.position + a.interval < b.s + b.position + a.interval)

/-- `OutputType`. -/
inductive Mode where
  | nearestelement | precise | tencm
  deriving DecidableEq

/-- `OutputLosses[outit].lost += 1`. -/
def bump (out : List (LossData K)) (outit : Nat) : List (LossData K) :=
  out.modify outit fun o => { o with lost := o.lost + 1 }

/-- `OutputLosses[outit].lost = 1`. -/
def setOne (out : List (LossData K)) (outit : Nat) : List (LossData K) := out.modify outit fun o => { o with lost := 1 }

/-- One pass of the loop of `Finalise` (LossMapCollimationOutput.cpp 91-110, 113-132, 135-159) on `OutputLosses` and
`outit`; an index beyond the end is undefined. -/
def step (m : Mode) (st : List (LossData K) × Nat) (it : LossData K) : Outcome Unit (List (LossData K) × Nat) :=
  match m with
  | .nearestelement =>
    let out := if st.1.length = 0 then st.1 ++ [it] else st.1
    match out[st.2]? with
    | none => .ub
    | some o =>
      if it.elementName = o.elementName then .ok (bump out st.2, st.2) else .ok (out ++ [it], st.2 + 1)
  | .precise =>
    let out := if st.1.length = 0 then st.1 ++ [it] else st.1
    match out[st.2]? with
    | none => .ub
    | some o => if it.position = o.position then .ok (bump out st.2, st.2) else .ok (out ++ [it], st.2 + 1)
  | .tencm =>
    if st.1.length = 0 then .ok (setOne (st.1 ++ [it]) st.2, st.2)
    else match st.1[st.2]? with
      | none => .ub
      | some o =>
        if it.elementName = o.elementName ∧ it.interval = o.interval then .ok (bump st.1 st.2, st.2)
        else .ok (setOne (st.1 ++ [it]) (st.2 + 1), st.2 + 1)

/-- The loop over `DeadParticles`. -/
def loop (m : Mode) : List (LossData K) → List (LossData K) × Nat → Outcome Unit (List (LossData K) × Nat)
  | [], st => .ok st
  | it :: l, st => (step m st it).bind (loop m l)

/-- `Finalise` (LossMapCollimationOutput.cpp 79-166) for `DeadParticles` already sorted, and the `OutputLosses` there
were before: `OutputLosses` afterwards. -/
def finalise (m : Mode) (sorted out : List (LossData K)) : Outcome Unit (List (LossData K)) :=
  (loop m sorted (out, 0)).bind fun st => .ok st.1

/-- `DetailedCollimationOutput::Dispose` (DetailedCollimationOutput.cpp 17-40): `DeadParticles` afterwards; `ids` are the
patterns of `AddIdentifier` as predicates. -/
def disposeDetailed (ids : List (String → Bool)) (dead : List (LossData K)) (c : Comp K) (pos : K) (p turn : Int) :
    List (LossData K) :=
  if ids.any fun m => m c.name then
    dead ++ [{ elementName := c.name, s := c.s, position := pos, length := c.len, lost := 1, turn := turn, p := p,
               interval := 0, temperature := .undefined }]
  else dead

/-- Headings of `DetailedCollimationOutput::Output` (DetailedCollimationOutput.cpp 44). -/
def detailedHeader : List String := ["name", "s", "pos", "x", "xp", "y", "yp", "type", "id", "location", "turn"]

/-- What a row contains (DetailedCollimationOutput.cpp 47-55). -/
def detailedRow : List String := ["name", "s", "pos", "x", "xp", "y", "yp", "id", "turn"]

end Verif.LossMap
