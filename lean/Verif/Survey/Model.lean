import Mathlib.Algebra.Order.Field.Basic
import Mathlib.Algebra.Order.Floor.Ring
import Verif.Common.Outcome

/-!
# Model of the survey of apertures

Merlin++/ApertureSurvey.cpp.  Doubles are elements of an ordered field.  The output is a list of rows; the text of a row is
not modelled.
-/

namespace Verif.Survey
open Verif

variable {K : Type} [Field K] [LinearOrder K] [IsStrictOrderedRing K] [FloorRing K]

/-- `CheckWithinApertureBoundaries` of an aperture: `x`, `y` and the position in the element. -/
abbrev Ap (K : Type) := K → K → K → Bool

/-- The loop `while(above - below > delta)` (ApertureSurvey.cpp 69-81): `none` if it has not come to an end after the given
number of rounds. -/
def scan (inside : K → Bool) (delta : K) : Nat → K → K → Option (K × K)
  | 0, below, above => if above - below > delta then none else some (below, above)
  | n + 1, below, above =>
    if above - below > delta then
      let guess := (above + below) / 2
      if inside guess then scan inside delta n guess above else scan inside delta n below guess
    else some (below, above)

/-- `xdir` and `ydir` of a direction (ApertureSurvey.cpp 46-62). -/
def dirs : List (K × K) := [(1, 0), (-1, 0), (0, 1), (0, -1)]

/-- `CheckAperture` in one direction (ApertureSurvey.cpp 44-83).  Twenty rounds are enough (`scan_ends`); zero is the value
of `aps[dir]` before the loop. -/
def limit (ap : Ap K) (s : K) (d : K × K) : K :=
  match scan (fun g => ap (d.1 * g) (d.2 * g) s) (1 / 1000000) 20 0 1 with
  | some r => (r.2 + r.1) / 2
  | none => 0

/-- `CheckAperture` (ApertureSurvey.cpp 34-84). -/
def checkAperture (ap : Ap K) (s : K) : List K := dirs.map (limit ap s)

/-- `SurveyType` (ApertureSurvey.h 38-46). -/
inductive Mode
  | pointsPerElement
  | distance
  | absDistance
  deriving DecidableEq

/-- An element of the beamline. -/
structure Elem (K : Type) where
  name : Nat
  len : K
  pos : K
  ap : Option (Ap K)

/-- `for(double sample = 0; sample <= len; sample += step_size)` (ApertureSurvey.cpp 150-153), for at most the given number
of rounds. -/
def upTo (step len : K) : Nat → K → List K
  | 0, _ => []
  | n + 1, sample => if sample ≤ len then sample :: upTo step len n (sample + step) else []

/-- `while(last_sample + step_size < s + len)` (ApertureSurvey.cpp 157-161), for at most the given number of rounds. -/
def onwards (step s len : K) : Nat → K → List K × K
  | 0, last => ([], last)
  | n + 1, last =>
    if last + step < s + len then
      let r := onwards step s len n (last + step)
      ((last + step - s) :: r.1, r.2)
    else ([], last)

/-- The points within an element (ApertureSurvey.cpp 138-163) and the new `last_sample`.  The numbers of rounds are more
than enough (`distance_partial`, `abs_spec`). -/
def points (mode : Mode) (step : K) (s last len : K) : List K × K :=
  match mode with
  | .pointsPerElement =>
    let n := ⌊step⌋₊
    ((0 :: (List.range' 1 (n - 1)).map fun i : Nat => i * len * (1 / ((n : K) - 1))), last)
  | .distance => (upTo step len (⌊len / step⌋₊ + 2) 0 ++ [len], last)
  | .absDistance => onwards step s len (⌊(s + len - last) / step⌋₊ + 1) last

/-- A row of the output: the name, the end and the length of the element, the place and the limits. -/
structure Row (K : Type) where
  name : Nat
  sEnd : K
  len : K
  s : K
  lims : List K
  deriving DecidableEq

/-- The rows of an element (ApertureSurvey.cpp 166-189). -/
def rows (e : Elem K) (s : K) (zs : List K) : List (Row K) :=
  zs.map fun z => ⟨e.name, e.pos + e.len, e.len, s + z, match e.ap with
    | some ap => checkAperture ap z
    | none => [1, 1, 1, 1]⟩

/-- The loop over the beamline (ApertureSurvey.cpp 120-191). -/
def loop (mode : Mode) (step : K) : List (Elem K) → K → K → Outcome String (List (Row K))
  | [], _, _ => .ok []
  | e :: l, s, last =>
    if e.len = 0 then loop mode step l s last
    else if |s - e.pos| > 1 / 1000000 then .throw "discrepancy"
    else
      let p := points mode step s last e.len
      match loop mode step l (s + e.len) p.2 with
      | .ok r => .ok (rows e s p.1 ++ r)
      | .throw m => .throw m
      | .ub => .ub

/-- `ApertureSurvey` (ApertureSurvey.cpp 86-191). -/
def survey (mode : Mode) (step : K) (l : List (Elem K)) : Outcome String (List (Row K)) :=
  match mode with
  | .pointsPerElement => if step < 0 then .ub else if ⌊step⌋₊ < 1 then .throw "step" else loop mode step l 0 (0 - step)
  | _ => if step ≤ 0 then .throw "step" else loop mode step l 0 (0 - step)

end Verif.Survey
