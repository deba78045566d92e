import Verif.Aperture.Model

/-!
# Model of the configuration of apertures from a table

`Merlin++/ApertureConfiguration.cpp`.  Data tables are lists of records.  Components are given by their type,
position and length; those with an aperture or of zero length are skipped by the code (67-70).  Lengths are
numbers of an ordered field.
-/

namespace Verif.ApertureConfig
open Verif Verif.Aperture

variable {K : Type} [Field K] [LinearOrder K]

/-- A row of the table made by the constructor (ApertureConfiguration.cpp 36-41). -/
structure Entry (K : Type) where
  type : String
  row : Row K
  deriving DecidableEq, Repr

/-- The place of a row. -/
abbrev Entry.s (e : Entry K) : K := e.row.s

/-- The same row at another place. -/
def Entry.at (e : Entry K) (s : K) : Entry K := { e with row := { e.row with s := s } }

/-- A row of the file that is read: the end and the length of an element and its aperture. -/
structure Source (K : Type) where
  type : String
  row : Row K
  len : K
  deriving DecidableEq, Repr

/-- The constructor (ApertureConfiguration.cpp 43-52): rows without dimensions are left out, others are entered
for the beginning and the end of the element. -/
def table : List (Source K) → List (Entry K)
  | [] => []
  | r :: l =>
    if r.row.ap1 ≠ 0 ∨ r.row.ap2 ≠ 0 ∨ r.row.ap3 ≠ 0 ∨ r.row.ap4 ≠ 0 then
      (⟨r.type, r.row⟩ : Entry K).at (r.row.s - r.len) :: ⟨r.type, r.row⟩ :: table l
    else table l

/-- `std::lower_bound` by `S` (ApertureConfiguration.cpp 75-78, 86-89): the index of the first row not before
the position.  The rows have to be partitioned by being before the position. -/
def lowerBound (l : List (Entry K)) (pos : K) : Outcome Unit Nat :=
  let i := l.findIdx (fun e => ¬ e.s < pos)
  if (l.drop i).all (fun e => ¬ e.s < pos) then .ok i else .ub

/-- What a component gets as its aperture; nothing for an unknown type. -/
inductive Configured (K : Type) where
  | plain (a : Ap K)
  | interpolated (k : Kind) (l : List (Row K))
  | nothing
  deriving DecidableEq, Repr

/-- `ApertureFactory::GetInstance` of a row of the table. -/
def plainOf (tan : K → K) (pi : K) (e : Entry K) : Configured K :=
  match factory tan pi e.type e.row with
  | some a => .plain a
  | none => .nothing

/-- Components that are not drifts (ApertureConfiguration.cpp 73-83). -/
def configureElement (tan : K → K) (pi : K) (l : List (Entry K)) (pos : K) : Outcome Unit (Configured K) :=
  lowerBound l pos >>= fun i =>
  match l[i]? with
  | none => .ub
  | some e => .ok (plainOf tan pi e)

/-- The rows gathered for a drift (ApertureConfiguration.cpp 86-140): the row before the position, or the last
one if there is none, the rows up to the end of the drift, and the next row, or the first one if there is
none. -/
def gather (l : List (Entry K)) (pos len : K) : Outcome Unit (List (Entry K)) :=
  lowerBound l pos >>= fun i0 =>
  let i := if i0 = l.length then i0 - 1 else i0
  match l.head?, l.getLast? with
  | some first, some last =>
    let before := if i = 0 then last else l.getD (i - 1) last
    let mid := (l.drop i).takeWhile (fun e => e.s ≤ pos + len)
    let next := l.getD (i + mid.length) first
    .ok (before :: mid ++ [next])
  | _, _ => .ub

/-- `fequal(s - pos, 0.0, tol)` (utils.h 16-19). -/
def near (s pos tol : K) : Bool := |s - pos - 0| ≤ tol

/-- The cleaning (ApertureConfiguration.cpp 142-176): rows at the position are counted and moved exactly there;
as many rows as there are negative ones, or one fewer, are left out at the front. -/
def clean (l : List (Entry K)) (pos : K) : List (Entry K) :=
  let negcount := l.countP (fun e => e.s - pos < 0)
  let zeroentry := l.any (fun e => near e.s pos (1 / 10000000))
  let l' := l.map (fun e => if near e.s pos (1 / 10000000) then e.at pos else e)
  if zeroentry then l'.drop negcount else l'.drop (negcount - 1)

/-- The first row is moved to the position if it is near (ApertureConfiguration.cpp 178-181); this throws
without rows. -/
def snap (l : List (Entry K)) (pos : K) : Outcome Unit (List (Entry K)) :=
  match l with
  | [] => .throw ()
  | e :: l => .ok ((if near e.s pos (5 / 10000000) then e.at pos else e) :: l)

/-- The dimensions of two rows differ (ApertureConfiguration.cpp 188-191). -/
def differs (a b : Row K) : Bool := a.ap1 ≠ b.ap1 ∨ a.ap2 ≠ b.ap2 ∨ a.ap3 ≠ b.ap3 ∨ a.ap4 ≠ b.ap4

/-- `InterpolatorFactory::GetInstance` (InterpolatedApertures.cpp 497-514): by the type of the first row. -/
def interpolatedOf (l : List (Entry K)) : Configured K :=
  match l with
  | [] => .nothing
  | e :: _ =>
    let rows := l.map (·.row)
    if e.type = "RECTELLIPSE" then .interpolated .rectEllipse rows
    else if e.type = "CIRCLE" then .interpolated .circle rows
    else if e.type = "RECTANGLE" then .interpolated .rect rows
    else if e.type = "ELLIPSE" then .interpolated .ellipse rows
    else if e.type = "OCTAGON" then .interpolated .octagon rows
    else .nothing

/-- The dimensions of a row as those of a rectangle-ellipse (ApertureConfiguration.cpp 221-259); the type of
the row is left as it is. -/
def convert (e : Entry K) : Entry K :=
  let r := e.row
  if e.type = "CIRCLE" then { e with row := { r with ap2 := r.ap1, ap3 := r.ap1, ap4 := r.ap1 } }
  else if e.type = "ELLIPSE" ∨ e.type = "RECTANGLE" then { e with row := { r with ap3 := r.ap1, ap4 := r.ap2 } }
  else e

/-- Drifts (ApertureConfiguration.cpp 84-284); the loop over `this_ap` ends in its first pass. -/
def configureDrift (tan : K → K) (pi : K) (l : List (Entry K)) (pos len : K) : Outcome Unit (Configured K) :=
  gather l pos len >>= fun g =>
  snap (clean g pos) pos >>= fun c =>
  match c with
  | [] => .throw ()
  | e :: _ =>
    if c.any (fun x => differs e.row x.row) then
      let shifted := c.map (fun x => x.at (x.s - pos))
      if c.all (fun x => e.type = x.type) then .ok (interpolatedOf shifted)
      else if (c.any (fun x => x.type = "RECTELLIPSE" ∨ x.type = "CIRCLE" ∨ x.type = "ELLIPSE")) ∧
          c.any (fun x => x.type = "OCTAGON") then .throw ()
      else .ok (interpolatedOf (shifted.map convert))
    else .ok (plainOf tan pi e)

end Verif.ApertureConfig
