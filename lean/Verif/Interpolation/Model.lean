import Mathlib.Algebra.Order.Field.Basic
import Mathlib.Algebra.Order.Floor.Ring
import Mathlib.Data.List.Sort
import Verif.Common.Outcome

/-!
# Model of `Interpolation`

Sources: `Merlin++/Interpolation.h/.cpp`.

Simplifications: doubles are exact numbers of an ordered field, where a quotient by zero is zero (in C++ it
is an infinity or not a number); no theorem uses such a quotient.  The message of `BadRange` is left out,
its numbers are kept.  Loops that fill a vector element by element are written as operations on lists.
-/

namespace Verif.Interpolation
open Verif

/-- `ArbSpacedData::Data` (Interpolation.cpp 24-32). -/
structure Pt (K : Type) where
  x : K
  y : K
  deriving DecidableEq, Repr

/-- `Interpolation::BadRange` (Interpolation.cpp 249-255): argument and ends of the table. -/
structure BadRange (K : Type) where
  x : K
  lower : K
  upper : K
  deriving DecidableEq, Repr

section
variable {K : Type} [Field K] [LinearOrder K]

/-- `v[i]` of a `std::vector`. -/
def at? {α ε : Type} (v : List α) (i : Int) : Outcome ε α :=
  if i < 0 then .ub
  else match v[i.toNat]? with
    | some a => .ok a
    | none => .ub

/-- `evaluatepoly` (Interpolation.h 52-60): Horner's scheme from the last coefficient. -/
def evaluatepoly {ε : Type} (x : K) (p : List K) : Outcome ε K :=
  match p.reverse with
  | [] => .ub
  | c :: cs => .ok (cs.foldl (fun s c => s * x + c) c)

/-- One row of the new table (Interpolation.cpp 116-129): from the rows `p` (of point `i`, at `xi`) and `q`
(of point `i + 1`), where `xk` is the place of point `i + k`. -/
def row (xi xk : K) (p q : List K) : List K :=
  let first := List.zipWith (fun a b => (-xk * a + xi * b) / (xi - xk)) p q ++ [0]
  let second := 0 :: List.zipWith (fun a b => (a - b) / (xi - xk)) p q
  List.zipWith (· + ·) first second

/-- `itsData[i].x`; the index is always in range here. -/
def px (data : List (Pt K)) (i : Nat) : K := (data.getD i ⟨0, 0⟩).x

/-- `itsData[i].y`; the index is always in range here. -/
def py (data : List (Pt K)) (i : Nat) : K := (data.getD i ⟨0, 0⟩).y

/-- The table after `k` iterations (Interpolation.cpp 98-138). -/
def table (data : List (Pt K)) : Nat → List (List K)
  | 0 => data.map fun d => [d.y]
  | k + 1 =>
    (List.range (data.length - (k + 1))).map fun i =>
      row (px data i) (px data (i + (k + 1))) ((table data k).getD i []) ((table data k).getD (i + 1) [])

/-- `ArbSpacedData` (Interpolation.cpp 20-43). -/
structure Arb (K : Type) where
  data : List (Pt K)
  order : Int
  q : List (List K)
  lastseenat : Int

/-- The constructor from vectors (Interpolation.cpp 77-140): a failing assertion is undefined.  `std::sort`
is a stable sort here; with distinct places the result is the same for every sorting method. -/
def mkArb {ε : Type} (xs ys : List K) (order : Int) : Outcome ε (Arb K) :=
  if xs.length = ys.length then
    let data := (List.zipWith Pt.mk xs ys).insertionSort (fun a b => a.x ≤ b.x)
    let n : Int := xs.length
    let ord := if order > n - 1 then n - 1 else order
    .ok ⟨data, ord, if ord ≥ 1 then table data ord.toNat else [], 0⟩
  else .ub

/-- The constructor from arrays (Interpolation.cpp 164-170): the object built from the vectors is a
temporary, the members of the new object are left as they are, the order not initialised. -/
def mkArbArray {ε : Type} (xs ys : List K) (order garbage : Int) : Outcome ε (Arb K) := do
  let _ ← mkArb xs ys order
  .ok ⟨[], garbage, [], garbage⟩

/-- `while(x > itsData[lastseenat].x) lastseenat += 1;` (Interpolation.cpp 184-185), with a bound on the
number of rounds: leaving the table is undefined. -/
def up {ε : Type} (data : List (Pt K)) (x : K) : Nat → Int → Outcome ε Int
  | 0, _ => .ub
  | fuel + 1, l => do
    let d ← at? data l
    if x > d.x then up data x fuel (l + 1) else .ok l

/-- `while(x < itsData[lastseenat].x) lastseenat -= 1;` (Interpolation.cpp 186-187). -/
def down {ε : Type} (data : List (Pt K)) (x : K) : Nat → Int → Outcome ε Int
  | 0, _ => .ub
  | fuel + 1, l => do
    let d ← at? data l
    if x < d.x then down data x fuel (l - 1) else .ok l

/-- The binary search (Interpolation.cpp 206-219). -/
def search {ε : Type} (data : List (Pt K)) (x : K) (ju jl : Nat) : Outcome ε Nat :=
  if _h : ju - jl > 1 then
    match data[(ju + jl) / 2]? with
    | none => .ub
    | some d => if x > d.x then search data x ju ((ju + jl) / 2) else search data x ((ju + jl) / 2) jl
  else .ok jl
termination_by ju - jl

/-- `ArbSpacedData::ValueAt` (Interpolation.cpp 172-222): the value, the error estimate if one is made, and
the object afterwards. -/
def valueAt (a : Arb K) (x : K) : Outcome (BadRange K) (K × Option K × Arb K) :=
  match a.data.head?, a.data.getLast? with
  | some f, some b =>
    if x < f.x ∨ x > b.x then .throw ⟨x, f.x, b.x⟩
    else if a.order > 1 then do
      let l ← up a.data x (a.data.length + 1) a.lastseenat
      let l ← down a.data x (a.data.length + 1) l
      let qsize : Int := a.q.length
      let iwant := max 0 (l - (a.order + 1) / 2 - 1)
      let iwant := min iwant (qsize - 2)
      let v1 ← evaluatepoly x (← at? a.q iwant)
      let v2 ← evaluatepoly x (← at? a.q (iwant + 1))
      .ok ((v1 + v2) / 2, some |v1 - v2|, { a with lastseenat := l })
    else do
      let jl ← search a.data x a.data.length 0
      let d ← at? a.data jl
      let e ← at? a.data (jl + 1)
      let m := (e.y - d.y) / (e.x - d.x)
      .ok (d.y + (x - d.x) * m, none, a)
  | _, _ => .ub

end

section
variable {K : Type} [Field K] [LinearOrder K] [FloorRing K]

/-- `EqualSpacedData` (Interpolation.cpp 47-65); the order is stored but not used. -/
structure Equal (K : Type) where
  yvals : List K
  xmin : K
  xmax : K
  dx : K

/-- Its constructor (Interpolation.cpp 51-56); for an empty vector `size() - 1` wraps, here it is -1. -/
def mkEqual {ε : Type} (yv : List K) (xm delta : K) : Outcome ε (Equal K) :=
  if delta > 0 then .ok ⟨yv, xm, xm + ((yv.length : K) - 1) * delta, delta⟩ else .ub

/-- `EqualSpacedData::ValueAt` (Interpolation.cpp 227-247). -/
def equalValueAt {ε : Type} (e : Equal K) (x : K) : Outcome ε K := do
  let n : Int :=
    if x < e.xmin then 0
    else if x > e.xmax then e.yvals.length - 2
    else ⌊(x - e.xmin) / e.dx⌋
  let y1 ← at? e.yvals (n + 1)
  let y0 ← at? e.yvals n
  let m := (y1 - y0) / e.dx
  let x0 := e.xmin + e.dx * n
  .ok (y0 + m * (x - x0))

end

end Verif.Interpolation
