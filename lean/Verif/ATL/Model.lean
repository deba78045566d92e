import Mathlib.Algebra.Order.Field.Basic
import Mathlib.Algebra.BigOperators.Group.Finset.Basic
import Mathlib.Data.List.Sort
import Verif.Common.Outcome

/-!
# Model of the ground motion

Merlin++/SimpleATL.cpp and Merlin++/ATL2D.cpp.  Doubles are elements of an ordered field, `sqrt` is the square root of the
library.  The generator is a stream `x` of standard normal numbers, of which the first `k` are used up: a new
`normal_distribution` of standard deviation `σ` gives `σ` times the next of them.
-/

namespace Verif.ATL
open Verif

variable {K : Type} [Field K] [LinearOrder K]

/-- An `AcceleratorSupport` (AcceleratorSupport.h 28-97); `modified` is left out. -/
structure Sup (K : Type) where
  arc : K
  x : K
  z : K
  off : K × K × K

/-- `AcceleratorSupport::Reset` (AcceleratorSupport.h 149-153). -/
def Sup.reset (s : Sup K) : Sup K := { s with off := (0, 0, 0) }

/-- `v != 0 ? normal_distribution<>{0, sqrt(v)}(*rng) : 0.0` (SimpleATL.cpp 43, 47; ATL2D.cpp 45).  The square root of a
negative number, which is not a number, is `ub`. -/
def draw (sqrt : K → K) (x : Nat → K) (v : K) (k : Nat) : Outcome Unit (K × Nat) :=
  if v = 0 then .ok (0, k) else if v < 0 then .ub else .ok (sqrt v * x k, k + 1)

/-! ## SimpleATL -/

/-- `for_each` with `ApplyATL` (SimpleATL.cpp 34-52): the supports, the ground motion and the numbers used. -/
def applyAll (sqrt : K → K) (x : Nat → K) (AT vv : K) : K → K → Nat → List (Sup K) → List K →
    Outcome Unit (List (Sup K) × List K × Nat)
  | _, _, k, [], gs => .ok ([], gs, k)
  | _, _, _, _ :: _, [] => .ub
  | y, z, k, s :: l, g :: gs =>
    (draw sqrt x (AT * (s.arc - z)) k).bind fun d =>
    (draw sqrt x vv d.2).bind fun n =>
    (applyAll sqrt x AT vv (y + d.1) s.arc n.2 l gs).bind fun r =>
    .ok ({ s with off := (0, g + (y + d.1) + n.1, 0) } :: r.1, (g + (y + d.1)) :: r.2.1, r.2.2)

/-- `SimpleATL` (SimpleATL.h 86-105), with the numbers used from the generator. -/
structure Simple (K : Type) where
  t : K
  A : K
  vv : K
  sup : List (Sup K)
  gm : List K
  k : Nat

/-- The constructor (SimpleATL.cpp 88-93).  `std::sort` leaves open the order of supports at the same arc position. -/
def Simple.new (A : K) (sup : List (Sup K)) (vrms : K) : Simple K :=
  ⟨0, A, vrms * vrms, sup.insertionSort fun a b => a.arc ≤ b.arc, List.replicate sup.length 0, 0⟩

/-- `Reset` (SimpleATL.cpp 99-104). -/
def Simple.reset (s : Simple K) : Simple K :=
  { s with sup := s.sup.map Sup.reset, gm := s.gm.map fun _ => 0, t := 0 }

/-- `DoStep` (SimpleATL.cpp 106-110). -/
def Simple.step (sqrt : K → K) (x : Nat → K) (s : Simple K) (dt : K) : Outcome Unit (Simple K) :=
  (applyAll sqrt x (s.A * dt) s.vv 0 0 s.k s.sup s.gm).bind fun r =>
  .ok { s with sup := r.1, gm := r.2.1, k := r.2.2, t := s.t + dt }

/-- Several calls of `DoStep`. -/
def Simple.run (sqrt : K → K) (x : Nat → K) (s : Simple K) : List K → Outcome Unit (Simple K)
  | [] => .ok s
  | dt :: l => (s.step sqrt x dt).bind fun s => Simple.run sqrt x s l

/-! ## ATL2D -/

/-- `ATL2D::ATLMode` (ATL2D.h 40-45). -/
inductive Mode
  | increment
  | absolute
  deriving DecidableEq

/-- `ATL2D` (ATL2D.h 98-118); `evecs` is `evecsT`. -/
structure Two (K : Type) where
  t : K
  A : K
  vv : K
  sup : List (Sup K)
  evecs : Nat → Nat → K
  evals : Nat → K
  mode : Mode
  k : Nat

/-- The matrix of the constructor (ATL2D.cpp 119-124): `dist` is the distance between two supports and `ref` the one of a
support to the reference point. -/
def corr (dist : Nat → Nat → K) (ref : Nat → K) (row col : Nat) : K :=
  if row ≤ col then (ref col + ref row - dist row col) / 2 else (ref row + ref col - dist col row) / 2

/-- The loop over `yy` (ATL2D.cpp 144-152), from `n` on, `b` times: the vector, a `valarray`,
starts with zeros. -/
def amplitudes (sqrt : K → K) (x : Nat → K) (at_ : K) (evals : Nat → K) : Nat → Nat → Nat →
    Outcome Unit ((Nat → K) × Nat)
  | 0, _, k => .ok (fun _ => 0, k)
  | b + 1, n, k =>
    if at_ * evals n = 0 then amplitudes sqrt x at_ evals b (n + 1) k
    else if at_ * evals n < 0 then .ub
    else (amplitudes sqrt x at_ evals b (n + 1) (k + 1)).bind fun r =>
      .ok (fun i => if i = n then sqrt (at_ * evals n) * x k else r.1 i, r.2)

/-- `evecsT * yy` (ATL2D.cpp 154). -/
def mulVec (n : Nat) (m : Nat → Nat → K) (v : Nat → K) (i : Nat) : K := ∑ c ∈ Finset.range n, m i c * v c

/-- `for_each` with `ApplyATL` (ATL2D.cpp 36-50), from support `n` on. -/
def applyTwo (sqrt : K → K) (x : Nat → K) (vv : K) (mode : Mode) (dy : Nat → K) : Nat → Nat → List (Sup K) →
    Outcome Unit (List (Sup K) × Nat)
  | _, k, [] => .ok ([], k)
  | n, k, s :: l =>
    match mode with
    | .increment =>
      (applyTwo sqrt x vv mode dy (n + 1) k l).bind fun r =>
      .ok ({ s with off := (s.off.1, s.off.2.1 + dy n, s.off.2.2) } :: r.1, r.2)
    | .absolute =>
      (draw sqrt x vv k).bind fun yv =>
      (applyTwo sqrt x vv mode dy (n + 1) yv.2 l).bind fun r =>
      .ok ({ s with off := (0, dy n + yv.1, 0) } :: r.1, r.2)

/-- `DoStep` (ATL2D.cpp 142-159). -/
def Two.step (sqrt : K → K) (x : Nat → K) (s : Two K) (dt : K) : Outcome Unit (Two K) :=
  let at_ := if s.mode = .increment then s.A * dt else s.A * s.t
  (amplitudes sqrt x at_ s.evals s.sup.length 0 s.k).bind fun a =>
  (applyTwo sqrt x s.vv s.mode (mulVec s.sup.length s.evecs a.1) 0 a.2 s.sup).bind fun r =>
  .ok { s with sup := r.1, k := r.2, t := s.t + dt }

/-- Several calls of `DoStep`. -/
def Two.run (sqrt : K → K) (x : Nat → K) (s : Two K) : List K → Outcome Unit (Two K)
  | [] => .ok s
  | dt :: l => (s.step sqrt x dt).bind fun s => Two.run sqrt x s l

/-- `SetATLMode` (ATL2D.cpp 198-207). -/
def Two.setMode (s : Two K) (mode : Mode) : Two K × Bool :=
  if s.mode = .increment ∧ s.vv > 0 then (s, false) else ({ s with mode := mode }, true)

/-- `SetVibration` (ATL2D.cpp 209-218). -/
def Two.setVibration (s : Two K) (vrms : K) : Two K × Bool :=
  if s.mode = .increment then (s, false) else ({ s with vv := vrms * vrms }, true)

/-- The numbers which `RecordEigenSystem` writes (ATL2D.cpp 225-232), row by row, without rounding. -/
def recordVecs (n : Nat) (evecs : Nat → Nat → K) : List K :=
  (List.range n).flatMap fun row => (List.range' row (n - row)).map fun col => evecs row col

/-- Reading a row (ATL2D.cpp 106-110). -/
def readRow (row : Nat) : List Nat → List K → (Nat → Nat → K) → Option ((Nat → Nat → K) × List K)
  | [], file, m => some (m, file)
  | _ :: _, [], _ => none
  | col :: l, e :: file, m =>
    readRow row l file fun i j => if (i = row ∧ j = col) ∨ (i = col ∧ j = row) then e else m i j

/-- Reading the rows (ATL2D.cpp 105-110), `b` of them from `row` on. -/
def readRows (n : Nat) : Nat → Nat → List K → (Nat → Nat → K) → Option (Nat → Nat → K)
  | 0, _, _, m => some m
  | b + 1, row, file, m =>
    match readRow row (List.range' row (n - row)) file m with
    | some (m, file) => readRows n b (row + 1) file m
    | none => none

/-- Reading the eigenvectors in the constructor (ATL2D.cpp 102-110). -/
def readVecs (n : Nat) (file : List K) : Option (Nat → Nat → K) := readRows n n 0 file fun _ _ => 0

end Verif.ATL
