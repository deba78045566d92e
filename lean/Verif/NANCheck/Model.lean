import Mathlib.Algebra.Order.Field.Basic
import Mathlib.Algebra.Order.Group.Abs
import Mathlib.Order.Fin.Basic
import Mathlib.Data.Fintype.Defs
import Mathlib.Data.Fintype.Pi
import Verif.Common.Outcome

/-!
# Model of `NANCheckProcess` and of the halo filters

Source: `Merlin++/NANCheckProcess.cpp`, `NANCheckProcess.h`, `BunchFilter.cpp`.

A coordinate is a value of a type `D` with the test `fin` for `std::isfinite`.  Identifiers fit the type `int` of the
argument of `Report` (NANCheckProcess.cpp 71) and are exact as doubles in the set `reported`.
-/

namespace Verif.NANCheck
open Verif

variable {D : Type}

/-- `PSvector` (PSvector.h 30-40). -/
structure Particle (D : Type) where
  v : Fin 6 → D
  pid : Int
  deriving DecidableEq

/-- `is_good` (NANCheckProcess.cpp 27-31). -/
def isGood (fin : D → Bool) (p : Particle D) : Bool :=
  fin (p.v 0) && fin (p.v 2) && fin (p.v 4) && fin (p.v 1) && fin (p.v 3) && fin (p.v 5)

/-- What is printed for a particle: the index, the id and the coordinates at the start of the element before, at the start
of this element and now. -/
structure Entry (D : Type) where
  index : Nat
  pid : Int
  prev : Option (Particle D)
  start : Option (Particle D)
  current : Option (Particle D)
  deriving DecidableEq

/-- `abort()`. -/
inductive Exn where
  | abort
  deriving DecidableEq

/-- Members of the process (NANCheckProcess.h 62-71) with the current bunch. -/
structure Proc (D : Type) where
  detailed : Bool
  cull : Bool
  halt : Bool
  start : List (Particle D)
  prev : List (Particle D)
  reported : List Int
  bunch : List (Particle D)

/-- Constructor (NANCheckProcess.cpp 16-20) and `InitialiseProcess`. -/
def Proc.new (b : List (Particle D)) : Proc D := ⟨false, false, false, [], [], [], b⟩

/-- `find_if` for an id. -/
def findId (i : Int) (l : List (Particle D)) : Option (Particle D) := l.find? fun p => p.pid == i

/-- `Report` (NANCheckProcess.cpp 71-97).  In detailed mode `*p_start` is read without a test: undefined behaviour when
the id is not among the coordinates at the start of the element. -/
def report (s : Proc D) (n : Nat) (i : Int) : Outcome Exn (Entry D) :=
  if s.detailed then
    match findId i s.start with
    | none => .ub
    | some q => .ok ⟨n, i, findId i s.prev, some q, findId i s.bunch⟩
  else .ok ⟨n, i, none, none, findId i s.bunch⟩

/-- The loop of `DoProcess` (NANCheckProcess.cpp 38-64) from a particle on: `n` is `count`, `rep` the set `reported`.  The
results are the set, `do_cull` and what was printed. -/
def scan (fin : D → Bool) (s : Proc D) : List (Particle D) → Nat → List Int → Bool → Outcome Exn (List Int × Bool × List (Entry D))
  | [], _, rep, c => .ok (rep, c, [])
  | p :: l, n, rep, c =>
    if rep.contains p.pid then scan fin s l n rep c
    else if !isGood fin p then
      (report s n p.pid).bind fun e =>
        if s.halt then .throw .abort
        else (scan fin s l (n + 1) (p.pid :: rep) (c || s.cull)).bind fun r => .ok (r.1, r.2.1, e :: r.2.2)
    else scan fin s l (n + 1) rep c

/-- `DoCull` (NANCheckProcess.cpp 99-113): `swap` exchanges the particles only. -/
def doCull (fin : D → Bool) (b : List (Particle D)) : List (Particle D) := b.filter (isGood fin)

/-- `DoProcess` (NANCheckProcess.cpp 33-69). -/
def doProcess (fin : D → Bool) (s : Proc D) : Outcome Exn (Proc D × List (Entry D)) :=
  (scan fin s s.bunch 0 s.reported false).bind fun r =>
    .ok ({ s with reported := r.1, bunch := if r.2.1 then doCull fin s.bunch else s.bunch }, r.2.2)

/-- `SetCurrentComponent` (NANCheckProcess.cpp 120-130). -/
def setCurrentComponent (s : Proc D) : Proc D :=
  if s.detailed then { s with prev := s.start, start := s.bunch } else s

/-- One element: `SetCurrentComponent`, tracking by the other processes, `DoProcess`. -/
def element (fin : D → Bool) (track : List (Particle D) → List (Particle D)) (s : Proc D) :
    Outcome Exn (Proc D × List (Entry D)) :=
  let s1 := setCurrentComponent s
  doProcess fin { s1 with bunch := track s1.bunch }

/-- A run through several elements, collecting what is printed. -/
def run (fin : D → Bool) : List (List (Particle D) → List (Particle D)) → Proc D → Outcome Exn (Proc D × List (Entry D))
  | [], s => .ok (s, [])
  | t :: ts, s =>
    (element fin t s).bind fun r => (run fin ts r.1).bind fun q => .ok (q.1, r.2 ++ q.2)

/-! ## Halo filters -/

variable {K : Type} [Field K] [LinearOrder K]

/-- `HorizontalHaloParticleBunchFilter::Apply` (BunchFilter.cpp 18-28) on x and xp. -/
def horizontal (orbit limit x xp : K) : Bool :=
  if x > orbit + limit ∨ x < orbit - limit then
    if x ≠ 0 ∧ xp ≠ 0 then true else false
  else false

/-- `VerticalHaloParticleBunchFilter::Apply` (BunchFilter.cpp 42-49) on y. -/
def vertical (limit y : K) : Bool := if |y| > limit then true else false

end Verif.NANCheck
