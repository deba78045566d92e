import Mathlib.Algebra.Order.Field.Basic
import Mathlib.Order.Fin.Basic
import Mathlib.Data.Fintype.Defs
import Mathlib.Data.Fintype.Pi
import Verif.Common.Outcome

/-!
# Model of particle bunches

Merlin++/ParticleBunch.cpp, ParticleBunch.h, PSvector.h, ReferenceParticle.h.  Doubles are elements of an ordered
field.
-/

namespace Verif.Bunch
open Verif

variable {K : Type} [Field K] [LinearOrder K] [IsStrictOrderedRing K]

/-- Phase space coordinates x, xp, y, yp, ct, dp (PSvector.h 21-28). -/
abbrev Coord := Fin 6

def ps_CT : Coord := 4
def ps_DP : Coord := 5

/-- `PSvector` (PSvector.h 30-40): six coordinates and an id; `none` is an id that was never set, since the constructors
do not set it. -/
structure Particle (K : Type) where
  v : Coord → K
  pid : Option Int
  deriving DecidableEq

/-- `ParticleBunch` (ParticleBunch.h 300-316) with the members of `ReferenceParticle` (ReferenceParticle.h 85-99) that
its functions use. -/
structure PBunch (K : Type) where
  p0 : K
  ct0 : K
  qPerMP : K
  ps : List (Particle K)

/-! ## Means and moments -/

/-- `APSV1::operator()` (ParticleBunch.cpp 46-53) on the number of calls so far and the mean. -/
def apsv1 (s : K × (Coord → K)) (p : Particle K) : K × (Coord → K) :=
  let w := s.1 + 1
  (w, fun i => s.2 i + (p.v i - s.2 i) / w)

/-- `GetCentroid` (ParticleBunch.cpp 244-249). -/
def getCentroid (ps : List (Particle K)) : Coord → K := (ps.foldl apsv1 (0, fun _ => 0)).2

/-- `PSVVAR1::operator()` (ParticleBunch.cpp 83-91).  The cells `(i, j)` with `j ≤ i` are updated independently of
each other, `(j, i)` is the same cell as `(i, j)`. -/
def psvvar1 (m : Coord → K) (s : K × (Coord → Coord → K)) (p : Particle K) : K × (Coord → Coord → K) :=
  let w := s.1 + 1
  (w, fun i j =>
    let a := max i j
    let b := min i j
    s.2 a b + ((p.v a - m a) * (p.v b - m b) - s.2 a b) / w)

/-- `GetMoments` (ParticleBunch.cpp 227-233): first and second moments.  What `sigma` contained is overwritten. -/
def getMoments (ps : List (Particle K)) : (Coord → K) × (Coord → Coord → K) :=
  let m := (ps.foldl apsv1 (0, fun _ => 0)).2
  (m, (ps.foldl (psvvar1 m) (0, fun _ _ => 0)).2)

/-- `Mean` (ParticleBunch.cpp 117-127). -/
def meanOf (ps : List (Particle K)) (i : Coord) : K :=
  (ps.foldl (fun (s : K × K) p => (s.1 + 1, s.2 + (p.v i - s.2) / (s.1 + 1))) (0, 0)).2

/-- `GetMoments` of one coordinate (ParticleBunch.cpp 251-263).  The code returns the square root of the second
value. -/
def getMoments1 (ps : List (Particle K)) (i : Coord) : K × K :=
  let u := meanOf ps i
  let v := (ps.foldl (fun (s : K × K) p =>
    let x := p.v i - u
    (s.1 + 1, s.2 + (x * x - s.2) / (s.1 + 1))) (0, 0)).2
  (u, v)

/-- `PSmoments2D`: two means and the three second moments. -/
structure Moments2D (K : Type) where
  m0 : K
  m1 : K
  s00 : K
  s01 : K
  s11 : K
  deriving DecidableEq

/-- `APSV2` over the bunch (ParticleBunch.cpp 57-73), also `GetProjectedCentroid` (265-268). -/
def projCentroid (ps : List (Particle K)) (u v : Coord) : K × K :=
  let w := 1 / (ps.length : K)
  ps.foldl (fun s p => (s.1 + w * p.v u, s.2 + w * p.v v)) (0, 0)

/-- `PSVVAR2::operator()` (ParticleBunch.cpp 106-113). -/
def psvvar2 (w : K) (u v : Coord) (s : Moments2D K) (p : Particle K) : Moments2D K :=
  let x := p.v u - s.m0
  let y := p.v v - s.m1
  { s with s00 := s.s00 + w * x * x, s01 := s.s01 + w * x * y, s11 := s.s11 + w * y * y }

/-- `GetProjectedMoments` (ParticleBunch.cpp 235-242), given the content of `sigma`. -/
def getProjectedMoments (ps : List (Particle K)) (u v : Coord) (sigma : Moments2D K) : Moments2D K :=
  let X := projCentroid ps u v
  ps.foldl (psvvar2 (1 / (ps.length : K)) u v) { sigma with m0 := X.1, m1 := X.2 }

/-! ## Reference values -/

/-- `SetReferenceMomentum` (ReferenceParticle.h 124-128). -/
def setReferenceMomentum (b : PBunch K) (p : K) : Outcome Unit (PBunch K) :=
  if 0 < p then .ok { b with p0 := p } else .ub

/-- `AdjustRefMomentum` (ParticleBunch.cpp 275-287).  A division by zero gives no number in the code; the reference
momentum is zero then, so the call ends in the failing assertion. -/
def adjustRefMomentum (b : PBunch K) (dpp : K) : Outcome Unit (PBunch K × K) :=
  let onePlusDpp := 1 + dpp
  let ps := b.ps.map fun p => { p with v := Function.update p.v ps_DP ((p.v ps_DP - dpp) / onePlusDpp) }
  let P0 := onePlusDpp * b.p0
  (setReferenceMomentum { b with ps := ps } P0).bind fun b => .ok (b, P0)

/-- `AdjustRefMomentumToMean` (ParticleBunch.cpp 270-273). -/
def adjustRefMomentumToMean (b : PBunch K) : Outcome Unit (PBunch K × K) := adjustRefMomentum b (meanOf b.ps ps_DP)

/-- `AdjustRefTimeToMean` (ParticleBunch.cpp 289-300). -/
def adjustRefTimeToMean (b : PBunch K) : PBunch K × K :=
  let meanct := meanOf b.ps ps_CT
  let ps := b.ps.map fun p => { p with v := Function.update p.v ps_CT (p.v ps_CT - meanct) }
  let CT := b.ct0 - meanct
  ({ b with ps := ps, ct0 := CT }, CT)

/-! ## Centroid particle -/

/-- `SetCentroid` (ParticleBunch.cpp 386-400).  The first particle of an empty bunch is undefined. -/
def setCentroid (b : PBunch K) : Outcome Unit (PBunch K) :=
  match b.ps with
  | [] => .ub
  | first :: rest =>
    let c := getCentroid b.ps
    let x := fun i => c i - first.v i
    .ok { b with ps := first :: rest.map fun p => { p with v := fun i => p.v i - x i } }

/-- `SetCentroid(x0)` (ParticleBunch.cpp 402-406). -/
def setCentroidTo (b : PBunch K) (x0 : Particle K) : Outcome Unit (PBunch K) :=
  match b.ps with
  | [] => .ub
  | _ :: rest => setCentroid { b with ps := x0 :: rest }

/-! ## Construction and charge -/

/-- `GetTotalCharge` (ParticleBunch.cpp 222-225). -/
def getTotalCharge (b : PBunch K) : K := b.qPerMP * b.ps.length

/-- Constructor from an array (ParticleBunch.cpp 140-145): the bunch and what the array holds afterwards.  With an empty
array the charge per particle is no number in the code, zero here. -/
def fromArray (P0 Q : K) (particles : List (Particle K)) : Outcome Unit (PBunch K × List (Particle K)) :=
  if 0 < P0 then .ok (⟨P0, 0, Q / particles.length, particles⟩, []) else .ub

/-- `swap` (ParticleBunch.h 319-324): the argument is a copy, so the bunch the caller gave is not changed.  Results: this
bunch, the caller's other bunch. -/
def swap (a b : PBunch K) : PBunch K × PBunch K :=
  let copy := b
  ({ a with ps := copy.ps }, b)

/-- Loop of the constructor with a generator (ParticleBunch.cpp 183-217).  `draw k` is the `k`-th vector of the
generator, `F` the scaling by the emittances followed by the matrix (189-197), `c` the centroid, `i` the number of
particles so far.  `none` when `fuel` does not suffice. -/
def genLoop (draw : Nat → Coord → K) (F : (Coord → K) → Coord → K) (c : Coord → K)
    (filter : Option (Particle K → Bool)) (np : Nat) : Nat → Nat → Nat → List (Particle K) → Option (List (Particle K))
  | 0, _, i, acc => if i < np then none else some acc
  | fuel + 1, k, i, acc =>
    if i < np then
      let p : Particle K := ⟨fun j => F (draw k) j + c j, some i⟩
      if filter.all (fun f => f p) then genLoop draw F c filter np fuel (k + 1) (i + 1) (acc ++ [p])
      else genLoop draw F c filter np fuel (k + 1) i acc
    else some acc

/-- Constructor with a generator (ParticleBunch.cpp 165-220). -/
def generate (draw : Nat → Coord → K) (F : (Coord → K) → Coord → K) (p0 charge : K) (c : Coord → K)
    (filter : Option (Particle K → Bool)) (np fuel : Nat) : Option (PBunch K) :=
  let front : Particle K := ⟨c, some 0⟩
  (genLoop draw F c filter np fuel 0 1 [front]).map fun ps => ⟨p0, 0, charge / ps.length, ps⟩

/-! ## Files of bunches -/

/-- A line of a file: empty, a comment, or the values of a particle; a row written by hand can end with an id. -/
inductive Line (K : Type) where
  | empty
  | comment
  | row (t p : K) (v : Coord → K) (id : Option Int)

/-- `Output` (ParticleBunch.cpp 327-347).  The values are printed with 17 significant digits, from which a double is
recovered exactly. -/
def output (header : Bool) (b : PBunch K) : List (Line K) :=
  (if header then [.comment] else []) ++ b.ps.map fun p => .row b.ct0 b.p0 p.v none

/-- `Input` (ParticleBunch.cpp 365-384).  The id is read after the six coordinates; if the line ends before, the id keeps
its value from the last line, `none` at first. -/
def inputLoop : List (Line K) → Option Int → PBunch K → Outcome Unit (PBunch K)
  | [], _, b => .ok b
  | .empty :: l, pid, b => inputLoop l pid b
  | .comment :: l, pid, b => inputLoop l pid b
  | .row t p v id :: l, pid, b =>
    let pid := id.orElse fun _ => pid
    (setReferenceMomentum { b with ps := b.ps ++ [⟨v, pid⟩], ct0 := t } p).bind fun b => inputLoop l pid b

def input (Q : K) (l : List (Line K)) (b : PBunch K) : Outcome Unit (PBunch K) :=
  (inputLoop l none b).bind fun b => .ok { b with qPerMP := Q / b.ps.length }

end Verif.Bunch
