import Mathlib.Data.Matrix.Mul
import Mathlib.Algebra.BigOperators.Fin
import Mathlib.Algebra.Order.Field.Basic
import Verif.Common.Outcome

/-!
# Closed orbit, transfer matrix and dispersion

Model of Merlin++/ClosedOrbit.cpp, Merlin++/TransferMatrix.cpp and Merlin++/Dispersion.cpp.

Numbers are those of a linearly ordered field.  Tracking one turn is a function `f` of one particle, since the particles of
the bunches used here do not act on each other.  The solver `SVDMatrix` (modelled in `Verif.LU`) is a parameter: a matrix and
a right hand side give a solution or the exception of the solver.  A division by zero, which gives no number, is undefined
behaviour.
-/

namespace Verif.Orbit

/-- The exceptions which reach the caller: the solver found only zeros (TLASimp.h 213-225). -/
inductive Err
  | allZero
  deriving DecidableEq, Repr

section Orbit

variable {K : Type} [Field K] [LinearOrder K]

/-- `PSvector`: x, x', y, y', ct, dp. -/
abbrev PS (K : Type) := Fin 6 → K

/-- `transverseOnly ? 4 : 6` (ClosedOrbit.cpp 92). -/
def cpt (transverseOnly : Bool) : Nat := if transverseOnly then 4 else 6

/-- `(*ip)[k - 1] += delta` (ClosedOrbit.cpp 157-163, TransferMatrix.cpp 107-114). -/
def shifted (delta : K) (p : PS K) (k : Nat) : PS K := fun i => if i.val = k then p i + delta else p i

/-- A quotient of differences (ClosedOrbit.cpp 179-182, TransferMatrix.cpp 153-157). -/
def quotient (f : PS K → PS K) (delta : K) (p : PS K) (m : Fin 6) (k : Nat) : K := (f (shifted delta p k) m - f p m) / delta

/-- `dg` (ClosedOrbit.cpp 177-184). -/
def dg {c : Nat} (hc : c ≤ 6) (f : PS K → PS K) (delta : K) (p : PS K) : Matrix (Fin c) (Fin c) K := fun m k =>
  quotient f delta p (Fin.castLE hc m) k - if m = k then 1 else 0

/-- `g` (ClosedOrbit.cpp 185). -/
def gap {c : Nat} (hc : c ≤ 6) (f : PS K → PS K) (p : PS K) : Fin c → K := fun k => f p (Fin.castLE hc k) - p (Fin.castLE hc k)

/-- `particle[row] -= g(row)` (ClosedOrbit.cpp 190-193). -/
def correct {c : Nat} (p : PS K) (g : Fin c → K) : PS K := fun i => if h : i.val < c then p i - g ⟨i.val, h⟩ else p i

/-- The solver: matrix and right hand side. -/
abbrev Solver (K : Type) (c : Nat) := Matrix (Fin c) (Fin c) K → (Fin c → K) → Outcome Err (Fin c → K)

/-- What the loop changes: the particle, `w` and `iter`. -/
structure State (K : Type) where
  p : PS K
  w : K
  iter : Nat

/-- One pass of the loop (ClosedOrbit.cpp 151-196). -/
def pass {c : Nat} (hc : c ≤ 6) (solve : Solver K c) (f : PS K → PS K) (delta : K) (s : State K) : Outcome Err (State K) :=
  if delta = 0 then .ub
  else (solve (dg hc f delta s.p) (gap hc f s.p)).bind fun g =>
    .ok ⟨correct s.p g, ∑ i, g i * g i, s.iter + 1⟩

/-- `while((w > tol) && (iter < max_iter))` (ClosedOrbit.cpp 149); the first argument is `max_iter - iter`. -/
def passes {c : Nat} (hc : c ≤ 6) (solve : Solver K c) (f : PS K → PS K) (delta tol : K) : Nat → State K → Outcome Err (State K)
  | 0, s => .ok s
  | n + 1, s => if tol < s.w then (pass hc solve f delta s).bind (passes hc solve f delta tol n) else .ok s

/-- `FindClosedOrbit` (ClosedOrbit.cpp 90-226): the particle, `w` and `iter` at the end. -/
def findOrbit {c : Nat} (hc : c ≤ 6) (solve : Solver K c) (f : PS K → PS K) (delta tol : K) (maxIter : Nat) (p : PS K) :
    Outcome Err (State K) :=
  passes hc solve f delta tol (maxIter - 1) ⟨p, 1, 1⟩

/-! ## `FindRMSOrbit` -/

/-- The sums of `FindRMSOrbit` (ClosedOrbit.cpp 235-253) for one coordinate: `prev`, then the lengths of the components and
the coordinate behind them; gives `rms` and `len`. -/
def orbitSums : K → List (K × K) → K × K
  | _, [] => (0, 0)
  | prev, (dl, x) :: l =>
    let r := orbitSums x l
    (dl * ((x + prev) * (x + prev)) / 4 + r.1, dl + r.2)

/-- The square of the value which `FindRMSOrbit` gives for one coordinate (ClosedOrbit.cpp 256-259); the order of the sum is
not kept. -/
def rmsOrbit (x0 : K) (l : List (K × K)) : Outcome Err K :=
  let r := orbitSums x0 l
  if r.2 = 0 then .ub else .ok (r.1 / r.2)

/-! ## Transfer matrix -/

/-- `FindTM(M, orbit)` and `FindTM(M, orbit, n1, n2)` (TransferMatrix.cpp 104-216), the tracker being `f`. -/
def findTM (f : PS K → PS K) (delta : K) (orbit : PS K) : Outcome Err (Matrix (Fin 6) (Fin 6) K) :=
  if delta = 0 then .ub else .ok fun m k => quotient f delta orbit m k

/-- The settings of `TransferMatrix`: `radstepsize` and `radnumsteps` have no value after construction
(TransferMatrix.cpp 18-21). -/
structure TM (K : Type) where
  radiation : Bool := false
  delta : K
  radstepsize : Option K := none
  radnumsteps : Option Int := none
  bendscale : K

/-- The constructor (TransferMatrix.cpp 18-21). -/
def TM.new : TM K := { delta := 1 / 1000000000, bendscale := 0 }

/-- `SetRadStepSize` (TransferMatrix.cpp 42-46). -/
def TM.setStep (t : TM K) (x : K) : TM K := { t with radstepsize := some x, radnumsteps := some 0 }

/-- `SetRadNumSteps` (TransferMatrix.cpp 48-52). -/
def TM.setNum (t : TM K) (n : Int) : TM K := { t with radstepsize := some 0, radnumsteps := some n }

/-- `Radiation` (TransferMatrix.cpp 23-31). -/
def TM.setRadiation (t : TM K) (flag : Bool) : TM K :=
  let t' := { t with radiation := flag }
  if flag then t'.setNum 1 else t'

/-- `SetDelta` (TransferMatrix.cpp 37-40). -/
def TM.setDelta (t : TM K) (x : K) : TM K := { t with delta := x }

/-- The calls which change the settings. -/
inductive Call (K : Type)
  | radiation (flag : Bool)
  | step (x : K)
  | num (n : Int)
  | delta (x : K)

/-- One call. -/
def TM.call (t : TM K) : Call K → TM K
  | .radiation b => t.setRadiation b
  | .step x => t.setStep x
  | .num n => t.setNum n
  | .delta x => t.setDelta x

/-- What the closed orbit is given. -/
structure COSettings (K : Type) where
  radiation : Bool
  radstepsize : Option K
  radnumsteps : Option Int
  delta : K
  bendscale : K

/-- The closed orbit as set up by `FindTM(M)` and `FindClosedOrbitTM` (TransferMatrix.cpp 59-78, 83-101): `radstepsize` is
read, which is undefined if it has no value; `delta` remains that of the constructor of `ClosedOrbit`
(ClosedOrbit.cpp 23-24). -/
def TM.orbit (t : TM K) : Outcome Err (COSettings K) :=
  match t.radstepsize with
  | none => .ub
  | some x =>
    if x = 0 then .ok ⟨t.radiation, some 0, t.radnumsteps, 1 / 1000000000, t.bendscale⟩
    else .ok ⟨t.radiation, some x, some 0, 1 / 1000000000, t.bendscale⟩

/-- `FindTM(M)` (TransferMatrix.cpp 59-80): the closed orbit from zero, then the quotients; tracking depends on the
settings. -/
def TM.find (t : TM K) (solve : Solver K 6) (track : Bool → Option K → Option Int → K → PS K → PS K) (tol : K) (maxIter : Nat) :
    Outcome Err (Matrix (Fin 6) (Fin 6) K) :=
  t.orbit.bind fun o =>
    (findOrbit (c := 6) (le_refl 6) solve (track o.radiation o.radstepsize o.radnumsteps o.bendscale) o.delta tol maxIter
      (fun _ => 0)).bind fun s =>
      findTM (track t.radiation t.radstepsize t.radnumsteps t.bendscale) t.delta s.p

/-! ## Dispersion -/

/-- The particle from which the closed orbit is sought (Dispersion.cpp 34-37, 40-42). -/
def atDp (d : K) : PS K := fun i => if i = 5 then d else 0

/-- `FindDispersion` (Dispersion.cpp 30-49): Dx, Dxp, Dy, Dyp; `step`, `tol` and `maxIter` are those of `ClosedOrbit`. -/
def findDispersion (solve : Solver K 4) (f : PS K → PS K) (step tol : K) (maxIter : Nat) (delta : K) :
    Outcome Err (Fin 4 → K) :=
  (findOrbit (c := 4) (by decide) solve f step tol maxIter (atDp (-delta))).bind fun p =>
    (findOrbit (c := 4) (by decide) solve f step tol maxIter (atDp delta)).bind fun q =>
      if delta = 0 then .ub
      else .ok fun i => (q.p (Fin.castLE (by decide) i) - p.p (Fin.castLE (by decide) i)) / 2 / delta

/-- The sums of `FindRMSDispersion` (Dispersion.cpp 69-112) for one plane: `prev`, then the lengths of the components and the
coordinates of the two particles behind them; gives `rmsD` and `len`. -/
def dispersionSums (delta : K) : K → List (K × K × K) → K × K
  | _, [] => (0, 0)
  | prev, (dl, x0, x1) :: l =>
    let pres := (x1 - x0) / 2 / delta
    let r := dispersionSums delta pres l
    (dl * (pres * pres + prev * prev) / 2 + r.1, dl + r.2)

/-- The square of `DxRMS` or `DyRMS` (Dispersion.cpp 71-75, 114-115): the first `prev` is zero. -/
def rmsDispersion (delta : K) (l : List (K × K × K)) : Outcome Err K :=
  let r := dispersionSums delta 0 l
  if delta = 0 ∨ r.2 = 0 then .ub else .ok (r.1 / r.2)

/-- The lines of the file for one plane (Dispersion.cpp 82-109): `len` is written before the step, the dispersion behind
it. -/
def dispersionRows (delta : K) : K → List (K × K × K) → List (K × K)
  | _, [] => []
  | len, (dl, x0, x1) :: l => (len, (x1 - x0) / 2 / delta) :: dispersionRows delta (len + dl) l

end Orbit

end Verif.Orbit
