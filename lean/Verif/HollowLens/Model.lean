import Mathlib.Analysis.SpecialFunctions.Complex.Arg
import Verif.Common.Outcome
import Verif.Symplectic.Model

/-!
# Model of the hollow electron lens

`HollowElectronLens` (Merlin++/HollowElectronLens.h, .cpp) and `HollowELensProcess` (Merlin++/HollowELensProcess.cpp).
Doubles are real numbers; a division by zero whose result is used is undefined behaviour here, as is the use of a
member that the constructor leaves without a value.  `int` counters do not overflow.
-/

namespace Verif.HollowLens
open Verif Verif.Symplectic Real

noncomputable section

/-- `OperationMode` (HollowElectronLens.h 16-23). -/
inductive Mode
  | dc | ac | diffusive | turnskip

/-- The variables of the AC mode (HollowElectronLens.h 143-149, 154). -/
structure AC where
  tune : ℝ
  deltaTune : ℝ
  tuneVar : ℝ
  turnsPerStep : ℝ
  multiplier : ℝ
  nstep : ℝ
  minTune : ℝ

/-- `HollowElectronLens` (HollowElectronLens.h 30-170).  `ac` holds `ACSet` and the variables of the AC mode, `none` in
the others means that the member has no value yet. -/
structure Lens where
  rmin : Option ℝ
  rmax : Option ℝ
  current : ℝ
  betaE : ℝ
  rigidity : ℝ
  effLen : ℝ
  sigma : Option ℝ
  xOff : ℝ
  yOff : ℝ
  ac : Option AC
  turn : Int
  skip : Int
  simple : Bool
  opposite : Bool
  lhc : Bool
  mode : Option Mode

/-- The constructor (HollowElectronLens.cpp 15-44): an invalid mode leaves `OMode` without a value. -/
def mkLens (mode : Int) (current betaE rigidity effLen : ℝ) : Lens where
  rmin := none
  rmax := none
  current := current
  betaE := betaE
  rigidity := rigidity
  effLen := effLen
  sigma := none
  xOff := 0
  yOff := 0
  ac := none
  turn := 0
  skip := 0
  simple := true
  opposite := true
  lhc := false
  mode := if mode = 0 then some .dc else if mode = 1 then some .ac else if mode = 2 then some .diffusive
    else if mode = 3 then some .turnskip else none

/-- `HollowELensComponent::GetInstance`, the lens of a MAD table (MADInterface.cpp 615-621). -/
def ofMAD : Lens := mkLens 0 0 0 0 0

/-- `SetRmin` (HollowElectronLens.cpp 72-75). -/
def setRmin (l : Lens) (r : ℝ) : Lens := { l with rmin := some r }

/-- `SetRmax` (HollowElectronLens.cpp 67-70). -/
def setRmax (l : Lens) (r : ℝ) : Lens := { l with rmax := some r }

/-- `SetRadii` (HollowElectronLens.cpp 77-81). -/
def setRadii (l : Lens) (a b : ℝ) : Lens := setRmax (setRmin l a) b

/-- `SetAC` (HollowElectronLens.cpp 88-100). -/
def setAC (l : Lens) (tune deltaTune tuneVar turnsPerStep multi : ℝ) : Lens :=
  { l with
    ac := some ⟨tune, deltaTune, tuneVar, turnsPerStep, multi, 2 * deltaTune / tuneVar + 1, tune - deltaTune⟩
    turn := 0
    mode := some .ac }

/-- `SetTurnskip` (HollowElectronLens.cpp 102-106). -/
def setTurnskip (l : Lens) (skip : Int) : Lens := { l with skip := skip, mode := some .turnskip }

/-- `LorentzGamma(momentum, mass)` and `LorentzBeta` (PhysicalConstants.cpp 62-73): the velocity the process uses for the
protons (HollowELensProcess.cpp 48-49); `m` is `ProtonMass`, `c` is `SpeedOfLight`. -/
def protonBeta (m c p : ℝ) : ℝ :=
  let gamma := √(1 + (p / (m * c)) ^ 2)
  √(1 - 1 / (gamma * gamma))

/-- `CalcThetaMax` (HollowELensProcess.cpp 237-266). -/
def calcThetaMax (l : Lens) (pb r : ℝ) : Outcome Unit ℝ :=
  if r = 0 then .ok 0
  else if r * 1e7 * l.rigidity * l.betaE * pb = 0 then .ub
  else if l.opposite then
    .ok (2 * l.effLen * l.current * (1 + l.betaE * pb) / (r * 1e7 * l.rigidity * l.betaE * pb))
  else
    .ok (-(2 * l.effLen * l.current * (1 - l.betaE * pb)) / (r * 1e7 * l.rigidity * l.betaE * pb))

/-- `CalcKickSimple(double)` (HollowELensProcess.cpp 282-303). -/
def calcKickSimple (l : Lens) (pb R : ℝ) : Outcome Unit ℝ :=
  match l.rmin, l.rmax with
  | some a, some b =>
    if R ≤ a then .ok 0
    else if R < b ∧ R > a then
      if b ^ 2 - a ^ 2 = 0 then .ub
      else (calcThetaMax l pb R).bind fun t => .ok (-((R ^ 2 - a ^ 2) / (b ^ 2 - a ^ 2) * t))
    else (calcThetaMax l pb R).bind fun t => .ok (-t)
  | _, _ => .ub

/-- The integral of one linear piece of the profile, which `CalcKickRadial` writes out eight times
(HollowELensProcess.cpp 370-404). -/
def seg (x0 y0 x1 y1 R : ℝ) : ℝ :=
  (y1 - y0) / (x1 - x0) * R ^ 3 / 3 + (y0 - x0 * (y1 - y0) / (x1 - x0)) * R ^ 2 / 2 -
    ((y1 - y0) / (x1 - x0) * x0 ^ 3 / 3 + (y0 - x0 * (y1 - y0) / (x1 - x0)) * x0 ^ 2 / 2)

/-- The factor `f` of `CalcKickRadial(double)` (HollowELensProcess.cpp 319-410).  For `Rmin = 0` the pieces are not
defined, but then only the last branch is reached. -/
def radialFactor (lhc : Bool) (a R : ℝ) : ℝ :=
  let r0 := 222.5
  let r1 := if lhc then 265 else 252.5
  let r2 := if lhc then 315 else 287
  let r3 := if lhc then 435 else 364.5
  let r4 := if lhc then 505 else 426.5
  let x0 := a
  let y0 := 0
  let x1 := r1 / r0 * a
  let y1 := 917
  let x2 := r2 / r0 * a
  let y2 := 397
  let x3 := r3 / r0 * a
  let y3 := 228
  let x4 := r4 / r0 * a
  let y4 := 0
  let n0 := seg x0 y0 x1 y1 x1
  let n1 := seg x1 y1 x2 y2 x2
  let n2 := seg x2 y2 x3 y3 x3
  let n3 := seg x3 y3 x4 y4 x4
  let ntot := n0 + n1 + n2 + n3
  if R < x0 then 0
  else if R < x1 then seg x0 y0 x1 y1 R / ntot
  else if R < x2 then (n0 + seg x1 y1 x2 y2 R) / ntot
  else if R < x3 then (n0 + n1 + seg x2 y2 x3 y3 R) / ntot
  else if R < x4 then (n0 + n1 + n2 + seg x3 y3 x4 y4 R) / ntot
  else 1

/-- `CalcKickRadial(double)` (HollowELensProcess.cpp 319-414). -/
def calcKickRadial (l : Lens) (pb R : ℝ) : Outcome Unit ℝ :=
  match l.rmin with
  | none => .ub
  | some a =>
    if R ≤ a then .ok 0
    else (calcThetaMax l pb R).bind fun t => .ok (-t * radialFactor l.lhc a R)

/-- The kick of a particle: `CalcKickSimple(Particle&)` or `CalcKickRadial(Particle&)` (HollowELensProcess.cpp 268-280,
305-317), chosen as in `DoProcess` (94-101). -/
def calcKick (l : Lens) (pb : ℝ) (v : PS) : Outcome Unit ℝ :=
  let R := √((v.x - l.xOff) ^ 2 + (v.y - l.yOff) ^ 2)
  if l.simple then calcKickSimple l pb R else calcKickRadial l pb R

/-- The change of the slopes (HollowELensProcess.cpp 105-108 and alike); `atan2 y x` is the argument of `x + i y`. -/
def addKick (theta : ℝ) (v : PS) : PS :=
  let angle := Complex.arg ⟨v.x, v.y⟩
  { v with px := v.px + theta * cos angle, py := v.py + theta * sin angle }

/-- One particle in the modes DC, diffusive and turnskip (HollowELensProcess.cpp 92-110). -/
def kickParticle (l : Lens) (pb : ℝ) (v : PS) : Outcome Unit PS :=
  (calcKick l pb v).bind fun theta => .ok (if theta ≠ 0 then addKick theta v else v)

/-- `fmod`. -/
def fmod (a b : ℝ) : ℝ := a - (if 0 ≤ a / b then (⌊a / b⌋ : ℝ) else ⌈a / b⌉) * b

/-- The tune of the AC mode in a turn (HollowELensProcess.cpp 140-148). -/
def opTune (a : AC) (turn : Int) : Outcome Unit ℝ :=
  if a.tuneVar ≠ 0 ∧ a.deltaTune ≠ 0 then
    if a.turnsPerStep = 0 ∨ a.nstep = 0 then .ub
    else .ok (a.minTune + fmod ⌊(turn : ℝ) / a.turnsPerStep⌋ a.nstep * a.tuneVar)
  else .ok a.tune

/-- The factor of the AC mode (HollowELensProcess.cpp 150-151). -/
def acFactor (a : AC) (turn : Int) : Outcome Unit ℝ :=
  (opTune a turn).bind fun t => .ok (0.5 * (1 + cos (a.multiplier * (turn * t * 2 * π))))

/-- One particle in the AC mode (HollowELensProcess.cpp 127-157). -/
def kickAC (l : Lens) (a : AC) (pb : ℝ) (v : PS) : Outcome Unit PS :=
  (calcKick l pb v).bind fun theta =>
    if theta ≠ 0 then (acFactor a l.turn).bind fun f => .ok (addKick (theta * f) v) else .ok v

/-- All particles in turn. -/
def each (f : PS → Outcome Unit PS) : List PS → Outcome Unit (List PS)
  | [] => .ok []
  | v :: vs => (f v).bind fun w => (each f vs).bind fun ws => .ok (w :: ws)

/-- The modes in `DoProcess` (HollowELensProcess.cpp 86-224), for a lens whose turn has been counted. -/
def operate (l : Lens) (pb rnd : ℝ) (ps : List PS) : Outcome Unit (List PS) :=
  match l.mode with
  | none => .ub
  | some .dc => each (kickParticle l pb) ps
  | some .ac =>
    match l.ac with
    | some a => each (kickAC l a pb) ps
    | none => .ok ps
  | some .diffusive => if rnd ≥ 0 then each (kickParticle l pb) ps else .ok ps
  | some .turnskip =>
    let skip := if l.skip = 0 then 2 else l.skip
    if Int.tmod l.turn skip = 0 then each (kickParticle l pb) ps else .ok ps

/-- `DoProcess` (HollowELensProcess.cpp 61-230).  `rnd` is the number drawn in the diffusive mode.  `ParticleBunch::swap`
takes its argument by value (ParticleBunch.h 319-324): the particles are copied, changed and copied back. -/
def doProcess (l : Lens) (pb rnd : ℝ) (ps : List PS) : Outcome Unit (Lens × List PS) :=
  let l := { l with turn := l.turn + 1 }
  (operate l pb rnd ps).bind fun ps => .ok (l, ps)

/-- A line of the table of `OutputProfile`. -/
structure Row where
  r : ℝ
  radial : ℝ
  simple : ℝ
  absRadial : ℝ
  absSimple : ℝ

/-- The loop of `OutputProfile` (HollowELensProcess.cpp 447-452) with `n` passes left. -/
def profileLoop (l : Lens) (pb sigma step : ℝ) : Nat → ℝ → Outcome Unit (List Row)
  | 0, _ => .ok []
  | n + 1, r =>
    (calcKickRadial l pb r).bind fun kr => (calcKickSimple l pb r).bind fun ks =>
    (profileLoop l pb sigma step n (r + step * sigma)).bind fun rows =>
    .ok (⟨r / sigma, kr, ks, √(kr ^ 2), √(ks ^ 2)⟩ :: rows)

/-- `OutputProfile` (HollowELensProcess.cpp 418-453): the table. -/
def outputProfile (l : Lens) (m c p min max : ℝ) : Outcome Unit (List Row) :=
  match l.sigma with
  | none => .ub
  | some sigma => if sigma = 0 then .ub
    else profileLoop l (protonBeta m c p) sigma ((max - min) / 1000) 999 0

end

end Verif.HollowLens
