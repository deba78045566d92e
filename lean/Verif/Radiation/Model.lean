import Mathlib.Analysis.SpecialFunctions.Sqrt
import Mathlib.Algebra.Order.Floor.Ring
import Verif.Common.Outcome

/-!
# Model of synchrotron radiation

Merlin++/SynchRadParticleProcess.cpp and `ParticleBunch::AdjustRefMomentum`.  Doubles are real numbers.  The photons, which
are random, are given as the list of their energies.  A division by zero whose result is no number is `ub`.
-/

namespace Verif.Radiation
open Verif

noncomputable section

/-- The coordinates of a particle (PSTypes.h). -/
structure Part where
  x : ℝ
  xp : ℝ
  y : ℝ
  yp : ℝ
  ct : ℝ
  dp : ℝ

/-- The constants of a step (SynchRadParticleProcess.cpp 37-55): the modulus of the field at a point, the length of the
step, the reference momentum, the kind of variables and the three constants. -/
structure Step where
  field : ℝ → ℝ → ℝ
  dL : ℝ
  p0 : ℝ
  symp : Bool
  c1 : ℝ
  c2 : ℝ
  mass : ℝ

/-- The energy `u` which a particle loses (SynchRadParticleProcess.cpp 63-80); `photons` are what the calls of `photgen`
return, `none` is for no generator. -/
def loss (s : Step) (photons : Option (List ℝ)) (v : Part) : ℝ :=
  let b := s.field v.x v.y
  let g := s.p0 * (1 + v.dp) / s.mass
  let uc := s.c1 * b * g * g
  match photons with
  | some l => l.foldl (fun u e => u + e) 0
  | none => s.c2 * b * s.dL * uc

/-- The new coordinates (SynchRadParticleProcess.cpp 84-107). -/
def emit (symp : Bool) (p0 u : ℝ) (v : Part) : Part :=
  if symp then
    let ks := Real.sqrt ((1 + v.dp) * (1 + v.dp) - v.xp * v.xp - v.yp * v.yp)
    let kx := v.xp / ks
    let ky := v.yp / ks
    let dp := v.dp - u / p0
    let kz := (1 + dp) / Real.sqrt (1 + kx * kx + ky * ky)
    { v with dp := dp, xp := kx * kz, yp := ky * kz }
  else
    { v with dp := v.dp - u / p0, xp := v.xp / (1 + u / p0), yp := v.yp / (1 + u / p0) }

/-- `ApplySR::operator()` for all particles (SynchRadParticleProcess.cpp 61-109): the particles, the sum `meanU` and the
number `n`. -/
def applySR (s : Step) (bunch : List (Part × Option (List ℝ))) : List Part × ℝ × Nat :=
  bunch.foldl (fun r pv =>
    let u := loss s pv.2 pv.1
    (r.1 ++ [emit s.symp s.p0 u pv.1], r.2.1 + u, r.2.2 + 1)) ([], 0, 0)

/-- `AdjustRefMomentum` (ParticleBunch.cpp 275-287). -/
def adjust (dpp p0 : ℝ) (l : List Part) : ℝ × List Part :=
  ((1 + dpp) * p0, l.map fun p => { p with dp := (p.dp - dpp) / (1 + dpp) })

/-- The loss of the whole bunch in `DoProcess` (SynchRadParticleProcess.cpp 172-185): `MeanEnergyLoss` divides by the
number of particles. -/
def radiate (s : Step) (adjustEref : Bool) (bunch : List (Part × Option (List ℝ))) : Outcome Unit (ℝ × List Part) :=
  let r := applySR s bunch
  if r.2.2 = 0 then (if adjustEref then .ub else .ok (s.p0, []))
  else
    let meanU := r.2.1 / r.2.2
    .ok (if adjustEref then adjust (- meanU / s.p0) s.p0 r.1 else (s.p0, r.1))

/-! ## Steps through a component -/

/-- The members which `SetCurrentComponent` sets (SynchRadParticleProcess.cpp 135-163). -/
structure Sched where
  dL : ℝ
  nk1 : Nat
  intS : ℝ
  active : Bool

/-- The kinds of components which matter (SynchRadParticleProcess.cpp 144-156). -/
inductive Kind
  | sectorBend
  | rectMultipole
  | other
  deriving DecidableEq

/-- `ns1` (SynchRadParticleProcess.cpp 158).  The conversion to `int` rounds down; it is no number for `dsMax = 0`. -/
def steps (ns : Nat) (dsMax len : ℝ) : Outcome Unit Nat :=
  if ns = 0 then (if dsMax = 0 then .ub else .ok ⌊1 + len / dsMax⌋₊) else .ok ns

/-- `SetCurrentComponent` (SynchRadParticleProcess.cpp 135-163) for a process with a bunch and a positive length.  A
quotient of `int(1 + len / dsMax)`, which is zero for no positive `dsMax`, is not modelled further. -/
def enter (ns : Nat) (dsMax len : ℝ) (incQ : Bool) (k : Kind) : Outcome Unit Sched :=
  match steps ns dsMax len with
  | .ok ns1 => .ok ⟨len / ns1, 0, 0, match k with
      | .sectorBend => true
      | .rectMultipole => incQ
      | .other => false⟩
  | _ => .ub

/-- `GetMaxAllowedStepSize` (SynchRadParticleProcess.cpp 192-197). -/
def maxStep (c : Sched) : ℝ := (c.nk1 + 1) * c.dL - c.intS

/-- `DoProcess` (SynchRadParticleProcess.cpp 167-190) without the loss: the new state and whether the particles radiate
over `dL`.  `fequal` (utils.h 16-19) has the tolerance `eps`. -/
def doProcess (eps : ℝ) (ns : Nat) (c : Sched) (ds : ℝ) : Sched × Bool :=
  let intS := c.intS + ds
  if |intS - (c.nk1 + 1) * c.dL| ≤ eps then
    ({ c with intS := intS, nk1 := c.nk1 + 1, active := decide (c.nk1 + 1 ≠ ns) }, true)
  else ({ c with intS := intS, active := decide (c.nk1 ≠ ns) }, false)

/-- Steps of a tracker through a component: a process which is not active is not called (ProcessStepManager.cpp
70-100, 132-148).  The result is the length over which the particles radiated, and the last state. -/
def track (eps : ℝ) (ns : Nat) : Sched → List ℝ → ℝ × Sched
  | c, [] => (0, c)
  | c, ds :: l =>
    if c.active then
      let r := doProcess eps ns c ds
      let t := track eps ns r.1 l
      ((if r.2 then c.dL else 0) + t.1, t.2)
    else track eps ns c l

end

end Verif.Radiation
