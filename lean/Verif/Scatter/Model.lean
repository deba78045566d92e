import Mathlib.Analysis.SpecialFunctions.Pow.Real
import Mathlib.Analysis.SpecialFunctions.Trigonometric.Basic
import Verif.Common.Outcome

/-!
# Model of `ScatteringModel` and the scattering processes

Source: `Merlin++/ScatteringModel.cpp`, `ScatteringModel.h`, `ScatteringProcess.cpp`, `ScatteringProcess.h`,
`ScatteringModelsMerlin.cpp`.

Doubles are real numbers; random numbers are arguments: `u` uniform in (0, 1) (a draw of exactly zero, whose logarithm is
infinite in C++, is left out), `phi` uniform, `g` standard normal, `land` Landau.  Energies are in GeV.  Logging, scatter
plots and jaw impacts are left out.  The tables of elastic and diffractive scattering are arguments: the values that
`SelectT` and `Select` return and the cross sections.
-/

namespace Verif.Scatter
open Verif

/-- The coordinates that are changed. -/
structure Part where
  x : ℝ
  xp : ℝ
  y : ℝ
  yp : ℝ
  dp : ℝ

/-- A material with its address; `mee` and `sixDedx` are the extra values `MeanExcitationEnergy` (GeV) and `SixtrackdEdx`. -/
structure Mat where
  A : ℝ
  Z : ℝ
  density : ℝ
  X0 : ℝ
  lam : ℝ
  sT : ℝ
  sR : ℝ
  sI : ℝ
  mee : Option ℝ
  sixDedx : Option ℝ

noncomputable section

/-! ## Samples -/

/-- `PathLength` (ScatteringModel.cpp 48-115). -/
def pathLength (lam u : ℝ) : ℝ := -lam * Real.log u

/-- `tmin` (ScatteringProcess.h 54). -/
def tmin : ℝ := 9982 / 10000000

/-- Momentum transfer of Rutherford scattering (ScatteringProcess.cpp 81). -/
def rutherfordT (u : ℝ) : ℝ := tmin / (1 - u)

/-- Momentum transfer with a slope (ScatteringProcess.cpp 170, 210). -/
def expT (b u : ℝ) : ℝ := -Real.log u / b

/-- `ProtonMassMeV * MeV`. -/
def mp : ℝ := 938272013 / 1000000000

/-- `AtomicMassUnit`. -/
def amu : ℝ := 931494028 / 1000000000

/-- `b_pp` (ScatteringProcess.cpp 168-169, 301-302). -/
def slopePP (E : ℝ) : ℝ := 85 / 10 + 1086 / 1000 * Real.log (Real.sqrt (2 * mp * E))

/-- `b_N` (ScatteringProcess.cpp 209). -/
def slopeN (A : ℝ) : ℝ := 141 / 10 * A ^ (66 / 100 : ℝ)

/-- The slope of single diffraction (ScatteringProcess.cpp 304-316). -/
def slopeSD (b xm2 : ℝ) : ℝ :=
  if xm2 < 2 then 2 * b else if xm2 ≤ 5 then (106 - 17 * xm2) * b / 26 else 7 * b / 12

/-- The square of the diffractive mass (ScatteringProcess.cpp 303). -/
def massSq (E u : ℝ) : ℝ := Real.exp (u * Real.log (15 / 100 * (2 * mp * E)))

/-! ## Kicks -/

/-- `ScatterStuff` with three arguments (ScatteringProcess.cpp 34-41). -/
def stuff (p : Part) (t E0 phi : ℝ) : Part :=
  let E1 := (p.dp + 1) * E0
  let th := Real.sqrt t / E1
  { p with xp := p.xp + th * Real.cos phi, yp := p.yp + th * Real.sin phi }

/-- `ScatterStuff` with the mass of the target (ScatteringProcess.cpp 43-54). -/
def stuffM (p : Part) (t m E0 phi : ℝ) : Part :=
  let delta := t / (2 * m)
  let E1 := (p.dp + 1) * E0
  let E2 := E1 - delta
  let th := Real.sqrt t / E2
  { p with dp := (E2 - E0) / E0, xp := p.xp + th * Real.cos phi, yp := p.yp + th * Real.sin phi }

/-- `ScatterStuff` with the loss of energy (ScatteringProcess.cpp 56-66). -/
def stuffD (d : ℝ) (p : Part) (t E0 phi : ℝ) : Part :=
  let E1 := (p.dp + 1) * E0
  let E2 := E1 - d
  let th := Real.sqrt t / E2
  { p with dp := (E2 - E0) / E0, xp := p.xp + th * Real.cos phi, yp := p.yp + th * Real.sin phi }

/-- The processes; `A` is the nucleus chosen by `A_R` or `A_H` (C169), `t` and `m` come from the tables. -/
inductive Proc where
  | rutherford (A : ℝ)
  | sixRutherford
  | elasticn (t : ℝ)
  | sixElasticn
  | elasticN (A : ℝ)
  | sixElasticN (A : ℝ)
  | diffractive (t m : ℝ)
  | sixDiffractive
  | inelastic

/-- The particle survives if its energy is above 0.1. -/
def alive (p : Part) (E : ℝ) : Bool := !decide ((1 + p.dp) * E ≤ 1 / 10)

/-- `Scatter` (ScatteringProcess.cpp 78-347): random numbers `u`, `v` in the order of the draws (the mass first). -/
def scatter (pr : Proc) (p : Part) (E u v phi : ℝ) : Bool × Part :=
  let done := fun q : Part => (alive q E, q)
  match pr with
  | .rutherford A => done (stuffM p (rutherfordT u) (amu * A) E phi)
  | .sixRutherford => done (stuff p (rutherfordT u) E phi)
  | .elasticn t => done (stuff p t E phi)
  | .sixElasticn => done (stuff p (expT (slopePP E) u) E phi)
  | .elasticN A => done (stuffM p (expT (slopeN A) u) (amu * A) E phi)
  | .sixElasticN A => done (stuff p (expT (slopeN A) u) E phi)
  | .diffractive t m => done (stuffD (m * m * E / (2 * mp * E + 2 * mp * mp)) p t E phi)
  | .sixDiffractive =>
    let xm2 := massSq E u
    done (stuffD (xm2 * E / (2 * mp * E)) p (expT (slopeSD (slopePP E) xm2) v) E phi)
  | .inelastic => (false, p)

/-! ## Choice of the process -/

/-- The loop of `ParticleScatter` (ScatteringModel.cpp 306-318): the number of the process. -/
def choose : Nat → List ℝ → ℝ → Nat
  | i, [], _ => i
  | i, x :: l, r => if r - x < 0 then i else choose (i + 1) l (r - x)

/-- `Xsection`: total, and processes one to four. -/
structure Tab where
  total : ℝ
  parts : List ℝ

/-- The choice with `uniform(0, Xsection[0])`: `std::uniform_real_distribution` is undefined for a negative total; `u` is the
standard number. -/
def Tab.choice (t : Tab) (u : ℝ) : Outcome Unit Nat :=
  if t.total < 0 then .ub else .ok (choose 1 t.parts (u * t.total))

/-- The models. -/
inductive Kind where
  | merlin
  | sixTrack
  | ioniz
  | elastic
  | sd
  deriving DecidableEq

inductive Mode where
  | simple
  | full
  deriving DecidableEq

/-- `Configure` (ScatteringModelsMerlin.cpp 19-108): the cross sections; `el` and `sd` are those of the tables for one nucleon
at an energy. -/
def configure (k : Kind) (el sd : ℝ → ℝ) (m : Mat) (E : ℝ) : Tab :=
  let s := 2 * mp * E + mp * mp
  let n := 1618 / 1000 * m.A ^ (333 / 1000 : ℝ)
  let el6 := n * (7 / 1000) * (E / 450) ^ (4792 / 100000 : ℝ)
  let sd6 := n * (68 / 100000) * Real.log (15 / 100 * s)
  match k with
  | .merlin => ⟨m.sT, [m.sR, n * el E, n * sd E, m.sI]⟩
  | .sixTrack => ⟨m.sT, [m.sR, el6, sd6, m.sI]⟩
  | .ioniz => ⟨m.sT, [m.sR, el6, sd6, m.sI]⟩
  | .elastic => ⟨m.sT, [m.sR, n * el E, sd6, m.sI]⟩
  | .sd => ⟨m.sT, [m.sR, el6, n * sd E, m.sI]⟩

/-- What `Configure` does to `energy_loss_mode`. -/
def Kind.mode : Kind → Mode → Mode
  | .merlin, o => o
  | .sixTrack, _ => .simple
  | .ioniz, _ => .full
  | .elastic, _ => .simple
  | .sd, _ => .simple

/-- The state of a `ScatteringModel` (ScatteringModel.h 100-190): `oldMaterial` (null is `none`), `saveDetails`, the tables in use
(null processes: `none`), `energy_loss_mode`. -/
structure Model (T : Type) where
  old : Option Nat
  saved : Nat → Option T
  cur : Option T
  mode : Mode

/-- The constructor (ScatteringModel.cpp 32-38). -/
def Model.new {T : Type} : Model T := ⟨none, fun _ => none, none, .full⟩

/-- The first part of `ParticleScatter` for the material at address `a` (ScatteringModel.cpp 269-298). -/
def Model.prepare {T : Type} (conf : Nat → ℝ → T) (md : Mode → Mode) (s : Model T) (a : Nat) (E : ℝ) : Model T :=
  if s.old = some a then s
  else
    match s.saved a with
    | some t => { s with old := some a, cur := some t }
    | none =>
      let t := conf a E
      ⟨some a, fun b => if b = a then some t else s.saved b, some t, md s.mode⟩

/-! ## Loss of energy -/

/-- `EnergyLossSimple` (ScatteringModel.cpp 131-136); a missing extra value is zero. -/
def lossSimple (m : Mat) (p : Part) (x E0 : ℝ) : Part :=
  let d := x * m.sixDedx.getD 0
  let E1 := E0 * (1 + p.dp)
  { p with dp := ((E1 - d) - E0) / E0 }

/-- The constants of `EnergyLossFull` that are kept between calls. -/
structure LossC where
  C : ℝ
  C0 : ℝ
  C1 : ℝ
  I : ℝ
  xi0 : ℝ

/-- Constants of nature: `xi1` is `2 pi r_e^2 m_e c^2`; Avogadro's number; the masses of electron and proton in MeV; the fine
structure constant; the electron charge. -/
structure Phys where
  xi1 : ℝ
  avo : ℝ
  me : ℝ
  mpr : ℝ
  alpha : ℝ
  charge : ℝ

/-- `eV`, `MeV`. -/
def eV : ℝ := 1 / 1000000000
def MeV : ℝ := 1 / 1000

/-- The part for a new material (ScatteringModel.cpp 144-186). -/
def lossConst (ph : Phys) (m : Mat) : LossC :=
  let I := match m.mee with
    | some e => e / eV
    | none => 10 * m.Z
  let xi0 := ph.xi1 * (m.Z * ph.avo * m.density / m.A)
  let plasma := 28816 / 1000 * Real.sqrt (m.density * (1 / 1000) * m.Z / m.A)
  let C := 1 + 2 * Real.log (I / plasma)
  if I / eV < 100 then
    if C ≤ 3681 / 1000 then ⟨C, 2 / 10, 2, I, xi0⟩ else ⟨C, 326 / 1000 * C - 1, 2, I, xi0⟩
  else
    if C ≤ 5215 / 1000 then ⟨C, 2 / 10, 3, I, xi0⟩ else ⟨C, 326 / 1000 * C - 15 / 10, 3, I, xi0⟩

/-- The density correction (ScatteringModel.cpp 200-217). -/
def density (k : LossC) (d : ℝ) : ℝ :=
  if d > k.C1 then 4606 / 1000 * d - k.C
  else if d ≥ k.C0 ∧ d ≤ k.C1 then
    4606 / 1000 * d - k.C + 4606 / 1000 * (k.C / (4606 / 1000) - k.C0) / (k.C1 - k.C0) ^ 3 * (k.C1 - d) ^ 3
  else 0

/-- `xi`, the bracket in `deltaE` (ScatteringModel.cpp 188-234) and the new particle. -/
def lossFull (ph : Phys) (k : LossC) (p : Part) (x E0 land : ℝ) : ℝ × ℝ × Part :=
  let E1 := E0 * (1 + p.dp)
  let gamma := E1 / (ph.mpr * MeV)
  let beta := Real.sqrt (1 - 1 / (gamma * gamma))
  let tmax := 2 * ph.me * beta * beta * gamma * gamma /
    (1 + 2 * gamma * (ph.me / ph.mpr) + (ph.me / ph.mpr) ^ 2) * MeV
  let xi := k.xi0 * x / (beta * beta) / ph.charge * (eV / MeV)
  let delta := density k (Real.log (beta * gamma) / Real.log 10)
  let G := Real.pi * ph.alpha * beta / 2
  let q := 2 * (tmax / MeV) * ph.me / (843 / 1000 / MeV) ^ 2
  let S := Real.log (1 + q)
  let yL2 := ph.alpha / beta
  let L2 := -yL2 * yL2 * (1202001688211 / 1000000000000)
  let F := G - S + 2 * (0 + L2)
  let B := Real.log (2 * ph.me * beta * beta * gamma * gamma * xi / (k.I / MeV) ^ 2) - beta * beta - delta + F + 20 / 100
  let deltaE := xi * B
  let d := xi * land - deltaE
  (xi, B, { p with dp := ((E1 - d) - E0) / E0 })

/-! ## Multiple scattering -/

/-- The radiation length in metres (ScatteringModel.cpp 247): `X0` in g/cm^2, density in kg/m^3 (`gram / cc` is a thousand). -/
def radLength (m : Mat) : ℝ := 1 / 100 * m.X0 / (m.density / 1000)

/-- `Straggle` (ScatteringModel.cpp 252-266) with the radiation length and four normal numbers in the order of the draws. -/
def straggle (X : ℝ) (p : Part) (x E1 E2 : ℝ) (g : Nat → ℝ) : Part :=
  let sx := x / X
  let Eav := (E1 + E2) / 2
  let th := 136 / 10 * MeV * Real.sqrt sx * (1 + 38 / 1000 * Real.log sx) / Eav
  let tx := g 0 * th
  let ty := g 1 * th
  let dx := g 2 * x * th / Real.sqrt 12 + x * tx / 2
  let dy := g 3 * x * th / Real.sqrt 12 + x * ty / 2
  { p with x := p.x + dx, xp := p.xp + tx, y := p.y + dy, yp := p.yp + ty }

/-- Static variables that are computed for a new material only (ScatteringModel.cpp 141-144, 242-251): the address of the last
material and the value. -/
def memo {C : Type} (f : Mat → C) (cache : Option (Nat × C)) (a : Nat) (m : Mat) : C × Option (Nat × C) :=
  match cache with
  | some (b, c) => if b = a then (c, cache) else (f m, some (a, f m))
  | none => (f m, some (a, f m))

end

end Verif.Scatter
