import Mathlib.Analysis.SpecialFunctions.Trigonometric.Basic
import Mathlib.Analysis.SpecialFunctions.Sqrt
import Mathlib.Data.List.Sort
import Verif.Transform.Model
import Verif.Common.Outcome

/-!
# Model of spin tracking

Merlin++/SpinParticleProcess.cpp.  Doubles are real numbers.
-/

namespace Verif.Spin
open Verif Verif.Rotation Verif.Transform

/-- The constants `ElectronGe`, `SpeedOfLight`, `eV` and `ElectronMassMeV * MeV`. -/
structure Env where
  ge : ℝ
  c : ℝ
  eV : ℝ
  mass : ℝ

/-- The vector `w` (SpinParticleProcess.cpp 238-250). -/
def precession (e : Env) (isBend : Bool) (b : V3 ℝ) (gamma : ℝ) : V3 ℝ :=
  if isBend then ⟨-(1 + e.ge * gamma) * b.x, -(e.ge * gamma) * b.y, -(1 + e.ge) * b.z⟩
  else ⟨-(1 + e.ge * gamma) * b.x, -(1 + e.ge * gamma) * b.y, -(1 + e.ge) * b.z⟩

/-- `RotateSpin` after `w` is known (SpinParticleProcess.cpp 252-277). -/
noncomputable def turn (e : Env) (w : V3 ℝ) (ds : ℝ) (s : V3 ℝ) : V3 ℝ :=
  let px := w.y * s.z - w.z * s.y
  let py := w.z * s.x - w.x * s.z
  let pz := w.x * s.y - w.y * s.x
  let scalar := w.z * s.z + w.y * s.y + w.x * s.x
  let w2 := w.x * w.x + w.y * w.y + w.z * w.z
  let omega := Real.sqrt w2
  let dt := ds / e.c
  let co := Real.cos (dt * omega)
  let si := Real.sin (dt * omega)
  ⟨s.x * co + w.x * scalar * (1 - co) / w2 + px * si / omega,
   s.y * co + w.y * scalar * (1 - co) / w2 + py * si / omega,
   s.z * co + w.z * scalar * (1 - co) / w2 + pz * si / omega⟩

/-- `RotateSpin` (SpinParticleProcess.cpp 232-278). -/
noncomputable def rotateSpin (e : Env) (isBend : Bool) (b : V3 ℝ) (ds : ℝ) (s : V3 ℝ) (gamma : ℝ) : V3 ℝ :=
  turn e (precession e isBend b gamma) ds s

/-- The kinds of components (SpinParticleProcess.cpp 202-206); pole faces without information have angle 0 (317, 363). -/
inductive Kind where
  | bend (b0 entrance exit : ℝ)
  | solenoid (bz : ℝ)
  | other

/-- The coordinates of a particle that are used. -/
structure Part where
  x : ℝ
  y : ℝ
  dp : ℝ

/-- State of the process: `intS`, `clength`, `pspin`, and the tolerance of `fequal`. -/
structure Settings where
  intS : ℝ
  clength : ℝ
  pspin : ℝ
  eps : ℝ

def Kind.isBend : Kind → Bool
  | .bend .. => true
  | _ => false

/-- The entrance fringe field (SpinParticleProcess.cpp 310-343). -/
noncomputable def entranceFringe (e : Env) (k : Kind) (norm gamma : ℝ) (p : Part) (s : V3 ℝ) : V3 ℝ :=
  match k with
  | .bend b0 theta _ =>
    let intbz := 0.5 * b0 * p.y * norm
    let b : V3 ℝ := ⟨Real.sin theta * intbz, 0, Real.cos theta * intbz⟩
    if b.x ≠ 0 ∨ b.z ≠ 0 then rotateSpin e true b 1 s gamma else s
  | .solenoid bz =>
    let b : V3 ℝ := ⟨-bz * p.x, -bz * p.y, 0⟩
    if b.x ≠ 0 ∨ b.y ≠ 0 then rotateSpin e false b 1 s gamma else s
  | .other => s

/-- The exit fringe field (SpinParticleProcess.cpp 356-387). -/
noncomputable def exitFringe (e : Env) (k : Kind) (norm gamma : ℝ) (p : Part) (s : V3 ℝ) : V3 ℝ :=
  match k with
  | .bend b0 _ theta =>
    let intbz := 0.5 * b0 * p.y * norm
    let b : V3 ℝ := ⟨Real.sin theta * intbz, 0, -Real.cos theta * intbz⟩
    if b.x ≠ 0 ∨ b.z ≠ 0 then rotateSpin e true b 1 s gamma else s
  | .solenoid bz =>
    let b : V3 ℝ := ⟨bz * p.x, bz * p.y, 0⟩
    if b.x ≠ 0 ∨ b.y ≠ 0 then rotateSpin e false b 1 s gamma else s
  | .other => s

/-- The body of the magnet (SpinParticleProcess.cpp 345-354). -/
noncomputable def body (e : Env) (k : Kind) (field : ℝ → ℝ → V3 ℝ) (norm gamma ds : ℝ) (p : Part) (s : V3 ℝ) : V3 ℝ :=
  let b := field p.x p.y
  if b.x ≠ 0 ∨ b.y ≠ 0 ∨ b.z ≠ 0 then rotateSpin e k.isBend ⟨b.x * norm, b.y * norm, b.z * norm⟩ ds s gamma else s

/-- `DoProcess` for one particle (SpinParticleProcess.cpp 287-389). -/
noncomputable def doProcess (e : Env) (k : Kind) (field : ℝ → ℝ → V3 ℝ) (st : Settings) (p0 ds : ℝ) (p : Part)
    (s : V3 ℝ) : V3 ℝ :=
  let brho := p0 / e.eV / e.c
  let pg := if st.pspin ≠ 0 then st.pspin else p0
  let norm := e.c / brho / (1 + p.dp)
  let gamma := pg * (1 + p.dp) / e.mass
  let s1 := if st.intS = 0 then entranceFringe e k norm gamma p s else s
  let s2 := body e k field norm gamma ds p s1
  if |st.intS + ds - st.clength| ≤ st.eps then exitFringe e k norm gamma p s2 else s2

/-! ## Bunches with spin -/

/-- `SpinParticleBunch`: the particles of `ParticleBunch` and `spinArray` (SpinParticleProcess.h 50-51). -/
structure SpinBunch (P S : Type) where
  ps : List P
  ss : List S
  deriving DecidableEq

/-- What can be done to a bunch. -/
inductive Op (P S : Type) where
  | add (p : P)
  | addWith (p : P) (s : S)
  | erase (i : Nat)
  | transform (f : P → P) (g : S → S)
  | sort
  | clear
  | swap (ps : List P)

/-- One operation.  `AddParticle` (SpinParticleProcess.cpp 68-84), `erase` (134-146), `ApplyTransformation` (152-173, with
the maps of particles and spins as parameters), `SortByCT` (86-93; some sorted order), `clear` and `swap` (ParticleBunch.h 319-324, 398-401:
only the particles are touched). -/
def step {P S : Type} (up : S) (le : P → P → Bool) (b : SpinBunch P S) : Op P S → Outcome Unit (SpinBunch P S)
  | .add p => .ok ⟨b.ps ++ [p], b.ss ++ [up]⟩
  | .addWith p s => .ok ⟨b.ps ++ [p], b.ss ++ [s]⟩
  | .erase i => if i < b.ps.length ∧ i < b.ss.length then .ok ⟨b.ps.eraseIdx i, b.ss.eraseIdx i⟩ else .ub
  | .transform f g => .ok ⟨b.ps.map f, b.ss.map g⟩
  | .sort => .ok { b with ps := b.ps.insertionSort fun a b => le a b = true }
  | .clear => .ok { b with ps := [] }
  | .swap ps => .ok { b with ps := ps }

/-- A sequence of operations. -/
def run {P S : Type} (up : S) (le : P → P → Bool) : SpinBunch P S → List (Op P S) → Outcome Unit (SpinBunch P S)
  | b, [] => .ok b
  | b, o :: l => (step up le b o).bind fun b => run up le b l

/-- The map of spins in `ApplyTransformation` (SpinParticleProcess.cpp 160-171). -/
def transformSpin {K : Type} [Field K] [DecidableEq K] (t : T3 K) (s : V3 K) : V3 K :=
  if !t.r.isIdentity then t.r.rotate s else s

/-- `GetAverageSpin` (SpinParticleProcess.cpp 117-132); dividing zero by zero for an empty bunch is undefined here. -/
noncomputable def averageSpin (ss : List (V3 ℝ)) : Outcome Unit (V3 ℝ) :=
  let pa := ss.foldl (fun pa s => vadd pa s) ⟨0, 0, 0⟩
  if ss.length = 0 then .ub
  else .ok ⟨pa.x / ss.length, pa.y / ss.length, pa.z / ss.length⟩

end Verif.Spin
