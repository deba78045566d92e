import Mathlib.Analysis.SpecialFunctions.Trigonometric.Basic
import Mathlib.Analysis.SpecialFunctions.Sqrt
import Verif.Beam.Model

/-!
# Model of the generators of particle distributions

Merlin++/ParticleDistributionGenerator.cpp, HaloParticleDistributionGenerator.cpp, HollowElensParticleDistributionGenerator.cpp and
`normal` and `uniform` of RandomNG.cpp.  Doubles are real numbers.  The source of random numbers is a list of numbers of [0, 1) and a list
of normal numbers of mean zero and variance one, from which numbers are taken in turn; a computation that would need more numbers has no
result.
-/

namespace Verif.Generators
open Real Verif.Beam

/-- The numbers still to be drawn. -/
structure Source where
  uniform : List ℝ
  normal : List ℝ

/-- `RandomNG::uniform` (RandomNG.cpp 94-102). -/
noncomputable def uniform (low high : ℝ) (s : Source) : Option (ℝ × Source) :=
  match s.uniform with
  | [] => none
  | v :: l => some (low + (high - low) * v, { s with uniform := l })

/-- `RandomNG::normal` without cut off (RandomNG.cpp 63-71). -/
noncomputable def normal (mean variance : ℝ) (s : Source) : Option (ℝ × Source) :=
  open Classical in
  if variance = 0 then some (mean, s)
  else match s.normal with
    | [] => none
    | g :: l => some (mean + √variance * g, { s with normal := l })

/-- The loop of `RandomNG::normal` with cut off (RandomNG.cpp 87-92), on the numbers to be drawn. -/
noncomputable def reject (mean sigma cutoff : ℝ) : List ℝ → Option (ℝ × List ℝ)
  | [] => none
  | g :: l =>
    open Classical in
    let x := mean + sigma * g
    if |x - mean| > cutoff then reject mean sigma cutoff l else some (x, l)

/-- `RandomNG::normal` with cut off (RandomNG.cpp 72-93). -/
noncomputable def normalCut (mean variance cutoff : ℝ) (s : Source) : Option (ℝ × Source) :=
  open Classical in
  if cutoff = 0 then normal mean variance s
  else if variance = 0 then some (mean, s)
  else (reject mean √variance (|cutoff| * √variance) s.normal).map fun r => (r.1, { s with normal := r.2 })

/-- `RandomGauss` (ParticleDistributionGenerator.h 14-17). -/
noncomputable def gauss (variance cutoff : ℝ) (s : Source) : Option (ℝ × Source) :=
  open Classical in
  if cutoff = 0 then normal 0 variance s else normalCut 0 variance cutoff s

/-- The coordinates of a `PSvector` (PSvector.h 20-28): x, xp, y, yp, ct, dp. -/
def vec (x xp y yp ct dp : ℝ) (i : Nat) : ℝ :=
  match i with | 0 => x | 1 => xp | 2 => y | 3 => yp | 4 => ct | 5 => dp | _ => 0

/-- The kinds of generators with their parameters (ParticleDistributionGenerator.h 40-83, HaloParticleDistributionGenerator.h,
HollowElensParticleDistributionGenerator.h). -/
inductive Gen
  | normal (cutoffs : Nat → ℝ)
  | uniform
  | ring
  | horizontal1 (size : ℝ)
  | vertical1 (size : ℝ)
  | horizontal2 (size : ℝ) (cutoffs : Nat → ℝ)
  | vertical2 (size : ℝ) (cutoffs : Nat → ℝ)
  | thick (inner outer : ℝ)
  | thin (inner outer : ℝ)

/-- The energies and delays, in this order (for instance ParticleDistributionGenerator.cpp 45-46). -/
noncomputable def tail (x xp y yp : ℝ) (s : Source) : Option ((Nat → ℝ) × Source) :=
  (uniform (-1) 1 s).bind fun dp => (uniform (-1) 1 dp.2).bind fun ct => some (vec x xp y yp ct.1 dp.1, ct.2)

/-- `GenerateFromDistribution` of all of them (ParticleDistributionGenerator.cpp 12-48, HaloParticleDistributionGenerator.cpp 12-62,
HollowElensParticleDistributionGenerator.cpp 11-36). -/
noncomputable def generate : Gen → Source → Option ((Nat → ℝ) × Source)
  | .normal c, s =>
    (gauss 1 (c 0) s).bind fun x => (gauss 1 (c 1) x.2).bind fun xp => (gauss 1 (c 2) xp.2).bind fun y => (gauss 1 (c 3) y.2).bind fun yp =>
      (gauss 1 (c 5) yp.2).bind fun dp => (gauss 1 (c 4) dp.2).bind fun ct => some (vec x.1 xp.1 y.1 yp.1 ct.1 dp.1, ct.2)
  | .uniform, s =>
    (uniform (-1) 1 s).bind fun x => (uniform (-1) 1 x.2).bind fun xp => (uniform (-1) 1 xp.2).bind fun y => (uniform (-1) 1 y.2).bind fun yp =>
      tail x.1 xp.1 y.1 yp.1 yp.2
  | .ring, s =>
    (uniform (-π) π s).bind fun u => (uniform (-π) π u.2).bind fun w => tail (cos u.1) (sin u.1) (cos w.1) (sin w.1) w.2
  | .horizontal1 h, s => (uniform (-π) π s).bind fun u => tail (cos u.1 * h) (sin u.1 * h) 0 0 u.2
  | .vertical1 h, s => (uniform (-π) π s).bind fun u => tail 0 0 (cos u.1 * h) (sin u.1 * h) u.2
  | .horizontal2 h c, s =>
    (uniform (-π) π s).bind fun u => (gauss 1 (c 2) u.2).bind fun y => (gauss 1 (c 3) y.2).bind fun yp =>
      tail (cos u.1 * h) (sin u.1 * h) y.1 yp.1 yp.2
  | .vertical2 h c, s =>
    (uniform (-π) π s).bind fun u => (gauss 1 (c 0) u.2).bind fun x => (gauss 1 (c 1) x.2).bind fun xp =>
      tail x.1 xp.1 (cos u.1 * h) (sin u.1 * h) xp.2
  | .thick a b, s =>
    (uniform (-π) π s).bind fun u => (uniform a b u.2).bind fun r => tail (cos u.1 * r.1) 0 (sin u.1 * r.1) 0 r.2
  | .thin _ b, s => (uniform (-π) π s).bind fun u => tail (cos u.1 * b) 0 (sin u.1 * b) 0 u.2

end Verif.Generators
