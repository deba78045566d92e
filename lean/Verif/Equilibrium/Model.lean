import Mathlib.Analysis.SpecialFunctions.Complex.Arg
import Mathlib.Analysis.SpecialFunctions.Log.Basic
import Verif.Common.Outcome
import Verif.Interpolation.Model
import Verif.LinAlg.Model

/-!
# Equilibrium distribution

Model of Merlin++/EquilibriumDistribution.cpp over the real and complex numbers.  An element of an array which has not been
written is `none`; reading it is undefined behaviour.  A quotient by zero is undefined behaviour.
-/

namespace Verif.Equilibrium

open Verif

/-! ## Integration -/

/-- The loop of `trapezium` (EquilibriumDistribution.cpp 79-82): the sum of the values at `x`, `x + delta`, …. -/
noncomputable def samples (f : ℝ → ℝ) (delta : ℝ) : Nat → ℝ → ℝ → ℝ
  | 0, _, sum => sum
  | c + 1, x, sum => samples f delta c (x + delta) (sum + f x)

/-- `trapezium` (EquilibriumDistribution.cpp 63-85): the last argument is the static `answer`, which all objects share, and the
result is its new value, which is returned too. -/
noncomputable def trapezium (f : ℝ → ℝ) (a b : ℝ) (n : Nat) (answer : ℝ) : ℝ :=
  if n = 1 then (b - a) * (f a + f b) / 2
  else
    let npts : Nat := 2 ^ (n - 2)
    let delta := (b - a) / npts
    (answer + delta * samples f delta npts (a + 1 / 2 * delta) 0) / 2

/-- The exception of `Interpolation`. -/
inductive Err
  | range

/-- `n` elements of an array from `p` on. -/
def slice (v : Nat → Option ℝ) (p n : Nat) : Outcome Err (List ℝ) :=
  match ((List.range n).mapM fun i => v (p + i) : Option (List ℝ)) with
  | some l => .ok l
  | none => .ub

/-- `v[k] = x`. -/
def put (v : Nat → Option ℝ) (k : Nat) (x : ℝ) : Nat → Option ℝ := fun i => if i = k then some x else v i

/-- `Interpolation I(x, y, n, order); I.itsMethod->ValueAt(0.0, &error)` (EquilibriumDistribution.cpp 100-101): the value and the
error; an error which is not set has no value. -/
noncomputable def extrapolate (xs ys : List ℝ) (order garbage : Int) : Outcome Err (ℝ × Option ℝ) :=
  match (Interpolation.mkArbArray xs ys order garbage : Outcome Err (Interpolation.Arb ℝ)) with
  | .ok obj => match Interpolation.valueAt obj 0 with
    | .ok r => .ok (r.1, r.2.1)
    | .throw _ => .throw .range
    | .ub => .ub
  | .throw e => .throw e
  | .ub => .ub

/-- The loop of `romberg` (EquilibriumDistribution.cpp 95-108) from step `j` on; the first argument is the number of steps left,
`s` and `h` are the arrays, `answer` is the static of `trapezium`. -/
noncomputable def rombergFrom (f : ℝ → ℝ) (a b : ℝ) (garbage : Int) : Nat → Nat → (Nat → Option ℝ) → (Nat → Option ℝ) → ℝ → Outcome Err ℝ
  | 0, _, _, _, _ => .ok 0
  | c + 1, j, s, h, answer =>
    let t := trapezium f a b j answer
    let s := put s j t
    let next := match h j with
      | some x => rombergFrom f a b garbage c (j + 1) s (put h (j + 1) (1 / 4 * x)) t
      | none => .ub
    if 5 ≤ j then
      (slice h (j - 5) 5).bind fun xs => (slice s (j - 5) 5).bind fun ys => (extrapolate xs ys 5 garbage).bind fun r =>
        match r.2 with
        | some e => if |e| ≤ 1 / 100000000 * |r.1| then .ok r.1 else next
        | none => .ub
    else next

/-- `romberg` (EquilibriumDistribution.cpp 87-110): `h[1] = 1`, nothing else has been written. -/
noncomputable def romberg (f : ℝ → ℝ) (a b : ℝ) (garbage : Int) (answer : ℝ) : Outcome Err ℝ :=
  rombergFrom f a b garbage 30 1 (fun _ => none) (put (fun _ => none) 1 1) answer

/-- The vector which is transported through the bend. -/
abbrev Vec := Fin 6 → ℂ

/-- Elements 51, 52 and 56 of the matrix of the bend with gradient (EquilibriumDistribution.cpp 130-132). -/
noncomputable def rowGrad (h tanE1 : ℝ) (k : ℂ) (s : ℝ) : ℂ × ℂ × ℂ :=
  let tm52 := -(1 - Complex.cos (k * s)) * h / k / k
  let tm51 := -Complex.sin (k * s) * h / k + h * tanE1 * tm52
  (tm51, tm52, -(h / k) ^ 2 * (s - Complex.sin (k * s) / k))

/-- Elements 51, 52 and 56 of the matrix of the bend without gradient (EquilibriumDistribution.cpp 144-146). -/
noncomputable def rowZero (h tanE1 s : ℝ) : ℂ × ℂ × ℂ :=
  let tm52 : ℂ := -s * s * h / 2
  let tm51 : ℂ := -s * h + h * tanE1 * tm52
  (tm51, tm52, tm52 * s * h / 3)

/-- The fifth component behind the part of the bend (EquilibriumDistribution.cpp 134, 148). -/
noncomputable def fifth (r : ℂ × ℂ × ℂ) (ek : Vec) : ℂ := r.1 * ek 0 + r.2.1 * ek 1 + ek 4 + r.2.2 * ek 5

/-- `function` (EquilibriumDistribution.cpp 128-136, 142-150). -/
noncomputable def integrand (r : ℂ × ℂ × ℂ) (ek : Vec) : ℝ := ‖fifth r ek‖ * ‖fifth r ek‖

/-- `k = sqrt(Complex(b, 0))` (EquilibriumDistribution.cpp 116): the principal root. -/
noncomputable def root (b : ℝ) : ℂ := if 0 ≤ b then (Real.sqrt b : ℂ) else (Real.sqrt (-b) : ℂ) * Complex.I

/-- A sector bend: curvature, gradient and the tangent of the entrance angle; length. -/
structure Bend where
  h : ℝ
  k1 : ℝ
  tanE1 : ℝ
  length : ℝ

/-- `Integral` (EquilibriumDistribution.cpp 112-122) of the class which belongs to the gradient (EquilibriumDistribution.cpp
316-325). -/
noncomputable def integral (b : Bend) (ek : Vec) (garbage : Int) (answer : ℝ) : Outcome Err ℝ :=
  if b.k1 = 0 then romberg (fun s => integrand (rowZero b.h b.tanE1 s) ek) 0 b.length garbage answer
  else romberg (fun s => integrand (rowGrad b.h b.tanE1 (root b.k1) s) ek) 0 b.length garbage answer

/-! ## Tunes and damping -/

/-- `tune[m]` (EquilibriumDistribution.cpp 211-215). -/
noncomputable def tune (lam : ℂ) : ℝ :=
  let t := Complex.arg lam / (2 * Real.pi)
  if t < 0 then 1 + t else t

/-- `dampingConstant[m]` (EquilibriumDistribution.cpp 216). -/
noncomputable def damping (lam : ℂ) : Outcome Err ℝ := if ‖lam‖ = 0 then .ub else .ok (-Real.log ‖lam‖)

/-- `DampingTime` (EquilibriumDistribution.cpp 171-175) of a ring of length `l`. -/
noncomputable def dampingTime (l c damp : ℝ) : Outcome Err ℝ := if damp = 0 then .ub else .ok (l / c / damp)

/-! ## Emittance -/

/-- The sums over the bends (EquilibriumDistribution.cpp 284-333) for one plane: `comps` are the components with the eigenvector at
their entrance, `none` for a component which is no sector bend; a bend without field is passed over. -/
noncomputable def sumE5 (garbage : Int) (answer : ℝ) : List (Option (Bend × Vec)) → ℝ → Outcome Err ℝ
  | [], sum => .ok sum
  | none :: cs, sum => sumE5 garbage answer cs sum
  | some (b, ek) :: cs, sum =>
    if b.h = 0 then sumE5 garbage answer cs sum
    else (integral b ek garbage answer).bind fun i => sumE5 garbage answer cs (sum + i / |(1 / b.h) ^ 3|)

/-- `emittance[k]` (EquilibriumDistribution.cpp 340-343); `f` is `C_L * gamma5 / SpeedOfLight`. -/
noncomputable def emittance (garbage : Int) (answer f : ℝ) (comps : List (Option (Bend × Vec))) (damp : ℝ) : Outcome Err ℝ :=
  (sumE5 garbage answer comps 0).bind fun s => if damp = 0 then .ub else .ok (s * f / damp)

/-! ## The matrix -/

section
variable {K : Type} [Field K]

/-- The new R53 (EquilibriumDistribution.cpp 242-246). -/
def new42 (M : Matrix (Fin 6) (Fin 6) K) : K :=
  -(-M 2 2 * M 3 1 * M 4 0 + M 2 1 * M 3 2 * M 4 0 + M 2 2 * M 3 0 * M 4 1 - M 2 0 * M 3 2 * M 4 1
    + M 2 5 * M 3 2 * M 4 4 - M 2 2 * M 3 5 * M 4 4 - M 2 4 * M 3 2 * M 4 5 + M 2 2 * M 3 4 * M 4 5)
    / (M 2 3 * M 3 2 - M 2 2 * M 3 3)

/-- The new R54 (EquilibriumDistribution.cpp 248-252). -/
def new43 (M : Matrix (Fin 6) (Fin 6) K) : K :=
  (-M 3 3 * M 2 1 * M 4 0 + M 3 3 * M 2 0 * M 4 1 - M 3 3 * M 2 5 * M 4 4 + M 3 3 * M 2 4 * M 4 5
    + M 2 3 * M 3 1 * M 4 0 - M 2 3 * M 3 0 * M 4 1 + M 2 3 * M 3 5 * M 4 4 - M 2 3 * M 3 4 * M 4 5)
    / (M 2 3 * M 3 2 - M 2 2 * M 3 3)

/-- The matrix with the new elements, one behind the other (EquilibriumDistribution.cpp 242-252). -/
def repair (M : Matrix (Fin 6) (Fin 6) K) : Matrix (Fin 6) (Fin 6) K :=
  let M1 : Matrix (Fin 6) (Fin 6) K := fun i j => if i = 4 ∧ j = 2 then new42 M else M i j
  fun i j => if i = 4 ∧ j = 3 then new43 M1 else M1 i j

end

/-! ## Moments -/

/-- `BeamMoment` (EquilibriumDistribution.cpp 351-355) with the eigenvectors `v` of the three planes. -/
noncomputable def beamMoment (em : Fin 3 → ℝ) (v : Fin 3 → Vec) (i j : Fin 6) : ℝ :=
  (List.finRange 3).foldl (fun m k => m + 2 * em k * ((v k i).re * (v k j).re + (v k i).im * (v k j).im)) 0

end Verif.Equilibrium
