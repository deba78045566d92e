import Verif.Generators.Model
import Verif.Beam.Spec
import Mathlib.MeasureTheory.Integral.IntervalIntegral.Basic

/-! Specification: amplitudes of particles, truncation and means. -/

namespace Verif.Generators.Spec
open Real Verif.Beam Verif.Generators

/-- The first number of a list whose distance from zero is at most `c`, and what comes after it. -/
def FirstWithin (c : ℝ) (l : List ℝ) (g : ℝ) (rest : List ℝ) : Prop :=
  ∃ before, l = before ++ g :: rest ∧ |g| ≤ c ∧ ∀ b ∈ before, c < |b|

/-- The coordinates of a particle relative to the centre of the beam, without the part of the dispersion. -/
def betatron (t : BeamData) (p : Nat → ℝ) (i : Nat) : ℝ :=
  match i with
  | 0 => p 0 - t.x0 - t.Dx * p 5
  | 1 => p 1 - t.xp0 - t.Dxp * p 5
  | 2 => p 2 - t.y0 - t.Dy * p 5
  | 3 => p 3 - t.yp0 - t.Dyp * p 5
  | _ => 0

/-- The Courant-Snyder invariants. -/
noncomputable def actionX (t : BeamData) (p : Nat → ℝ) : ℝ :=
  let x := betatron t p 0
  let xp := betatron t p 1
  (1 + t.alpha_x ^ 2) / t.beta_x * x ^ 2 + 2 * t.alpha_x * x * xp + t.beta_x * xp ^ 2

noncomputable def actionY (t : BeamData) (p : Nat → ℝ) : ℝ :=
  let y := betatron t p 2
  let yp := betatron t p 3
  (1 + t.alpha_y ^ 2) / t.beta_y * y ^ 2 + 2 * t.alpha_y * y * yp + t.beta_y * yp ^ 2

/-- A beam for which the generators are meant. -/
def Good (t : BeamData) : Prop := Verif.Beam.Spec.Uncoupled t ∧ 0 < t.beta_x ∧ 0 < t.beta_y ∧ 0 ≤ t.emit_x ∧ 0 ≤ t.emit_y

/-- The mean of a quantity over one number of [0, 1). -/
noncomputable def mean1 (f : ℝ → ℝ) : ℝ := ∫ v in (0 : ℝ)..1, f v

end Verif.Generators.Spec
