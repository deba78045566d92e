import Mathlib.MeasureTheory.Measure.Lebesgue.Basic
import Verif.Landau.Model

/-! # What is claimed about the Landau distribution -/

namespace Verif.Landau.Spec

open Verif MeasureTheory

/-- The random numbers for which the result is `x` or less. -/
def Upto (x : ℝ) : Set ℝ := {r | 0 ≤ r ∧ r < 1 ∧ ∃ v, landau r = .ok v ∧ v ≤ x}

/-- The value of a result; what is not a value does not matter. -/
noncomputable def value (o : Outcome Empty ℝ) : ℝ :=
  match o with
  | .ok v => v
  | _ => 0

end Verif.Landau.Spec
