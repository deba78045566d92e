import Verif.Elastic.Model
import Mathlib.Algebra.BigOperators.Intervals
import Mathlib.MeasureTheory.Integral.IntervalIntegral.Basic

/-! Specification: quantiles of a cross section given at equal steps. -/

namespace Verif.Elastic.Spec
open Finset Verif.Elastic

/-- The place of step `k`. -/
def place (c : Setup) (k : Nat) : ℝ := c.tmin + k * c.step

/-- The sum over steps one to `n`: the integral of the function that has the value at the end of a step throughout the step. -/
def total (c : Setup) (f : ℝ → ℝ) (n : Nat) : ℝ := c.step * ∑ k ∈ Ico 1 (n + 1), f (place c k)

/-- Up to `q` the step function has a fraction `p` of its integral. -/
def Quantile (c : Setup) (f : ℝ → ℝ) (n : Nat) (p q : ℝ) : Prop :=
  ∃ j, j < n ∧ place c j ≤ q ∧ q ≤ place c (j + 1) ∧ total c f j + (q - place c j) * f (place c (j + 1)) = p * total c f n

/-- A setup for `n` steps. -/
def Steps (c : Setup) (n : Nat) : Prop :=
  0 < c.step ∧ n < 2 ^ 32 - 1 ∧ place c n ≤ c.tmax ∧ c.tmax < place c (n + 1)

end Verif.Elastic.Spec
