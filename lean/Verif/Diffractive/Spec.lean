import Mathlib.Data.Real.Basic
import Mathlib.Algebra.BigOperators.Group.Finset.Basic
import Mathlib.Algebra.Order.Field.Basic
import Mathlib.Data.List.GetD

/-!
# Specification for the choice of t and mass in diffractive scattering
-/

namespace Verif.Diffractive.Spec
open Finset

/-- The share of the bins up to and including `k`. -/
noncomputable def share (d : Nat → ℝ) (NN k : Nat) : ℝ := (∑ i ∈ range (k + 1), d i) / ∑ i ∈ range NN, d i

/-- `u`, a fraction of the whole width, is where the shares, joined by straight lines at multiples of one over NN, reach `p`. -/
def Quantile (d : Nat → ℝ) (NN : Nat) (p u : ℝ) : Prop :=
  ∃ (k : Nat) (w : ℝ), k + 1 < NN ∧ 0 < w ∧ w ≤ 1 ∧ u * (NN : ℝ) = (k : ℝ) + w ∧ p = share d NN k + w * (share d NN (k + 1) - share d NN k)

/-- A table that rises from zero and stays below one. -/
def Rising (N : Nat) (a : List ℝ) : Prop :=
  a.length = N ∧ a.getD 0 0 = 0 ∧ (∀ i j, i < j → j < N → a.getD i 0 < a.getD j 0) ∧ ∀ i, i < N → a.getD i 0 < 1

/-- The width of the cell that begins with the entry `i`; the last one ends at one. -/
noncomputable def width (N : Nat) (a : List ℝ) (i : Nat) : ℝ := (if i + 1 < N then a.getD (i + 1) 0 else 1) - a.getD i 0

/-- In every cell the cross section times the factor is below the total shared equally among the cells, spread over the cell. -/
def Below (N : Nat) (lo hi lo' hi' : ℝ) (ta xa : List ℝ) (sig : ℝ) (f : ℝ → ℝ → ℝ) (factor : ℝ) : Prop :=
  ∀ i, i < N → ∀ j, j < N → ∀ u, 0 ≤ u → u ≤ 1 → ∀ w, 0 ≤ w → w ≤ 1 →
    let ds := f (lo + (ta.getD i 0 + u * width N ta i) * (hi - lo)) (lo' + (xa.getD j 0 + w * width N xa j) * (hi' - lo')) / 1000
    0 ≤ ds ∧ factor * ds * (width N ta i * (hi - lo) * (width N xa j * (hi' - lo'))) ≤ sig / ((N : ℝ) * N)

end Verif.Diffractive.Spec
