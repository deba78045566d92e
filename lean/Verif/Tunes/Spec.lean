import Mathlib.Analysis.SpecialFunctions.Complex.Circle
import Mathlib.Algebra.BigOperators.Group.Finset.Basic

/-!
# Specification: discrete Fourier transform and signals
-/

namespace Verif.Tunes.Spec

/-- The pairs of reals as complex numbers. -/
def complex (d : Nat → ℝ) (k : Nat) : ℂ := ⟨d (2 * k), d (2 * k + 1)⟩

/-- The discrete Fourier transform of `n` numbers. -/
noncomputable def dft (n : Nat) (x : Nat → ℂ) (q : Nat) : ℂ := ∑ k ∈ Finset.range n, x k * Complex.exp (2 * Real.pi * Complex.I * (q * k / n))

/-- Reversal of the lowest `b` bits. -/
def rev : Nat → Nat → Nat
  | 0, _ => 0
  | b + 1, x => x % 2 * 2 ^ b + rev b (x / 2)

/-- A tone of the tune `nu` with the filter of Hanning, as it is collected from `n` turns. -/
noncomputable def tone (n : Nat) (a : ℂ) (nu : ℝ) (k : Nat) : ℂ :=
  a * Complex.exp (-(2 * Real.pi * Complex.I * (nu * k))) * (Real.sin (Real.pi * (k + 1) / n) ^ 2 : ℝ)

/-- `p` is the first of the highest bins 1 to `n - 1` of the tone. -/
def Peaked (n : Nat) (nu : ℝ) (p : Nat) : Prop := 1 ≤ p ∧ p < n ∧ dft n (tone n 1 nu) p ≠ 0 ∧
  (∀ q, 1 ≤ q → q < n → ‖dft n (tone n 1 nu) q‖ ≤ ‖dft n (tone n 1 nu) p‖) ∧
  ∀ q, 1 ≤ q → q < p → ‖dft n (tone n 1 nu) q‖ < ‖dft n (tone n 1 nu) p‖

end Verif.Tunes.Spec
