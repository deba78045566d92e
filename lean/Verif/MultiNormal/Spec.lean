import Mathlib.Algebra.BigOperators.Ring.Finset
import Mathlib.Algebra.Order.BigOperators.Ring.Finset
import Mathlib.Algebra.Field.Basic

/-!
# Specification of random vectors with given moments
-/

namespace Verif.MultiNormal.Spec

variable {K : Type} [Field K]

/-- The expectation of a function of a vector over a finite distribution of weights. -/
def average (d : List (K × (Nat → K))) (f : (Nat → K) → K) : K := (d.map fun p => p.1 * f p.2).sum

/-- A distribution of independent standard coordinates, up to second moments. -/
def Standard (n : Nat) (d : List (K × (Nat → K))) : Prop :=
  average d (fun _ => 1) = 1 ∧ (∀ i < n, average d (fun x => x i) = 0) ∧
  ∀ i < n, ∀ j < n, average d (fun x => x i * x j) = if i = j then 1 else 0

/-- A symmetric matrix given by its upper triangle. -/
def full (C : Nat → Nat → K) (i j : Nat) : K := if i ≤ j then C i j else C j i

/-- The quadratic form of a symmetric matrix given by its upper triangle. -/
def quad (C : Nat → Nat → K) (n : Nat) (v : Nat → K) : K :=
  ∑ i ∈ Finset.range n, ∑ j ∈ Finset.range n, v i * full C i j * v j

/-- Positive definite. -/
def PosDef [LinearOrder K] (C : Nat → Nat → K) (n : Nat) : Prop :=
  ∀ v : Nat → K, (∃ i < n, v i ≠ 0) → 0 < quad C n v

end Verif.MultiNormal.Spec
