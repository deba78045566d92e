import Mathlib.Algebra.Order.Field.Basic

/-!
# Specification of histograms
-/

namespace Verif.Histogram.Spec

variable {K : Type} [Field K] [LinearOrder K] [IsStrictOrderedRing K]

/-- `x` is in the interval of bin `i`. -/
def InBin (x1 dx : K) (i : Nat) (x : K) : Prop := x1 + i * dx ≤ x ∧ x < x1 + (i + 1) * dx

instance (x1 dx : K) (i : Nat) (x : K) : Decidable (InBin x1 dx i x) := inferInstanceAs (Decidable (_ ∧ _))

/-- Number of data in bin `i`. -/
def inBin (x1 dx : K) (i : Nat) (l : List K) : Nat := l.countP (fun x => decide (InBin x1 dx i x))

/-- Number of data outside of the first `n` bins. -/
def outside (x1 dx : K) (n : Nat) (l : List K) : Nat := l.countP (fun x => decide (x < x1 ∨ x1 + n * dx ≤ x))

end Verif.Histogram.Spec
