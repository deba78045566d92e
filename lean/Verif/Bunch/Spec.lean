import Mathlib.Algebra.Field.Basic
import Mathlib.Algebra.BigOperators.Group.List.Basic

/-!
# Specification of bunch statistics, on lists of vectors
-/

namespace Verif.Bunch.Spec

variable {K : Type} [Field K]

/-- Arithmetic mean. -/
def mean (l : List K) : K := l.sum / l.length

/-- Covariance of the values at `i` and `j` of a list of vectors. -/
def cov {I : Type} (l : List (I → K)) (i j : I) : K :=
  mean (l.map fun p => (p i - mean (l.map fun q => q i)) * (p j - mean (l.map fun q => q j)))

/-- Physical momentum of a particle with relative deviation `dp`. -/
def momentum (p0 dp : K) : K := p0 * (1 + dp)

/-- Physical arrival time (times c); positive `ct` is early. -/
def arrival (ct0 ct : K) : K := ct0 - ct

end Verif.Bunch.Spec
