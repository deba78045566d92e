import Mathlib.Algebra.Order.Field.Basic

/-!
# Model of `NumericalRange` (Merlin++/Range.h)

Values are elements of a linearly ordered field; `fequal` (utils.h:16-19) is modelled with its
tolerance `eps` as a parameter.
-/

namespace Verif.Range

variable {K : Type} [Field K] [LinearOrder K] [IsStrictOrderedRing K]

/-- `RangeBase::Result`, Range.h:19-25. -/
inductive Result where
  | ok | belowlower | aboveupper
  deriving DecidableEq, Repr

/-- `NumericalRange`, data members Range.h:93-98. -/
structure NumRange (K : Type) where
  lower : K
  upper : K

/-- Constructor from two bounds, Range.h:102-110. -/
def mk2 (lo hi : K) : NumRange K := if hi < lo then ⟨hi, lo⟩ else ⟨lo, hi⟩

/-- Constructor of the unbounded range, Range.h:50-53. -/
def unbounded : NumRange K := ⟨1, -1⟩

/-- Fixed point constructor, Range.h:58-61. -/
def fixed (x : K) : NumRange K := ⟨x, x⟩

/-- `fequal`, utils.h:16-19. -/
def fequal (eps x y : K) : Bool := decide (|x - y| ≤ eps)

/-- `IsUnbounded`, Range.h:112-116. -/
def isUnbounded (eps : K) (r : NumRange K) : Bool := fequal eps r.lower 1 && fequal eps r.upper (-1)

/-- `IsFixedPoint`, Range.h:71-74. -/
def isFixedPoint (r : NumRange K) : Bool := decide (r.lower = r.upper)

/-- `operator()`, Range.h:118-129. -/
def contains (eps : K) (r : NumRange K) (x : K) : Bool :=
  if isUnbounded eps r then true else decide (r.lower ≤ x) && decide (x ≤ r.upper)

/-- `operator==`, Range.h:131-135. -/
def eq (a b : NumRange K) : Bool := decide (a.lower = b.lower) && decide (a.upper = b.upper)

/-- `operator!=`, Range.h:137-141. -/
def ne (a b : NumRange K) : Bool := decide (a.lower ≠ b.lower) || decide (a.upper ≠ b.upper)

/-- `Check`, Range.h:143-163. -/
def check (eps : K) (r : NumRange K) (x : K) : Result :=
  if isUnbounded eps r then .ok
  else if x < r.lower then .belowlower
  else if x ≤ r.upper then .ok
  else .aboveupper

end Verif.Range
