import Mathlib.Algebra.Order.Field.Basic
import Mathlib.Algebra.Order.Floor.Ring
import Verif.Common.Outcome

/-!
# Model of `Hist`

Merlin++/Histogram.cpp.  Doubles are elements of an ordered field with integer part; the counts, which are doubles
in the code, are natural numbers (exact up to 2^53).
-/

namespace Verif.Histogram
open Verif

variable {K : Type} [Field K] [LinearOrder K] [IsStrictOrderedRing K] [FloorRing K]

/-- Conversion of a double to `size_t` of 64 bits: the fraction is dropped, undefined if the rest does not fit. -/
def toSize (x : K) : Outcome Unit Nat :=
  if x ≤ -1 ∨ 2 ^ 64 ≤ x then .ub else .ok ⌊x⌋.toNat

/-- `x / dx`, where a division by zero gives an infinity or no number, whose conversion is undefined. -/
def quot (x dx : K) : Outcome Unit Nat := if dx = 0 then .ub else toSize (x / dx)

/-- One datum (Histogram.cpp 20-36), on the bins and the number of lost data. -/
def step (x1 dx : K) (nbins : Nat) (s : List Nat × Nat) (d : K) : Outcome Unit (List Nat × Nat) :=
  if d < x1 then .ok (s.1, s.2 + 1)
  else (quot (d - x1) dx).bind fun i =>
    if i < nbins then .ok (s.1.modify i (· + 1), s.2) else .ok (s.1, s.2 + 1)

/-- The loop over the data (Histogram.cpp 18-37). -/
def loop (x1 dx : K) (nbins : Nat) : List K → List Nat × Nat → Outcome Unit (List Nat × Nat)
  | [], s => .ok s
  | d :: l, s => (step x1 dx nbins s d).bind fun s => loop x1 dx nbins l s

/-- `Hist` (Histogram.cpp 12-39): the histogram and the return value. -/
def hist (data : List K) (x1 x2 dx : K) : Outcome Unit (List Nat × Nat) :=
  (quot (x2 - x1) dx).bind fun n =>
    let nbins := n + 1
    loop x1 dx nbins data (List.replicate nbins 0, 0)

end Verif.Histogram
