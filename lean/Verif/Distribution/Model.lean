import Verif.Histogram.Model

/-!
# Model of the distribution of a coordinate

`ParticleBunchDistribution`, Merlin++/ParticleBunchUtilities.cpp 160-201.  Particles are of any type, `u` is the coordinate.
The counts, which are doubles in the code, are natural numbers until they are scaled.
-/

namespace Verif.Distribution
open Verif Verif.Histogram

variable {K : Type} [Field K] [LinearOrder K] [IsStrictOrderedRing K] [FloorRing K]

/-- The state of the loop (ParticleBunchUtilities.cpp 163-169): the particles before the iterator, the bins, the number of lost
ones and the total. -/
structure St (P : Type) where
  seen : List P
  bins : List Nat
  lost : Nat
  total : Nat

/-- The loop (ParticleBunchUtilities.cpp 171-192) over the particles from the iterator on.  After `erase`, the iterator is moved back and
forth again, which is undefined at the begin of the bunch; a failing `assert` is undefined. -/
def loop {P : Type} (u : P → K) (umin umax du : K) (nb : Nat) (truncate : Bool) : List P → St P → Outcome Unit (St P)
  | [], s => .ok s
  | p :: l, s =>
    if u p < umin ∨ u p > umax then
      if truncate then
        if s.seen = [] then .ub else loop u umin umax du nb truncate l { s with lost := s.lost + 1 }
      else loop u umin umax du nb truncate l { s with seen := s.seen ++ [p], lost := s.lost + 1 }
    else
      (quot (u p - umin) du).bind fun n =>
        if n < nb then
          loop u umin umax du nb truncate l ⟨s.seen ++ [p], s.bins.modify n (· + 1), s.lost, s.total + 1⟩
        else .ub

/-- What the function changes and returns. -/
structure Res (P K : Type) where
  bunch : List P
  bins : List K
  lost : Nat
  deriving DecidableEq

/-- `ParticleBunchDistribution` (ParticleBunchUtilities.cpp 160-201).  Scaling by the total of no particles, whose results are no
numbers, is `ub`. -/
def distribution {P : Type} [DecidableEq P] (u : P → K) (l : List P) (umin umax du : K) (normalise truncate : Bool) :
    Outcome Unit (Res P K) :=
  (quot (umax - umin) du).bind fun nb =>
    (loop u umin umax du nb truncate l ⟨[], List.replicate nb 0, 0, 0⟩).bind fun s =>
      if normalise then
        if s.total = 0 then .ub
        else .ok ⟨s.seen, s.bins.map fun k : Nat => (k : K) * (1 / (s.total : K) / du), s.lost⟩
      else .ok ⟨s.seen, s.bins.map fun k : Nat => (k : K), s.lost⟩

end Verif.Distribution
