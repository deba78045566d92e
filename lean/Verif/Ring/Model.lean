import Verif.Common.Outcome

/-!
# Model of `ring_iterator` (Merlin++/ring_iterator.h)

The container is a list; an underlying iterator is an index between `0` (`begin()`) and the size
(`end()`).  Advancing `end()`, stepping back from `begin()` and dereferencing `end()` are undefined
in C++ and give `ub`.
-/

namespace Verif.Ring
open Verif

variable {α : Type}

/-- `++curr` of the underlying iterator. -/
def rawInc (n p : Nat) : Outcome Empty Nat := if p < n then .ok (p + 1) else .ub

/-- `--curr` of the underlying iterator. -/
def rawDec (p : Nat) : Outcome Empty Nat := if 0 < p then .ok (p - 1) else .ub

/-- `operator++`, ring_iterator.h:37-54 (the container has `n` elements). -/
def inc (n p : Nat) : Outcome Empty Nat := do
  let q ← rawInc n p
  .ok (if q = n then 0 else q)

/-- `operator--`, ring_iterator.h:56-75. -/
def dec (n p : Nat) : Outcome Empty Nat :=
  let q := if p = 0 then n else p
  rawDec q

/-- `operator*`, ring_iterator.h:97-100. -/
def deref (xs : List α) (p : Nat) : Outcome Empty α :=
  match xs[p]? with
  | some x => .ok x
  | none => .ub

/-- `make_ring_iterator(cont)`, ring_iterator.h:114-118. -/
def makeRing : Nat := 0

/-- A client loop: `k` times look at the element and move with `move`; returns what was seen and
the final iterator. -/
def walk (move : Nat → Outcome Empty Nat) (xs : List α) : Nat → Nat → Outcome Empty (List α × Nat)
  | 0, p => .ok ([], p)
  | k + 1, p => do
    let x ← deref xs p
    let q ← move p
    let (ys, r) ← walk move xs k q
    .ok (x :: ys, r)

end Verif.Ring
