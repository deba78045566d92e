import Verif.Processes.Model

/-!
# Specification for the step control of processes

`Taken` is the list of steps of the step manager in one component as one process sees them; the
statements about a process are made for every such list.
-/

namespace Verif.Processes.Spec
open Verif Verif.Processes

section
variable {K : Type} [Field K] [LinearOrder K]

/-- Steps given to a process: each is not negative and within the limit while the process is active;
they are only seen by the active process. -/
inductive Taken {P : Type} (active : P → Bool) (limit : P → K) (act : K → P → P) :
    P → List K → P → Prop
  | nil (p : P) : Taken active limit act p [] p
  | act (p p2 : P) (ds : K) (l : List K) (ha : active p = true) (h0 : 0 ≤ ds) (hl : ds ≤ limit p)
      (t : Taken active limit act (act ds p) l p2) : Taken active limit act p (ds :: l) p2
  | idle (p p2 : P) (ds : K) (l : List K) (ha : active p = false) (h0 : 0 ≤ ds)
      (t : Taken active limit act p l p2) : Taken active limit act p (ds :: l) p2

/-- The steps cover a component of length `len` up to the tolerance, and stop as soon as they do. -/
structure Covers (eps len : K) (l : List K) : Prop where
  ne : l ≠ []
  le : l.sum ≤ len
  reach : len - l.sum ≤ eps
  stop : ∀ pre suf, l = pre ++ suf → pre ≠ [] → suf ≠ [] → eps < len - pre.sum

/-- Intervals following one another without gap from `a` to `b`. -/
inductive Chain : K → List (K × K) → K → Prop
  | nil (a : K) : Chain a [] a
  | cons (a b c : K) (l : List (K × K)) (t : Chain b l c) : Chain a ((a, b) :: l) c

end

end Verif.Processes.Spec
