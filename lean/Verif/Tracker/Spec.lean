import Verif.Tracker.Model

/-!
# Specification for component trackers
-/

namespace Verif.Tracker.Spec
open Verif Verif.Tracker

variable {K : Type} [Field K] [LinearOrder K]

/-- A complete pass through component `c` of length `len`: entrance map, steps that add up to the
length within the tolerance, exit map. -/
def Complete (eps : K) (c : Nat) (len : K) (evs : List (Ev K)) : Prop :=
  ∃ ds : List K, ds ≠ [] ∧ |len - ds.sum| ≤ eps ∧ evs = Ev.entrance c :: ds.map (Ev.body c) ++ [Ev.exit c]

/-- A pass begun but not finished. -/
def Begun (eps : K) (c : Nat) (len : K) (evs : List (Ev K)) : Prop :=
  ∃ ds : List K, ds ≠ [] ∧ ds.sum < len - eps ∧ evs = Ev.entrance c :: ds.map (Ev.body c)

/-- The components prepared by some calls. -/
def prepared : List (Op K) → List (Nat × K)
  | [] => []
  | .prepare _ c len :: os => (c, len) :: prepared os
  | _ :: os => prepared os

/-- Where a program is, following the documentation of `ComponentTracker` (ComponentTracker.h 62-113):
nothing prepared; ready; a length `done` of a component of length `len` tracked; component finished. -/
inductive Phase (K : Type) where
  | idle
  | ready (len : K)
  | mid (len done : K)
  | over

/-- Phase after tracking up to `done`. -/
def Phase.after (eps len done : K) : Phase K := if |len - done| ≤ eps then .over else .mid len done

/-- The phase after a program; `ok ids` tells whether an integrator exists for a component. -/
def phase (eps : K) (p : Phase K) : List (Op K) → Phase K
  | [] => p
  | .prepare _ _ len :: os => phase eps (.ready len) os
  | .track :: os => phase eps .over os
  | .trackStep ds :: os =>
    phase eps (match p with
      | .ready len => .after eps len ds
      | .mid len done => .after eps len (done + ds)
      | p => p) os
  | .reset :: os => phase eps .idle os

/-- What is left to track, as far as it exceeds the tolerance. -/
def left (eps rest : K) : K := if |rest| ≤ eps then 0 else rest

/-- The legal calls. -/
def Legal (eps : K) (known : List Nat → Prop) (p : Phase K) : Op K → Prop
  | .prepare ids _ _ => (match p with | .idle => True | .over => True | _ => False) ∧ known ids
  | .track => (match p with | .ready _ => True | _ => False)
  | .trackStep ds =>
    (match p with
      | .ready len => 0 ≤ ds ∧ ds ≤ left eps len
      | .mid len done => 0 ≤ ds ∧ ds ≤ left eps (len - done)
      | _ => False)
  | .reset => True

end Verif.Tracker.Spec
