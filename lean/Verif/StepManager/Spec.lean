import Mathlib.Data.List.Perm.Basic
import Verif.StepManager.Model

/-!
# Specification for the process step manager
-/

namespace Verif.StepManager.Spec
open Verif Verif.StepManager

/-- The processes registered after some calls, in the order of their registration. -/
def registered {α : Type} [DecidableEq α] (os : List (TableOp α)) : List α :=
  os.foldl (fun l o => match o with
    | .add p => l ++ [p]
    | .remove p => l.erase p
    | .clear => []) []

/-- No call removes a process that is not registered. -/
def NoAbsent {α : Type} [DecidableEq α] (os : List (TableOp α)) : Prop :=
  ∀ pre p post, os = pre ++ TableOp.remove p :: post → p ∈ registered pre

/-- The order in which processes have to run: those of one priority in the order of their
registration, those with non-negative priority by increasing priority, none lost or invented. -/
structure Ordered {α : Type} (prio : α → Int) (reg table : List α) : Prop where
  perm : table.Perm reg
  sorted : (table.filter (fun p => 0 ≤ prio p)).Pairwise (fun p q => prio p ≤ prio q)
  stable : ∀ k, 0 ≤ k → table.filter (fun p => prio p = k) = reg.filter (fun p => prio p = k)

variable {σ B C K : Type}

/-- One step `ds` given to the processes in order: each active one performs it on the bunch as left by
the one before, the others are left alone. -/
inductive Visit (V : Virtual σ B C K) (ds : K) : B → List σ → B → List σ → Prop
  | nil (b : B) : Visit V ds b [] b []
  | act (b b2 : B) (p : σ) (ps ps2 : List σ) (h : V.active p = true)
      (t : Visit V ds (V.doProcess ds b p).1 ps b2 ps2) :
      Visit V ds b (p :: ps) b2 ((V.doProcess ds b p).2 :: ps2)
  | idle (b b2 : B) (p : σ) (ps ps2 : List σ) (h : V.active p = false)
      (t : Visit V ds b ps b2 ps2) : Visit V ds b (p :: ps) b2 (p :: ps2)

/-- A sequence of steps. -/
inductive Visits (V : Virtual σ B C K) : B → List σ → List (Step σ K) → B → List σ → Prop
  | nil (b : B) (ps : List σ) : Visits V b ps [] b ps
  | cons (b b1 b2 : B) (ps ps1 ps2 : List σ) (ds : K) (l : List (Step σ K))
      (h : Visit V ds b ps b1 ps1) (t : Visits V b1 ps1 l b2 ps2) :
      Visits V b ps (⟨ps, ds⟩ :: l) b2 ps2

end Verif.StepManager.Spec
