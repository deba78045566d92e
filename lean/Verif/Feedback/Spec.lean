import Verif.Feedback.Model

/-!
# Specification for channels and the feedback
-/

namespace Verif.Feedback.Spec
open Verif Verif.Feedback

variable {σ K : Type}

/-- Reading a channel gives what was last written to it. -/
def Lawful (c : Chan σ K) : Prop := ∀ v s, c.read (c.write v s) = v

/-- Writing to one channel does not change what the other reads. -/
def Independent (c d : Chan σ K) : Prop :=
  (∀ v s, c.read (d.write v s) = c.read s) ∧ (∀ v s, d.read (c.write v s) = d.read s)

/-- A set of channels of independent parameters. -/
def Separate (cs : List (Chan σ K)) : Prop := (∀ c ∈ cs, Lawful c) ∧ cs.Pairwise Independent

/-- Pointwise difference. -/
def diff [Sub K] (a b : List K) : List K := List.zipWith (· - ·) a b

end Verif.Feedback.Spec
