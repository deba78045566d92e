import Verif.MapComponent.Model

/-! # What is claimed about components that are given by a map -/

namespace Verif.MapComponent.Spec

variable {G : Type}

/-- Components that know nothing of each other: what each does, and for each the number of the component it is a copy of in the end. -/
structure Own (G : Type) where
  vals : List G
  family : List Nat

def step [Group G] (s : Own G) : Op G → Own G
  | .make m => ⟨s.vals ++ [m.val], s.family ++ [s.family.length]⟩
  | .copy i => ⟨s.vals ++ s.vals[i]?.toList, s.family ++ s.family[i]?.toList⟩
  | .rotate i => ⟨s.vals.modify i (·⁻¹), s.family⟩

def run [Group G] (ops : List (Op G)) : Own G := ops.foldl step ⟨[], []⟩

/-- No component is copied. -/
def noCopy (ops : List (Op G)) : Prop := ∀ o ∈ ops, ∀ i, o ≠ .copy i

/-- No component is rotated. -/
def noRotation (ops : List (Op G)) : Prop := ∀ o ∈ ops, ∀ i, o ≠ .rotate i

end Verif.MapComponent.Spec
