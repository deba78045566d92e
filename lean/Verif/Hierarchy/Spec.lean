import Verif.Hierarchy.Model

/-! # What is claimed about frames that are wrapped and copied -/

namespace Verif.Hierarchy.Spec

variable {G : Type}

/-- Frames one above the other, the last of them in the frame `sframe`, with their local positions. -/
def Chain (h : Heap) (sframe : Option Nat) : List (Nat × ℚ) → Prop
  | [] => False
  | [a] => ∃ f, h a.1 = some f ∧ f.pos = a.2 ∧ f.sup = sframe
  | a :: b :: l => (∃ f, h a.1 = some f ∧ f.pos = a.2 ∧ f.sup = some b.1 ∧ sframe ≠ some b.1) ∧ Chain h sframe (b :: l)

/-- Whatever is at the end of the hierarchy, in order: a component with its local transformation, or a patch with both of its transformations. -/
inductive Leaf (G : Type) where
  | comp (c : Nat) (loc : Option G)
  | patch (loc : Option G) (t : Option G)
deriving DecidableEq

mutual
def leaves : Tree G → List (Leaf G)
  | .comp c l _ _ => [.comp c l]
  | .patch l _ t => [.patch l t]
  | .seq _ _ _ s => leavesList s
  | .modifier _ _ _ s => leaves s
  | .mover _ _ _ s => leavesList s
def leavesList : List (Tree G) → List (Leaf G)
  | [] => []
  | t :: l => leaves t ++ leavesList l
end

mutual
/-- The local transformations in the order of the hierarchy. -/
def locals : Tree G → List (Option G)
  | .comp _ l _ _ => [l]
  | .patch l _ _ => [l]
  | .seq l _ _ s => l :: localsList s
  | .modifier l _ _ s => l :: locals s
  | .mover l _ _ s => l :: localsList s
def localsList : List (Tree G) → List (Option G)
  | [] => []
  | t :: l => locals t ++ localsList l
end

mutual
/-- Components, patches and sequences only. -/
def plain : Tree G → Bool
  | .comp _ _ _ _ => true
  | .patch _ _ _ => true
  | .seq _ _ _ s => plainList s
  | .modifier _ _ _ _ => false
  | .mover _ _ _ _ => false
def plainList : List (Tree G) → Bool
  | [] => true
  | t :: l => plain t && plainList l
end

mutual
/-- No mover anywhere. -/
def unmoved : Tree G → Bool
  | .comp _ _ _ _ => true
  | .patch _ _ _ => true
  | .seq _ _ _ s => unmovedList s
  | .modifier _ _ _ s => unmoved s
  | .mover _ _ _ _ => false
def unmovedList : List (Tree G) → Bool
  | [] => true
  | t :: l => unmoved t && unmovedList l
end

end Verif.Hierarchy.Spec
