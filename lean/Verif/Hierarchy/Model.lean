import Mathlib.Algebra.Order.Ring.Rat
import Verif.Common.Outcome

/-!
# Model of frames that are wrapped, moved and copied

Source: `Merlin++/FrameModifier.cpp`, `SequenceFrame.cpp`, `LatticeFrame.h`, `LatticeFrame.cpp`, `ComponentFrame.h`, `TComponentFrame.h`, `PatchFrame.h`,
`MagnetMover.cpp`.  Doubles are rational numbers.  Use of a null pointer, of a member that was never set and a failing assertion are undefined.
-/

namespace Verif.Hierarchy

open Verif

/-! ## Frames by address -/

/-- What kind of frame: a component, a sequence with the addresses of its sub-frames, a modifier with that of its frame. -/
inductive Kind where
  | comp
  | seq (subs : List Nat)
  | modifier (sub : Nat)
deriving DecidableEq, Repr

/-- A frame (LatticeFrame.h 320-337): `sup` is `superFrame`, `pos` is `s_0`, `geo` the length of the geometry pointed to. -/
structure Fr where
  kind : Kind
  sup : Option Nat
  pos : ℚ
  geo : Option ℚ
deriving DecidableEq, Repr

abbrev Heap := Nat → Option Fr

def Heap.set (h : Heap) (i : Nat) (f : Fr) : Heap := fun j => if j = i then some f else h j

/-- `std::find` and replacement of what was found (SequenceFrame.cpp 188-191). -/
def replaceFirst (old new : Nat) : List Nat → List Nat
  | [] => []
  | a :: l => if a = old then new :: l else a :: replaceFirst old new l

/-- `ReplaceSubFrame` (SequenceFrame.cpp 186-199; LatticeFrame.h 468-471 for all other frames). -/
def replaceSub (h : Heap) (s old new : Nat) : Outcome Empty (Bool × Heap) :=
  match h s with
  | none => .ub
  | some fs =>
    match fs.kind with
    | .seq subs =>
      if old ∈ subs then
        let h1 := h.set s ⟨.seq (replaceFirst old new subs), fs.sup, fs.pos, fs.geo⟩
        match h1 new with
        | none => .ub
        | some fn => .ok (true, h1.set new ⟨fn.kind, some s, fn.pos, fn.geo⟩)
      else .ok (false, h)
    | _ => .ok (false, h)

/-- The constructor of `FrameModifier` (FrameModifier.cpp 10-20), at the new address `m` (LatticeFrame.h 356-359). -/
def wrap (h : Heap) (m f : Nat) : Outcome Empty Heap :=
  match h f with
  | none => .ub
  | some ff =>
    let h1 := (h.set m ⟨.modifier f, none, 0, ff.geo⟩).set f ⟨ff.kind, some m, ff.pos, ff.geo⟩
    match ff.sup with
    | none => .ok h1
    | some s => (replaceSub h1 s f m).bind fun r => .ok r.2

/-- `FrameModifier::Remove` (FrameModifier.cpp 53-56), also called by the destructor (22-25). -/
def remove (h : Heap) (m : Nat) : Outcome Empty Heap :=
  match h m with
  | some ⟨.modifier f, some s, _, _⟩ => (replaceSub h s m f).bind fun r => .ok r.2
  | _ => .ub

/-- What `SequenceFrame::ConsolidateConstruction` does with one sub-frame (SequenceFrame.cpp 153-164), whose position follows from the lengths:
`SetLocalPosition` and its own consolidation (FrameModifier.cpp 48-51). -/
def settle (h : Heap) (c : Nat) (p : ℚ) : Outcome Empty Heap :=
  match h c with
  | none => .ub
  | some fc =>
    let h1 := h.set c ⟨fc.kind, fc.sup, p, fc.geo⟩
    match fc.kind with
    | .modifier f =>
      match h1 f with
      | none => .ub
      | some ff => .ok (h1.set f ⟨ff.kind, ff.sup, 0, ff.geo⟩)
    | _ => .ok h1

/-- `LatticeFrame::GetPosition` (LatticeFrame.cpp 64-68); `n` bounds the number of frames above. -/
def position (h : Heap) (sframe : Option Nat) : Nat → Nat → Outcome Empty ℚ
  | 0, _ => .ub
  | n + 1, i =>
    match h i with
    | none => .ub
    | some f =>
      if sframe = f.sup then .ok f.pos
      else match f.sup with
        | none => .ub
        | some s => (position h sframe n s).bind fun p => .ok (f.pos + p)

/-! ## Copies -/

/-- A geometry: none, one with its length, or one whose members were never set. -/
inductive Geo where
  | null
  | own (len : ℚ)
  | unset
deriving DecidableEq, Repr

/-- A frame with what is below it.  `loc` is the local transformation, `c` the address of the component, `t` the transformation of a patch. -/
inductive Tree (G : Type) where
  | comp (c : Nat) (loc : Option G) (pos : ℚ) (geo : Geo)
  | patch (loc : Option G) (pos : ℚ) (t : Option G)
  | seq (loc : Option G) (pos : ℚ) (geo : Geo) (subs : List (Tree G))
  | modifier (loc : Option G) (pos : ℚ) (geo : Geo) (sub : Tree G)
  | mover (loc : Option G) (pos : ℚ) (geo : Geo) (subs : List (Tree G))

variable {G : Type}

/-- `GetLocalPosition`. -/
def Tree.pos : Tree G → ℚ
  | .comp _ _ p _ => p
  | .patch _ p _ => p
  | .seq _ p _ _ => p
  | .modifier _ p _ _ => p
  | .mover _ p _ _ => p

/-- `SetLocalPosition` (LatticeFrame.h 456-459). -/
def Tree.setPos (q : ℚ) : Tree G → Tree G
  | .comp c l _ g => .comp c l q g
  | .patch l _ t => .patch l q t
  | .seq l _ g s => .seq l q g s
  | .modifier l _ g s => .modifier l q g s
  | .mover l _ g s => .mover l q g s

/-- `GetGeometryLength` (LatticeFrame.h 437-440). -/
def Tree.length : Tree G → Outcome Empty ℚ
  | .comp _ _ _ g => lenOf g
  | .patch _ _ _ => .ok 0
  | .seq _ _ g _ => lenOf g
  | .modifier _ _ g _ => lenOf g
  | .mover _ _ g _ => lenOf g
where
  lenOf : Geo → Outcome Empty ℚ
    | .null => .ok 0
    | .own l => .ok l
    | .unset => .ub

mutual
/-- `Copy`: ComponentFrame.h (copy constructor; the geometry is not set) and LatticeFrame.h 361-364; PatchFrame.h 82-87; SequenceFrame.cpp 106-112 and the
copy constructor of `SequenceGeometry`, which sets no member (232-235); FrameModifier.cpp 27-30; MagnetMover.cpp 15-20 (`assert(false)`). -/
def copy : Tree G → Outcome Empty (Tree G)
  | .comp c l _ _ => .ok (.comp c l 0 .null)
  | .patch l _ t => .ok (.patch l 0 t)
  | .seq l _ _ s => (copyList s).bind fun s' => .ok (.seq l 0 .unset s')
  | .modifier _ _ _ sub => copy sub
  | .mover _ _ _ _ => .ub

/-- `CopySubFrames` (SequenceFrame.cpp 206-216). -/
def copyList : List (Tree G) → Outcome Empty (List (Tree G))
  | [] => .ok []
  | t :: l => (copy t).bind fun t' => (copyList l).bind fun l' => .ok (t'.setPos t.pos :: l')
end

end Verif.Hierarchy
