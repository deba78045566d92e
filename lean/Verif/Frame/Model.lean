import Verif.Common.Outcome
import Verif.Transform.Model
import Mathlib.Algebra.Order.Field.Basic
import Mathlib.Algebra.Group.Basic

/-!
# Model of accelerator geometries and `SequenceFrame`

Sources: `Merlin++/SequenceFrame.cpp`, `Merlin++/SequenceFrame.h`, `Merlin++/AcceleratorGeometry.h`,
`Merlin++/CenteredGeometry.h`, `Merlin++/ArcGeometry.cpp`, `Merlin++/RectangularGeometry.cpp`,
`Merlin++/GeometryPatch.h`.

Simplifications:
* `Transform3D` is an element of an arbitrary group `G` in the sequence part (that products and
  inverses of `Transform3D` behave like those of a group is property C19); the leaf geometries use
  the model of `Transform3D` itself.
* Positions are elements of an ordered field; `fequal` carries its tolerance as a parameter.
* A failing `assert` is undefined behaviour (without assertions the end iterator is dereferenced).
-/

namespace Verif.Frame
open Verif

/-- `AcceleratorGeometry::BeyondExtent` (AcceleratorGeometry.h 43-45). -/
inductive Exn where
  | beyondExtent
  deriving DecidableEq, Repr

/-- What a `SequenceGeometry` sees of a sub-frame: `GetGeometryLength`, `GetLocalGeometryExtent`,
`GetGeometryTransform(s0, s)` and `GetTotalGeometryTransform` (AcceleratorGeometry.h 76-113, reached
through LatticeFrame.h 390-440). -/
structure Geo (K G : Type) where
  len : K
  first : K
  second : K
  transform : K → K → Outcome Exn G
  total : G

/-- `SequenceFrame::Origin` (SequenceFrame.h). -/
inductive Origin where
  | entrance
  | center
  | exit
  deriving DecidableEq, Repr

/-- `SequenceGeometry` with the frame list it points to (SequenceFrame.cpp 72-91); `cache` holds
`t_in` and `t_out` of `t_cache`. -/
structure Seq (K G : Type) where
  frames : List (Geo K G)
  lenT : K
  omode : Origin
  cache : Option (G × G)

variable {K G : Type} [Field K] [LinearOrder K] [Group G]

/-- `fequal(x, l) || x < l`, the comparison used throughout (utils.h 16-19; SequenceFrame.cpp 286,
301, 313, 415). -/
def leq (eps x l : K) : Bool := Transform.fequal eps x l || decide (x < l)

/-- Constructor (SequenceFrame.cpp 94-97). -/
def Seq.empty (o : Origin) : Seq K G := ⟨[], 0, o, none⟩

/-- `SequenceFrame::AppendFrame` (SequenceFrame.cpp 122-131). -/
def Seq.append (q : Seq K G) (f : Geo K G) : Seq K G :=
  { q with frames := q.frames ++ [f], lenT := q.lenT + f.len }

/-- `SequenceGeometry::GetGeometryExtent` (SequenceFrame.cpp 352-372). -/
def Seq.extent (q : Seq K G) : K × K :=
  match q.omode with
  | .entrance => (0, q.lenT)
  | .center => (-q.lenT / 2, q.lenT / 2)
  | .exit => (-q.lenT, 0)

/-- `SequenceGeometry::GetTotalGeometryTransform` (SequenceFrame.cpp 336-350). -/
def Seq.total (q : Seq K G) : G :=
  match q.cache with
  | some (tin, tout) => tout * tin⁻¹
  | none => q.frames.foldl (fun t f => f.total * t) 1

/-- Second loop of `GetGeometryTransform` with the final multiplication (SequenceFrame.cpp
310-326). -/
def walk (eps : K) : List (Geo K G) → K → G → Outcome Exn G
  | [], _, _ => .ub
  | f :: fs, s, t =>
    if leq eps s f.len then do
      let t' ← f.transform f.first (f.first + s)
      pure (t' * t)
    else walk eps fs (s - f.len) (f.total * t)

/-- First loop of `GetGeometryTransform` and what follows it (SequenceFrame.cpp 279-328): when both
positions lie in the sub-frame found, its local transform is returned as it is. -/
def start (eps : K) (inv : Bool) : List (Geo K G) → K → K → Outcome Exn G
  | [], _, _ => .ub
  | f :: fs, s0, s =>
    if leq eps s0 f.len then
      if leq eps s f.len then f.transform (f.first + s0) (f.first + s)
      else do
        let t ← f.transform (f.first + s0) f.second
        let t' ← walk eps fs (s - f.len) t
        pure (if inv then t'⁻¹ else t')
    else start eps inv fs (s0 - f.len) (s - f.len)

/-- The shift to a position counted from the entrance (SequenceFrame.cpp 252-261). -/
def shift (o : Origin) (len : K) : K :=
  match o with
  | .entrance => 0
  | .center => len / 2
  | .exit => len

/-- `SequenceGeometry::GetGeometryTransform(s0, s)` after the shift (SequenceFrame.cpp 263-328). -/
def Seq.transformFrom (eps : K) (q : Seq K G) (a b : K) : Outcome Exn G :=
  if b < 0 ∨ q.lenT < b ∨ a < 0 ∨ q.lenT < a then .throw .beyondExtent
  else if Transform.fequal eps a 0 && Transform.fequal eps b q.lenT then .ok q.total
  else if b < a then start eps true q.frames b a
  else start eps false q.frames a b

/-- `SequenceGeometry::GetGeometryTransform(s0, s)` (SequenceFrame.cpp 245-329). -/
def Seq.transform (eps : K) (q : Seq K G) (s0 s : K) : Outcome Exn G :=
  if Transform.fequal eps s s0 then .ok 1
  else q.transformFrom eps (s0 + shift q.omode q.lenT) (s + shift q.omode q.lenT)

/-- A `SequenceFrame` seen as a sub-frame of another one. -/
def Seq.toGeo (eps : K) (q : Seq K G) : Geo K G :=
  ⟨q.lenT, q.extent.1, q.extent.2, q.transform eps, q.total⟩

/-- `SequenceGeometry::GetGeometryTransform(BoundaryPlane)` (SequenceFrame.cpp 331-334); the cache
pointer is dereferenced without a test. -/
def Seq.plane (q : Seq K G) (exit : Bool) : Outcome Exn G :=
  match q.cache with
  | none => .ub
  | some (tin, tout) => .ok (if exit then tout else tin)

/-- Loop of `CalculateCentreCT` up to the `break` (SequenceFrame.cpp 412-437): returns `t_in`, the
transform accumulated after the centre, and the frames not yet visited. -/
def centreLoop (eps s0 : K) : List (Geo K G) → K → G → Outcome Exn (G × G × List (Geo K G))
  | [], _, _ => .ub
  | f :: fs, s, t =>
    let s' := s + f.len
    let t' := if leq eps s' s0 then f.total * t else t
    if Transform.fequal eps s' s0 then .ok (t'⁻¹, 1, fs)
    else if s0 < s' then do
      let s1 := f.first + s' - s0
      let a ← f.transform f.first s1
      let b ← f.transform s1 f.second
      pure ((a * t')⁻¹, b, fs)
    else centreLoop eps s0 fs s' t'

/-- `SequenceGeometry::CalculateCentreCT` (SequenceFrame.cpp 404-446). -/
def Seq.centreCT (eps : K) (q : Seq K G) : Outcome Exn (Seq K G) := do
  let (tin, t, rest) ← centreLoop eps (q.lenT / 2) q.frames 0 1
  pure { q with cache := some (tin, rest.foldl (fun t f => f.total * t) t) }

/-- `SequenceGeometry::CalculateCachedTransforms` (SequenceFrame.cpp 379-402).  The cache is
allocated (holding identities) before the total transform is asked for. -/
def Seq.calculateCached (eps : K) (q : Seq K G) : Outcome Exn (Seq K G) :=
  let c := match q.cache with
    | none => ((1 : G), (1 : G))
    | some c => c
  let q' := { q with cache := some c }
  match q.omode with
  | .entrance => .ok { q with cache := some (c.1, q'.total) }
  | .center => q'.centreCT eps
  | .exit => .ok { q with cache := some (q'.total⁻¹, c.2) }

/-- Loop of `SequenceFrame::ConsolidateConstruction` (SequenceFrame.cpp 153-164): the local
position of every sub-frame. -/
def positions : K → List (Geo K G) → List K
  | _, [] => []
  | s, f :: fs => (s - f.first) :: positions (s - f.first + f.second) fs

/-- Start of the loop (SequenceFrame.cpp 139-151). -/
def Seq.startPosition (q : Seq K G) : K :=
  match q.omode with
  | .entrance => 0
  | .center => -q.lenT / 2
  | .exit => -q.lenT

/-- `SequenceFrame::ConsolidateConstruction` (SequenceFrame.cpp 133-167): local positions of the
sub-frames and the geometry with its cached transforms. -/
def Seq.consolidate (eps : K) (q : Seq K G) : Outcome Exn (List K × Seq K G) := do
  let q' ← q.calculateCached eps
  pure (positions q.startPosition q.frames, q')

/-! ## Leaf geometries -/

section leaf
open Transform Rotation

/-- `CenteredGeometry::CheckBounds` (CenteredGeometry.h 72-79). -/
def inBounds (len s1 s2 : K) : Bool := !(decide (len / 2 < |s1|) || decide (len / 2 < |s2|))

/-- `MakeTransform` (ArcGeometry.cpp 13-16). -/
def makeArc (cos sin : K → K) (phi h : K) : T3 K :=
  ⟨⟨(cos phi - 1) / h, 0, sin phi / h⟩, Rotation.rotationY cos sin (-phi)⟩

/-- `ArcGeometry::GetGeometryTransform(s0, s)` (ArcGeometry.cpp 20-24).  A vanishing curvature
divides by zero, which is kept apart from the results as undefined. -/
def arcTransform (cos sin : K → K) (len h s0 s : K) : Outcome Exn (T3 K) :=
  if inBounds len s s0 then
    if h = 0 then .ub else .ok (makeArc cos sin ((s - s0) * h) h)
  else .throw .beyondExtent

/-- `ArcGeometry::GetGeometryTransform(BoundaryPlane)` (ArcGeometry.cpp 26-30), `GetAngle` being
`len*h` (ArcGeometry.h). -/
def arcPlane (cos sin : K → K) (len h : K) (exit : Bool) : Outcome Exn (T3 K) :=
  if h = 0 then .ub
  else .ok (makeArc cos sin (if exit then len * h / 2 else -(len * h) / 2) h)

/-- `ArcGeometry::GetTotalGeometryTransform` (ArcGeometry.cpp 32-35). -/
def arcTotal (cos sin : K → K) (len h : K) : Outcome Exn (T3 K) :=
  if h = 0 then .ub else .ok (makeArc cos sin (len * h) h)

/-- `RectangularGeometry::GetGeometryTransform(s0, s)` (RectangularGeometry.cpp 10-14). -/
def rectTransform (len s0 s : K) : Outcome Exn (T3 K) :=
  if inBounds len s s0 then .ok (T3.translation 0 0 (s - s0)) else .throw .beyondExtent

/-- `RectangularGeometry::GetGeometryTransform(BoundaryPlane)` (RectangularGeometry.cpp 16-20). -/
def rectPlane (len : K) (exit : Bool) : T3 K :=
  T3.translation 0 0 (if exit then len / 2 else -len / 2)

/-- `RectangularGeometry::GetTotalGeometryTransform` (RectangularGeometry.cpp 22-25). -/
def rectTotal (len : K) : T3 K := T3.translation 0 0 len

end leaf

/-- `GeometryPatch` (GeometryPatch.h 26-66) with transformation `t`: zero extent, and the patch
transformation between `0` and `0`. -/
def patch (t : G) : Geo K G where
  len := 0
  first := 0
  second := 0
  transform := fun a b => if a ≠ 0 ∨ b ≠ 0 then .throw .beyondExtent else .ok t
  total := t

end Verif.Frame
