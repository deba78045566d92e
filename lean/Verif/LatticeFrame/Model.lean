import Verif.Frame.Model

/-!
# Model of the frame hierarchy above a `LatticeFrame`

Source: `Merlin++/LatticeFrame.cpp`, `Merlin++/LatticeFrame.h`, `Merlin++/SequenceFrame.cpp`.

A frame is given with its super-frames, innermost first: the last one is the global frame.  The
pointer `GLOBAL_FRAME` (null) is `none`.  `Transform3D` is an element of a group (C19).
-/

namespace Verif.LatticeFrame
open Verif Verif.Frame

/-- One `LatticeFrame` (LatticeFrame.h 314-337): local position `s_0`, the local transformation of
`Transformable`, and the answers of its geometry (`GetGeometryTransform(s0, s)` and
`GetGeometryTransform(BoundaryPlane)`).  `atBoundary p` is the answer of the super-frame to
`IsBoundaryPlane(p, this)` (SequenceFrame.cpp 218-230); `true` stands for the exit plane. -/
structure Link (K G : Type) where
  id : Nat
  s0 : K
  localT : Option G
  geo : K → K → Outcome Exn G
  plane : Bool → Outcome Exn G
  atBoundary : Bool → Bool

variable {K G : Type} [Add K] [Zero K] [Group G]

/-- `GetLocalFrameTransform` (LatticeFrame.h): the identity when no transformation was applied. -/
def Link.local (x : Link K G) : G :=
  match x.localT with
  | none => 1
  | some t => t

/-- `superFrame` as a pointer. -/
def superId (rest : List (Link K G)) : Option Nat := rest.head?.map (·.id)

/-- `LatticeFrame::GetPosition` (LatticeFrame.cpp 64-68); a null super-frame is dereferenced when
`sframe` is not met. -/
def getPosition (sframe : Option Nat) : List (Link K G) → Outcome Exn K
  | [] => .ub
  | x :: rest =>
    if sframe = superId rest then .ok x.s0
    else do
      let p ← getPosition sframe rest
      pure (x.s0 + p)

/-- `LatticeFrame::GetPhysicalTransform` (LatticeFrame.cpp 42-62).  The assertion `VALID_SFRAME`
fails at the global frame when `sframe` has not been met. -/
def physical (sframe : Option Nat) : List (Link K G) → Outcome Exn G
  | [] => .ub
  | [x] => if sframe = some x.id then .ok 1 else if sframe = none then .ok x.local else .ub
  | x :: y :: rest =>
    if sframe = some x.id then .ok 1
    else do
      let t1 ← y.geo 0 x.s0
      let t2 ← physical sframe (y :: rest)
      pure (x.local * t1 * t2)

/-- `LatticeFrame::GetGlobalFrame` (LatticeFrame.cpp 149-152). -/
def globalFrame : List (Link K G) → Option (Link K G)
  | [] => none
  | [x] => some x
  | _ :: y :: rest => globalFrame (y :: rest)

/-- `LatticeFrame::GetFrameTransform(sframe)` for `sframe` not null (LatticeFrame.cpp 23-39). -/
def frameTransformTo (f : Link K G) (chain : List (Link K G)) : Outcome Exn G :=
  match chain with
  | [] => .ub
  | x :: rest =>
    if f.id = x.id then .ok 1
    else if superId rest = some f.id then .ok x.local
    else do
      let t1 ← physical (some f.id) chain
      let s ← getPosition (some f.id) chain
      let t2 ← f.geo 0 s
      pure (t1 * t2⁻¹)

/-- `LatticeFrame::GetFrameTransform` (LatticeFrame.cpp 15-40); `none` is `GLOBAL_FRAME`. -/
def frameTransform (sframe : Option (Link K G)) (chain : List (Link K G)) : Outcome Exn G :=
  match sframe with
  | some f => frameTransformTo f chain
  | none =>
    match globalFrame chain with
    | none => .ub
    | some g => frameTransformTo g chain

/-- `LatticeFrame::LocalBoundaryPlaneTransform` (LatticeFrame.cpp 154-163); `isId` is
`Transform3D::isIdentity`. -/
def localBoundary (isId : G → Bool) (p : Bool) (x : Link K G) : Outcome Exn G :=
  if isId x.local then .ok x.local
  else do
    let t ← x.plane p
    pure (t * x.local * t⁻¹)

/-- `LatticeFrame::GetBoundaryPlaneTransform` (LatticeFrame.cpp 79-93). -/
def boundary (isId : G → Bool) (p : Bool) : List (Link K G) → Outcome Exn G
  | [] => .ub
  | [_] => .ok 1
  | x :: y :: rest => do
    let t0 ← localBoundary isId p x
    if x.atBoundary p then do
      let t1 ← boundary isId p (y :: rest)
      pure (t0 * t1)
    else pure t0

/-- `LatticeFrame::GetEntrancePlaneTransform` (LatticeFrame.h 442-445). -/
def entrancePlane (isId : G → Bool) (chain : List (Link K G)) : Outcome Exn G :=
  boundary isId false chain

/-- `LatticeFrame::GetExitPlaneTransform` (LatticeFrame.h 447-450). -/
def exitPlane (isId : G → Bool) (chain : List (Link K G)) : Outcome Exn G := do
  let t ← boundary isId true chain
  pure t⁻¹

/-- `ApplyLocalFrameTransform` (LatticeFrame.cpp 116-128); `a *= t` is `t * a` (C19). -/
def Link.apply (x : Link K G) (t : G) : Link K G :=
  match x.localT with
  | none => { x with localT := some t }
  | some a => { x with localT := some (t * a) }

end Verif.LatticeFrame
