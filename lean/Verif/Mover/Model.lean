import Mathlib.Analysis.SpecialFunctions.Complex.Arg
import Verif.Transform.Model

/-!
# Model of `MagnetMover`

Source: `Merlin++/MagnetMover.h`, `MagnetMover.cpp`, `Transform2D.h`, `LatticeFrame.h`, `LatticeFrame.cpp`, `Transformable.h`, `Transformable.cpp`.  Doubles are real numbers; `cos`, `sin`
and `atan2` are exact.  The transformations are those of `Verif.Transform`.
-/

namespace Verif.Mover

open Verif.Transform Verif.Rotation

/-- A mover: `t` (MagnetMover.h 99-101) and the transformation of its frame `local_T` (Transformable.h 102), which may be null. -/
structure Mag where
  t : T2 ℝ
  base : Option (T3 ℝ)

/-- The constructor (MagnetMover.h 104-107; Transform2D.h 182-185; Transformable.h 122-125). -/
noncomputable def Mag.new : Mag := ⟨T2.make Real.cos Real.sin 0 0 0, none⟩

/-- `GetX`, `GetY` (MagnetMover.h 109-117). -/
def Mag.getX (m : Mag) : ℝ := m.t.x0.x
def Mag.getY (m : Mag) : ℝ := m.t.x0.y

/-- `GetRoll` (MagnetMover.h 119-122; Transform2D.h 40-43 and 254-257): `atan2(sina, cosa)` is the argument of `cosa + i sina`. -/
noncomputable def Mag.getRoll (m : Mag) : ℝ := Complex.arg ⟨m.t.r.c, m.t.r.s⟩

/-- `SetX` (MagnetMover.h 124-127; Transform2D.h 299-302). -/
def Mag.setX (m : Mag) (x : ℝ) : Mag := ⟨⟨m.t.r, ⟨x, m.t.x0.y⟩⟩, m.base⟩

/-- `SetY` (MagnetMover.h 129-132; Transform2D.h 304-307). -/
def Mag.setY (m : Mag) (y : ℝ) : Mag := ⟨⟨m.t.r, ⟨m.t.x0.x, y⟩⟩, m.base⟩

/-- `SetRoll` (MagnetMover.h 134-137; Transform2D.h 48-52 and 309-312). -/
noncomputable def Mag.setRoll (m : Mag) (phi : ℝ) : Mag := ⟨⟨⟨Real.cos phi, Real.sin phi⟩, m.t.x0⟩, m.base⟩

/-- `Reset` (MagnetMover.h 139-142). -/
noncomputable def Mag.reset (m : Mag) : Mag := ⟨T2.make Real.cos Real.sin 0 0 0, m.base⟩

/-- `LatticeFrame::GetLocalFrameTransform` (LatticeFrame.h 370-373). -/
noncomputable def Mag.frame (m : Mag) : T3 ℝ :=
  match m.base with
  | some b => b
  | none => T3.ident

/-- `GetLocalFrameTransform` (MagnetMover.cpp 22-25). -/
noncomputable def Mag.transform (m : Mag) : T3 ℝ := (T3.ofT2 m.t).mul m.frame

/-- `SetLocalFrameTransform` (LatticeFrame.cpp 130-142). -/
def Mag.setFrame (m : Mag) (b : T3 ℝ) : Mag := ⟨m.t, some b⟩

/-- `ApplyLocalFrameTransform` (LatticeFrame.cpp 116-128), and with the factories of `Transform3D` the functions `Translate`, `RotateX`, ... (Transformable.cpp 12-43). -/
noncomputable def Mag.apply (m : Mag) (b : T3 ℝ) : Mag :=
  match m.base with
  | none => ⟨m.t, some b⟩
  | some a => ⟨m.t, some (a.mulEq b)⟩

/-- `IsTransformed` (Transformable.h 133-136), not virtual. -/
noncomputable def Mag.isTransformed (eps : ℝ) (m : Mag) : Bool :=
  match m.base with
  | none => false
  | some b => !b.isIdentity eps

/-- What a user does with a mover. -/
inductive Op where
  | x (v : ℝ)
  | y (v : ℝ)
  | roll (phi : ℝ)
  | reset
  | apply (b : T3 ℝ)

noncomputable def Mag.step (m : Mag) : Op → Mag
  | .x v => m.setX v
  | .y v => m.setY v
  | .roll phi => m.setRoll phi
  | .reset => m.reset
  | .apply b => m.apply b

noncomputable def Mag.run (m : Mag) (l : List Op) : Mag := l.foldl Mag.step m

end Verif.Mover
