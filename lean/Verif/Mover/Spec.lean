import Verif.Mover.Model

/-! # What is claimed about movers -/

namespace Verif.Mover.Spec

open Verif.Rotation Verif.Transform

/-- The last value given to something that is zero at first. -/
def last (f : Op → Option ℝ) (l : List Op) : ℝ := (l.reverse.findSome? f).getD 0

/-- Which operations give a value to the horizontal displacement, the vertical one, the roll. -/
def toX : Op → Option ℝ
  | .x v => some v
  | .reset => some 0
  | _ => none
def toY : Op → Option ℝ
  | .y v => some v
  | .reset => some 0
  | _ => none
def toRoll : Op → Option ℝ
  | .roll v => some v
  | .reset => some 0
  | _ => none

/-- The transformations applied to the frame, one after the other. -/
noncomputable def through (p : V3 ℝ) : List Op → V3 ℝ
  | [] => p
  | .apply b :: l => through (b.point p) l
  | _ :: l => through p l

/-- Coordinates of a point in axes that are displaced by (x, y) and then rolled by phi about the third axis. -/
noncomputable def seen (x y phi : ℝ) (q : V3 ℝ) : V3 ℝ :=
  ⟨Real.cos phi * (q.x - x) + Real.sin phi * (q.y - y), -Real.sin phi * (q.x - x) + Real.cos phi * (q.y - y), q.z⟩

end Verif.Mover.Spec
