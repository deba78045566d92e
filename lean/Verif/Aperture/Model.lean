import Mathlib.Algebra.Order.Field.Basic
import Verif.Common.Outcome

/-!
# Model of apertures

Sources: `Merlin++/Aperture.h/.cpp`, `InterpolatedApertures.h/.cpp`, `CollimatorAperture.h/.cpp`.

Simplifications: doubles are exact numbers of an ordered field, where a quotient by zero is zero (in C++ an
infinity or not a number); no theorem uses such a quotient.  `tan`, `cos`, `sin` and `pi` are parameters.
Ending the process (`abort`, `exit`) is an exception here.  Names and places of the apertures are left
out, and so are the collimator apertures with errors, which have no usable constructor.
-/

namespace Verif.Aperture
open Verif

section
variable {K : Type} [Field K] [LinearOrder K]

/-- The plain apertures with the members their constructors compute (Aperture.cpp 54-64, 96-109, 137-146,
188-203, 236-246). -/
inductive Ap (K : Type) where
  | circle (radius radius_sq : K)
  | rect (hx hy minDim : K)
  | ellipse (ax_sq ratio minDim : K)
  | rectEllipse (hx hy ax_sq ratio minDim : K)
  | octagon (hx hy minDim const1 const2 const3 : K)
  deriving DecidableEq, Repr

/-- `CircularAperture` (Aperture.cpp 54-64). -/
def mkCircle (r : K) : Ap K := .circle r (r * r)

/-- `RectangularAperture` (Aperture.cpp 96-109). -/
def mkRect (hx hy : K) : Ap K := .rect hx hy (min hx hy)

/-- `EllipticalAperture` (Aperture.cpp 137-146). -/
def mkEllipse (a b : K) : Ap K := .ellipse (a * a) (a * a / (b * b)) (min a b)

/-- `RectEllipseAperture` (Aperture.cpp 188-203). -/
def mkRectEllipse (hx hy a b : K) : Ap K :=
  .rectEllipse hx hy (a * a) (a * a / (b * b)) (min (min hx hy) (min a b))

/-- `OctagonalAperture` (Aperture.cpp 236-246). -/
def mkOctagon (tan : K → K) (pi hx hy angle1 angle2 : K) : Ap K :=
  .octagon hx hy (min hx hy) (hy * tan (pi / 2 - angle2) - hx) (hx * tan angle1) (hy - hx * tan angle1)

/-- `CheckWithinApertureBoundaries` of the plain apertures (Aperture.cpp 82-92, 124-134, 165-175, 217-229,
261-273). -/
def check (ap : Ap K) (x y : K) : Bool :=
  let ax := |x|
  let ay := |y|
  match ap with
  | .circle r r2 =>
    if ax + ay < r then true else if x * x + y * y ≥ r2 then false else true
  | .rect hx hy m =>
    if ax + ay < m then true else if ax ≥ hx ∨ ay ≥ hy then false else true
  | .ellipse a2 q m =>
    if ax + ay < m then true else if x * x + y * y * q ≥ a2 then false else true
  | .rectEllipse hx hy a2 q m =>
    if ax + ay < m then true
    else if x * x + y * y * q ≥ a2 then false
    else if ax ≥ hx ∨ ay ≥ hy then false else true
  | .octagon hx hy m c1 c2 c3 =>
    if ax + ay < m then true
    else if ax ≥ hx ∨ ay ≥ hy then false
    else if c1 * (ay - c2) - c3 * (ax - hx) ≤ 0 then false else true

/-- A row of an aperture table, `apStruct` (InterpolatedApertures.h 57-66). -/
structure Row (K : Type) where
  s : K
  ap1 : K
  ap2 : K
  ap3 : K
  ap4 : K
  deriving DecidableEq, Repr

/-- `ApertureFactory::GetInstance` (Aperture.cpp 280-298) with the factories of the types (73-80, 119-122,
157-163, 210-215, 253-259): nothing for a type that is not registered. -/
def factory (tan : K → K) (pi : K) (type : String) (r : Row K) : Option (Ap K) :=
  if type = "CIRCLE" then some (if r.ap3 = 0 then mkCircle r.ap1 else mkCircle r.ap3)
  else if type = "RECTANGLE" then some (mkRect r.ap1 r.ap2)
  else if type = "ELLIPSE" then
    some (if r.ap3 = 0 ∧ r.ap4 = 0 then mkEllipse r.ap1 r.ap2 else mkEllipse r.ap3 r.ap4)
  else if type = "RECTELLIPSE" then some (mkRectEllipse r.ap1 r.ap2 r.ap3 r.ap4)
  else if type = "OCTAGON" then some (mkOctagon tan pi r.ap1 r.ap2 r.ap3 r.ap4)
  else none

/-! ## Interpolated apertures

If the two rows found are at the same place, the dimensions are not numbers (the slope is a division by zero
and gradient and offset then cancel to NaN); comparisons with these are false.
-/

/-- The search for the rows around `z` (InterpolatedApertures.cpp 94-102 and the same loops in 210-247,
321-358, 434-442): the rows before and behind. -/
def select : List (Row K) → K → Option (Row K × Row K)
  | a :: b :: l, z => if b.s ≥ z then some (a, b) else select (b :: l) z
  | _, _ => none

/-- The straight line through two values, evaluated at `z` (InterpolatedApertures.cpp 116-131). -/
def lerp (back front sb sf z : K) : K :=
  let g := (front - back) / (sf - sb)
  let c := front - g * sf
  g * z + c

/-- Kinds of interpolated apertures (InterpolatedApertures.cpp 507-514). -/
inductive Kind where
  | circle
  | rect
  | ellipse
  | rectEllipse
  | octagon
  deriving DecidableEq, Repr

/-- `InterpolatedRectEllipseAperture::CheckWithinApertureBoundaries` (InterpolatedApertures.cpp 82-146); the
rows are not initialised if the search fails. -/
def checkRectEllipse (l : List (Row K)) (x y z : K) : Outcome Unit Bool :=
  let z := if z < 0 then 0 else z
  match select l z with
  | none => .ub
  | some (b, f) =>
    let minDim := min (min (min f.ap1 f.ap2) (min f.ap3 f.ap4)) (min (min f.ap1 b.ap2) (min b.ap3 b.ap4))
    if |x| + |y| < minDim then .ok true
    else if f.s = b.s then .ok true
    else
      let w := lerp b.ap1 f.ap1 b.s f.s z
      let h := lerp b.ap2 f.ap2 b.s f.s z
      let eh := lerp b.ap3 f.ap3 b.s f.s z
      let ev := lerp b.ap4 f.ap4 b.s f.s z
      if x * x / (eh * eh) + y * y / (ev * ev) > 1 then .ok false
      else if |x| > w ∨ |y| > h then .ok false
      else .ok true

/-- `InterpolatedCircularAperture::CheckWithinApertureBoundaries` (InterpolatedApertures.cpp 186-274); with
fewer than two rows all members stay zero and the radius is not a number, which is not above anything. -/
def checkCircle (l : List (Row K)) (x y z : K) : Outcome Unit Bool :=
  let z := if z < 0 then 0 else z
  if l.length < 2 then .ok false
  else match select l z with
    | none => .throw ()
    | some (b, f) =>
      if |x| + |y| < min f.ap1 b.ap1 then .ok true
      else if f.ap1 = 0 ∨ b.ap1 = 0 then .throw ()
      else if f.s = b.s then .ok false
      else
        let r := lerp b.ap1 f.ap1 b.s f.s z
        .ok (decide (x * x + y * y < r * r))

/-- `InterpolatedEllipticalAperture::CheckWithinApertureBoundaries` (InterpolatedApertures.cpp 297-390): the
second dimensions are never copied and stay zero, and `c2` is computed from `ap1` (376).  With fewer than two
rows the axes are not numbers, which are not above 1. -/
def checkEllipse (l : List (Row K)) (x y z : K) : Outcome Unit Bool :=
  let z := if z < 0 then 0 else z
  if l.length < 2 then .ok true
  else match select l z with
    | none => .throw ()
    | some (b, f) =>
      if |x| + |y| < min f.ap1 b.ap1 then .ok true
      else if f.ap1 = 0 ∨ b.ap1 = 0 then .throw ()
      else if f.s = b.s then .ok true
      else
        let eh := lerp b.ap1 f.ap1 b.s f.s z
        let g2 := (0 - 0 : K) / (f.s - b.s)
        let c2 := f.ap1 - g2 * f.s
        let ev := g2 * z + c2
        if x * x / (eh * eh) + y * y / (ev * ev) > 1 then .ok false else .ok true

/-- `InterpolatedOctagonalAperture::CheckWithinApertureBoundaries` (InterpolatedApertures.cpp 413-495): if the
search fails all members stay zero and the dimensions are not numbers, which rejects nothing. -/
def checkOctagon (tan : K → K) (pi : K) (l : List (Row K)) (x y z : K) : Outcome Unit Bool :=
  let z := if z < 0 then 0 else z
  match select l z with
  | none => .ok true
  | some (b, f) =>
    if f.s = b.s then .ok true else
    let hw := lerp b.ap1 f.ap1 b.s f.s z
    let hh := lerp b.ap2 f.ap2 b.s f.s z
    let angle1 := lerp b.ap3 f.ap3 b.s f.s z
    let angle2 := lerp b.ap4 f.ap4 b.s f.s z
    let cc1 := hh * tan (pi / 2 - angle2) - hw
    let cc2 := hw * tan angle1
    let cc3 := hh - cc2
    if |x| ≥ hw ∨ |y| ≥ hh then .ok false
    else if cc1 * (|y| - cc2) - cc3 * (|x| - hw) ≤ 0 then .ok false
    else .ok true

/-- The checks of all interpolated apertures; the base class ends the process (InterpolatedApertures.cpp
38-44) and is what is used for rectangles (511). -/
def icheck (tan : K → K) (pi : K) (k : Kind) (l : List (Row K)) (x y z : K) : Outcome Unit Bool :=
  match k with
  | .circle => checkCircle l x y z
  | .rect => .throw ()
  | .ellipse => checkEllipse l x y z
  | .rectEllipse => checkRectEllipse l x y z
  | .octagon => checkOctagon tan pi l x y z

/-! ## Collimator jaws -/

/-- `CollimatorAperture` (CollimatorAperture.h 144-153) with the members of `RectEllipseAperture` it uses. -/
structure Jaws (K : Type) where
  rectHalfX : K
  rectHalfY : K
  minDim : K
  len : K
  xEntry : K
  yEntry : K
  xExit : K
  yExit : K
  wEntrance : K
  hEntrance : K
  wExit : K
  hExit : K
  c : K
  s : K
  deriving DecidableEq, Repr

/-- The constructor (CollimatorAperture.cpp 11-20). -/
def mkJaws (cos sin : K → K) (w h t len xo yo : K) : Jaws K :=
  ⟨w / 2, h / 2, min (w / 2) (h / 2), len, xo, yo, 0, 0, w, h, 0, 0, cos (-t), sin (-t)⟩

/-- The setters (CollimatorAperture.cpp 43-71). -/
inductive Setting (K : Type) where
  | entranceWidth (v : K)
  | entranceHeight (v : K)
  | exitWidth (v : K)
  | exitHeight (v : K)
  | exitX (v : K)
  | exitY (v : K)

/-- The setters (CollimatorAperture.cpp 43-71). -/
def setJaws (j : Jaws K) : Setting K → Jaws K
  | .entranceWidth v => { j with wEntrance := v }
  | .entranceHeight v => { j with hEntrance := v }
  | .exitWidth v => { j with wExit := v }
  | .exitHeight v => { j with hExit := v }
  | .exitX v => { j with xExit := v }
  | .exitY v => { j with yExit := v }

/-- `GetFullEntranceWidth` (CollimatorAperture.cpp 73-76). -/
def fullEntranceWidth (j : Jaws K) : K := j.rectHalfX * 2

/-- `GetFullEntranceHeight` (CollimatorAperture.cpp 78-81). -/
def fullEntranceHeight (j : Jaws K) : K := j.rectHalfY * 2

/-- `CollimatorAperture::CheckWithinApertureBoundaries` (CollimatorAperture.cpp 22-41). -/
def checkJaws (j : Jaws K) (x y z : K) : Bool :=
  let rest :=
    let x_off := z * (j.xEntry - j.xExit) / j.len - j.xEntry
    let y_off := z * (j.yEntry - j.yExit) / j.len - j.yEntry
    let x_jaw := z * (j.wExit - fullEntranceWidth j) / j.len + fullEntranceWidth j
    let y_jaw := z * (j.hExit - fullEntranceHeight j) / j.len + fullEntranceHeight j
    let x1 := (x + x_off) * j.c - (y + y_off) * j.s
    let y1 := (x + x_off) * j.s + (y + y_off) * j.c
    decide (|x1| * 2 < x_jaw ∧ |y1| * 2 < y_jaw)
  if j.xEntry = 0 ∧ j.yEntry = 0 ∧ j.xExit = 0 ∧ j.yExit = 0 then
    if |x| + |y| < j.minDim then true else rest
  else rest

/-- `UnalignedCollimatorAperture::CheckWithinApertureBoundaries` (CollimatorAperture.cpp 138-144). -/
def checkUnaligned (j : Jaws K) (x y _z : K) : Bool :=
  let x1 := (x - j.xEntry) * j.c - (y - j.yEntry) * j.s
  let y1 := (x - j.xEntry) * j.s + (y - j.yEntry) * j.c
  decide (|x1| * 2 < fullEntranceWidth j ∧ |y1| * 2 < fullEntranceHeight j)

/-- `OneSidedUnalignedCollimatorAperture::CheckWithinApertureBoundaries` (CollimatorAperture.cpp 173-186). -/
def checkOneSided (side : Bool) (j : Jaws K) (x y _z : K) : Bool :=
  let x1 := (x - j.xEntry) * j.c - (y - j.yEntry) * j.s
  let y1 := (x - j.xEntry) * j.s + (y - j.yEntry) * j.c
  if side then decide (x1 * 2 < fullEntranceWidth j ∧ |y1| * 2 < fullEntranceHeight j)
  else decide (-(x1 * 2) < fullEntranceWidth j ∧ |y1| * 2 < fullEntranceHeight j)

end

end Verif.Aperture
