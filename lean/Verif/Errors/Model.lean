import Mathlib.Algebra.Order.Field.Basic
import Mathlib.Algebra.Order.Group.Abs
import Mathlib.Algebra.Group.Basic
import Mathlib.Order.Fin.Basic
import Verif.StringPattern.Model

/-!
# Model of `AcceleratorErrors`

Source: `Merlin++/AcceleratorErrors.cpp`, `AcceleratorErrors.h`, `Transformable.cpp`, `RandomNG.cpp`.

Doubles are elements of an ordered field.  The generator is a stream `g` of standard normal numbers and the number `k` of
those already used; `std::normal_distribution(mean, sigma)` yields `mean + sigma * g k`.  `Transform3D` is an element of
a group with `a *= t` for `t * a` (C19).
-/

namespace Verif.Errors
open Verif.StringPattern

variable {K G : Type} [Field K] [LinearOrder K] [Group G]

/-- The part of a `LatticeFrame` used here: type and name (ModelElement.h 106-109) and the local transformation
(Transformable.h). -/
structure Frame (G : Type) where
  type : Str
  name : Str
  localT : Option G
  deriving DecidableEq

/-- `ModelElement::GetQualifiedName` (ModelElement.h 106-109). -/
def Frame.qualified (f : Frame G) : Str := f.type ++ '.' :: f.name

/-- `Transform3D::translation`, `rotationX`, `rotationY`, `rotationZ` (Transform3D.cpp 33-51). -/
structure Moves (K G : Type) where
  tr : K → K → K → G
  rot : Fin 3 → K → G

/-- Members of `AcceleratorErrors` (AcceleratorErrors.h 103-107), the components x, y, z under an index. -/
structure Settings (K : Type) where
  v : Fin 3 → K
  m : Fin 3 → K
  clear : Bool

/-- Constructor (AcceleratorErrors.h 27-30). -/
def Settings.new : Settings K := ⟨fun _ => 0, fun _ => 0, false⟩

/-- `SetErrors` (AcceleratorErrors.h 43-53). -/
def setErrors (rms mean : Fin 3 → K) : Settings K := ⟨fun a => rms a * rms a, mean, true⟩

/-- `AddErrors` (AcceleratorErrors.h 67-77). -/
def addErrors (rms mean : Fin 3 → K) : Settings K := ⟨fun a => rms a * rms a, mean, false⟩

/-- `fequal` (utils.h 16-19). -/
def fequal (eps x y : K) : Bool := decide (|x - y| ≤ eps)

/-- `RandomNG::normal(mean, variance)` (RandomNG.cpp 63-71). -/
def normal (sqrt : K → K) (g : Nat → K) (mean variance : K) (k : Nat) : K × Nat :=
  if variance = 0 then (mean, k) else (mean + sqrt variance * g k, k + 1)

/-- One of the three errors of an element (AcceleratorErrors.cpp 41-43). -/
def draw (eps : K) (sqrt : K → K) (g : Nat → K) (mean variance : K) (k : Nat) : K × Nat :=
  if fequal eps variance 0 then (mean, k) else normal sqrt g mean variance k

/-- Macro `_TRNSFM` (Transformable.cpp 12-15). -/
def Frame.transform (t : G) (f : Frame G) : Frame G :=
  match f.localT with
  | some a => { f with localT := some (t * a) }
  | none => { f with localT := some t }

/-- `ClearLocalFrameTransform` (LatticeFrame.cpp 144-147, Transformable.cpp 50-58). -/
def Frame.clear (f : Frame G) : Frame G := { f with localT := none }

/-- One of the rotations, left out for a negligible angle (AcceleratorErrors.cpp 55-66). -/
def Frame.rotate (eps : K) (r : K → G) (e : K) (f : Frame G) : Frame G :=
  if fequal eps e 0 then f else f.transform (r e)

/-- A line of the log: qualified name, translation or rotation, the three numbers. -/
structure Line (K : Type) where
  name : Str
  trans : Bool
  e : K × K × K

/-- Selection of an element, `pat("*." + p)` (AcceleratorErrors.cpp 28 and 34). -/
def selects (p : Str) (f : Frame G) : Bool := (construct ('*' :: '.' :: p)).matches f.qualified

/-- `Errors::operator()` (AcceleratorErrors.cpp 32-74) on a selected element. -/
def treat (eps : K) (sqrt : K → K) (mv : Moves K G) (g : Nat → K) (s : Settings K) (trans : Bool) (f : Frame G)
    (k : Nat) : Frame G × Nat × Line K :=
  let f0 := if s.clear then f.clear else f
  let ex := draw eps sqrt g (s.m 0) (s.v 0) k
  let ey := draw eps sqrt g (s.m 1) (s.v 1) ex.2
  let ez := draw eps sqrt g (s.m 2) (s.v 2) ey.2
  let f1 :=
    if trans then f0.transform (mv.tr ex.1 ey.1 ez.1)
    else ((f0.rotate eps (mv.rot 0) ex.1).rotate eps (mv.rot 1) ey.1).rotate eps (mv.rot 2) ez.1
  (f1, ez.2, ⟨f.qualified, trans, ex.1, ey.1, ez.1⟩)

/-- `for_each` over the beamline (AcceleratorErrors.cpp 85-93); a null pointer is `none`.  The results are the frames,
the number of random numbers used and the log. -/
def applyErrors (eps : K) (sqrt : K → K) (mv : Moves K G) (g : Nat → K) (s : Settings K) (trans : Bool) (p : Str) :
    List (Option (Frame G)) → Nat → List (Option (Frame G)) × Nat × List (Line K)
  | [], k => ([], k, [])
  | none :: l, k =>
    let r := applyErrors eps sqrt mv g s trans p l k
    (none :: r.1, r.2.1, r.2.2)
  | some f :: l, k =>
    if selects p f then
      let t := treat eps sqrt mv g s trans f k
      let r := applyErrors eps sqrt mv g s trans p l t.2.1
      (some t.1 :: r.1, r.2.1, t.2.2 :: r.2.2)
    else
      let r := applyErrors eps sqrt mv g s trans p l k
      (some f :: r.1, r.2.1, r.2.2)

/-- `ApplyShifts` (AcceleratorErrors.cpp 85-88). -/
def applyShifts (eps : K) (sqrt : K → K) (mv : Moves K G) (g : Nat → K) (s : Settings K) (p : Str)
    (l : List (Option (Frame G))) : List (Option (Frame G)) × Nat × List (Line K) :=
  applyErrors eps sqrt mv g s true p l 0

/-- `ApplyRotations` (AcceleratorErrors.cpp 90-93). -/
def applyRotations (eps : K) (sqrt : K → K) (mv : Moves K G) (g : Nat → K) (s : Settings K) (p : Str)
    (l : List (Option (Frame G))) : List (Option (Frame G)) × Nat × List (Line K) :=
  applyErrors eps sqrt mv g s false p l 0

end Verif.Errors
