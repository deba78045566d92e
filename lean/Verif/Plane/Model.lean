import Verif.TFS.Model

/-!
# Transformations of the plane in streams (Merlin++/Transform2D.h)

The stream has its default format.  Only numbers that are whole and of at most six digits are written here; these are written
without point and exponent, so that the text consists of digits and signs, and reading a number takes a sign and all digits
that follow.
-/

namespace Verif.Plane
open Verif.TFS

/-- The numbers of a `Transform2D`: displacements, and cosine and sine of the angle (Transform2D.h 158-166, 334-336). -/
structure T2 where
  x : Int
  y : Int
  cosa : Int
  sina : Int
  deriving DecidableEq

/-- `operator<<` (Transform2D.h 132-137, 314-320): nothing is put between the numbers. -/
def write (t : T2) : List Char := intToStr t.x ++ (intToStr t.y ++ (intToStr t.cosa ++ intToStr t.sina))

/-- A number without its sign: at least one digit, and all that follow. -/
def scanNat (s : List Char) : Option (Nat × List Char) :=
  if (s.head?.map isDigit).getD false then some (parseDigits 0 s, s.dropWhile isDigit) else none

/-- `is >> x` of a double; `none` is the failure of the stream. -/
def scan (s : List Char) : Option (Int × List Char) :=
  if s.head? = some '-' then (scanNat s.tail).map fun p => (-(p.1 : Int), p.2)
  else (scanNat s).map fun p => ((p.1 : Int), p.2)

/-- `operator>>` (Transform2D.h 139-144, 322-328). -/
def read (s : List Char) : Option T2 :=
  (scan s).bind fun x => (scan x.2).bind fun y => (scan y.2).bind fun c => (scan c.2).bind fun d =>
  some ⟨x.1, y.1, c.1, d.1⟩

end Verif.Plane
