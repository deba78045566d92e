import Mathlib.Data.Nat.Digits.Defs
import Mathlib.Data.Rat.Floor
import Mathlib.Algebra.Order.Floor.Semiring

/-!
# Formats of numbers and texts

Merlin++/OPFormat.h, OPFormat.cpp and MatrixPrinter.cpp.  Finite doubles are rational numbers.  Texts are lists of characters.  What the C++ library does with
flags, width and precision of a stream is modelled for integers, strings and numbers in fixed notation; the text of a number in another notation is a
parameter.  The precision is not negative.
-/

namespace Verif.Format

/-- The bits `fixed` and `scientific` of `ios_base::fmtflags`. -/
structure Flags where
  fixed : Bool
  scientific : Bool
deriving DecidableEq, Repr

namespace Flags

def none : Flags := ⟨false, false⟩

def isFixed : Flags := ⟨true, false⟩

def isScientific : Flags := ⟨false, true⟩

def and (a b : Flags) : Flags := ⟨a.fixed && b.fixed, a.scientific && b.scientific⟩

def not (a : Flags) : Flags := ⟨!a.fixed, !a.scientific⟩

end Flags

/-- `adjustfield`; a new stream has none of them, which is as `right`. -/
inductive Adjust where
  | left | right | internal
deriving DecidableEq, Repr

/-- `OPFormat` (OPFormat.h 94-98). -/
structure Fmt where
  prc : Nat
  wdt : Int
  fmt : Flags
  adjust : Adjust
  allowovf : Bool
deriving DecidableEq, Repr

/-- The constructor (OPFormat.h 29-32). -/
def Fmt.new (p : Nat) : Fmt := ⟨p, 0, Flags.none, .right, true⟩

/-- The calls that set a format. -/
inductive Op where
  | scientific | fixed | general
  | precision (p : Nat)
  | width (w : Int)
  | left | right | internal
  | overflow (flg : Bool)
deriving DecidableEq, Repr

/-- One call (OPFormat.h 34-86). -/
def Fmt.op (f : Fmt) : Op → Fmt
  | .scientific => ⟨f.prc, f.wdt, Flags.isScientific, f.adjust, f.allowovf⟩
  | .fixed => ⟨f.prc, f.wdt, Flags.isFixed, f.adjust, f.allowovf⟩
  | .general => ⟨f.prc, f.wdt, f.fmt.and (Flags.isScientific.and Flags.isFixed).not, f.adjust, f.allowovf⟩
  | .precision p => ⟨p, f.wdt, f.fmt, f.adjust, f.allowovf⟩
  | .width w => ⟨f.prc, w, f.fmt, f.adjust, f.allowovf⟩
  | .left => ⟨f.prc, f.wdt, f.fmt, .left, f.allowovf⟩
  | .right => ⟨f.prc, f.wdt, f.fmt, .right, f.allowovf⟩
  | .internal => ⟨f.prc, f.wdt, f.fmt, .internal, f.allowovf⟩
  | .overflow b => ⟨f.prc, f.wdt, f.fmt, f.adjust, b⟩

/-- A chain of calls. -/
def Fmt.ops (f : Fmt) (l : List Op) : Fmt := l.foldl Fmt.op f

/-! ## The library -/

def digit (d : Nat) : Char := Char.ofNat (48 + d)

/-- The digits of `n`, at least `p + 1` of them, with a point before the last `p`. -/
def numeral (n p : Nat) : List Char :=
  let d := Nat.digits 10 n
  let l := ((d ++ List.replicate (p + 1 - d.length) 0).reverse).map digit
  if p = 0 then l else l.take (l.length - p) ++ '.' :: l.drop (l.length - p)

/-- Rounding to the nearest integer, halves to even. -/
def roundEven (x : ℚ) : Nat :=
  let f := ⌊x⌋₊
  if x - f < 1 / 2 then f else if 1 / 2 < x - f then f + 1 else if f % 2 = 0 then f else f + 1

/-- The text of a double under flags and precision, as sign and rest; `other` is the text in another notation. -/
def number (other : Flags → Nat → ℚ → List Char) (fl : Flags) (p : Nat) (q : ℚ) : List Char × List Char :=
  (if q < 0 then ['-'] else [], if fl = Flags.isFixed then numeral (roundEven (|q| * 10 ^ p)) p else other fl p |q|)

/-- The text of an integer. -/
def integer (z : Int) : List Char × List Char := (if z < 0 then ['-'] else [], numeral z.natAbs 0)

def blanks (w : Int) (n : Nat) : List Char := List.replicate (w - n).toNat ' '

/-- A number in a field of width `w`. -/
def padNumber (a : Adjust) (w : Int) (s : List Char × List Char) : List Char :=
  let b := blanks w (s.1 ++ s.2).length
  match a with
  | .left => s.1 ++ s.2 ++ b
  | .right => b ++ (s.1 ++ s.2)
  | .internal => s.1 ++ b ++ s.2

/-- A string in a field of width `w`. -/
def padText (a : Adjust) (w : Int) (s : List Char) : List Char :=
  match a with
  | .left => s ++ blanks w s.length
  | _ => blanks w s.length ++ s

/-- A stream: flags, adjustment, width of the next field, precision, what was written. -/
structure Stream where
  fl : Flags
  adjust : Adjust
  width : Int
  prc : Nat
  out : List Char
deriving DecidableEq, Repr

def Stream.new : Stream := ⟨Flags.none, .right, 0, 6, []⟩

/-- `os << q`. -/
def Stream.putNumber (other : Flags → Nat → ℚ → List Char) (o : Stream) (q : ℚ) : Stream :=
  ⟨o.fl, o.adjust, 0, o.prc, o.out ++ padNumber o.adjust o.width (number other o.fl o.prc q)⟩

/-- `os << z`. -/
def Stream.putInteger (o : Stream) (z : Int) : Stream := ⟨o.fl, o.adjust, 0, o.prc, o.out ++ padNumber o.adjust o.width (integer z)⟩

/-- `os << s`. -/
def Stream.putText (o : Stream) (s : List Char) : Stream := ⟨o.fl, o.adjust, 0, o.prc, o.out ++ padText o.adjust o.width s⟩

/-! ## OPFormat -/

/-- `os << fmt` (OPFormat.cpp 84-91). -/
def Stream.putFormat (o : Stream) (f : Fmt) : Stream := ⟨f.fmt, f.adjust, f.wdt, f.prc, o.out⟩

/-- `value.c_str()` (OPFormat.cpp 22-27): up to the first zero. -/
def cString (s : List Char) : List Char := s.takeWhile (· ≠ '\x00')

/-- `truncate_str` of numbers (OPFormat.cpp 29-39). -/
def stars (n : Int) : List Char := List.replicate n.toNat '*'

/-- `truncate_str` of strings (OPFormat.cpp 41-48): a negative count, as an unsigned number, takes the whole string. -/
def dots (s : List Char) (n : Int) : List Char := (if n - 2 < 0 then s else s.take (n - 2).toNat) ++ ['.', '.']

/-- `to_string` (OPFormat.cpp 50-65) after the value was written. -/
def limit (f : Fmt) (s cut : List Char) : List Char := if !f.allowovf && decide ((s.length : Int) > f.wdt) then cut else s

/-- `operator()(double)` (OPFormat.cpp 69-72). -/
def Fmt.double (other : Flags → Nat → ℚ → List Char) (f : Fmt) (q : ℚ) : List Char :=
  limit f ((Stream.new.putFormat f).putNumber other q).out (stars f.wdt)

/-- `operator()(int)` (OPFormat.cpp 74-77). -/
def Fmt.int (f : Fmt) (z : Int) : List Char := limit f ((Stream.new.putFormat f).putInteger z).out (stars f.wdt)

/-- `operator()(const string&)` (OPFormat.cpp 79-82). -/
def Fmt.text (f : Fmt) (s : List Char) : List Char :=
  let r := ((Stream.new.putFormat f).putText (cString s)).out
  limit f r (dots r f.wdt)

/-! ## MatrixForm -/

/-- The width of the columns (MatrixPrinter.cpp 27-43). -/
def columnWidth (cells : List (List (List Char))) : Nat := (cells.flatten.foldl (fun w s => if w > s.length then w else s.length) 0) + 1

/-- A line (MatrixPrinter.cpp 49-53): `setw(width) << right`. -/
def putLine (w : Nat) (o : Stream) (cells : List (List Char)) : Stream :=
  let o' := cells.foldl (fun (o : Stream) s => (Stream.mk o.fl .right w o.prc o.out).putText s) o
  ⟨o'.fl, o'.adjust, o'.width, o'.prc, o'.out ++ ['\n']⟩

/-- `MatrixForm` (MatrixPrinter.cpp 25-55) on a matrix given by its rows. -/
def matrixForm (other : Flags → Nat → ℚ → List Char) (M : List (List ℚ)) (o : Stream) (f : Fmt) : Stream :=
  let cells := M.map fun r => r.map fun q => f.double other q
  cells.foldl (putLine (columnWidth cells)) o

end Verif.Format
