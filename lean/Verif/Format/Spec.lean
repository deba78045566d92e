import Mathlib.Data.Rat.Defs
import Mathlib.Algebra.Order.Ring.Rat
import Verif.Format.Model

/-! # What is claimed about formats -/

namespace Verif.Format.Spec

/-- The number a row of digits means. -/
def readNat (l : List Char) : Nat := l.foldl (fun a c => 10 * a + (c.toNat - 48)) 0

/-- A number without sign: digits, perhaps with a point. -/
def readUnsigned (l : List Char) : ℚ :=
  (readNat (l.filter (· ≠ '.')) : ℚ) / 10 ^ (l.dropWhile (· ≠ '.')).tail.length

/-- A number, blanks left out. -/
def readValue (l : List Char) : ℚ :=
  match l.filter (· ≠ ' ') with
  | [] => 0
  | c :: r => if c = '-' then -readUnsigned r else readUnsigned (c :: r)

/-- The last thing said of one kind in a chain of calls; `d` if nothing was said. -/
def last {α : Type} (pick : Op → Option α) (d : α) (l : List Op) : α := (l.reverse.findSome? pick).getD d

/-- The pieces of a text between the characters `c`. -/
def pieces (c : Char) : List Char → List (List Char)
  | [] => [[]]
  | a :: l => if a = c then [] :: pieces c l else match pieces c l with
    | [] => [[a]]
    | p :: ps => (a :: p) :: ps

/-- The words of a line. -/
def words (l : List Char) : List (List Char) := (pieces ' ' l).filter (· ≠ [])

/-- The lines of a text that ends with a line end. -/
def lines (l : List Char) : List (List Char) := (pieces '\n' l).dropLast

/-- What is written to a stream later on. -/
inductive Later where
  | number (q : ℚ) | integer (z : Int) | text (s : List Char)

/-- Later output. -/
def later (other : Flags → Nat → ℚ → List Char) (o : Stream) : List Later → Stream
  | [] => o
  | .number q :: l => later other (o.putNumber other q) l
  | .integer z :: l => later other (o.putInteger z) l
  | .text s :: l => later other (o.putText s) l

end Verif.Format.Spec
