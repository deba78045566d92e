import Verif.TFS.Model
import Verif.DataTable.Spec

/-! # Specification vocabulary for the TFS format -/

namespace Verif.TFS.Spec
open Verif Verif.DataTable Verif.TFS

variable {D : Type}

/-- The blank characters of the C locale. -/
def Blank (c : Char) : Prop :=
  c = ' ' ∨ c = '\t' ∨ c = '\n' ∨ c = '\r' ∨ c = Char.ofNat 11 ∨ c = Char.ofNat 12

/-- A word as it may be written on a line: bare, or between double quotes. -/
inductive Tok where
  | bare (w : Str)
  | quoted (w : Str)

/-- The word meant by a token. -/
def Tok.word : Tok → Str
  | .bare w => w
  | .quoted w => w

/-- The characters of a token on the line. -/
def Tok.text : Tok → Str
  | .bare w => w
  | .quoted w => ['"'] ++ w ++ ['"']

/-- Words are non-empty and free of quotes; bare ones are free of blanks. -/
def Tok.Good : Tok → Prop
  | .bare w => w ≠ [] ∧ '"' ∉ w ∧ ∀ c ∈ w, ¬ Blank c
  | .quoted w => w ≠ [] ∧ '"' ∉ w

/-- Characters of a list of tokens, each with the blanks that follow it. -/
def lineOf : List (Tok × Str) → Str
  | [] => []
  | (t, s) :: rest => t.text ++ s ++ lineOf rest

/-- Only blanks between tokens, at least one between two of them. -/
def Separated : List (Tok × Str) → Prop
  | [] => True
  | [(_, s)] => ∀ c ∈ s, Blank c
  | (_, s) :: rest => (∀ c ∈ s, Blank c) ∧ s ≠ [] ∧ Separated rest

/-- A name that can stand unquoted on a line. -/
def Word (w : Str) : Prop := w ≠ [] ∧ '"' ∉ w ∧ ∀ c ∈ w, ¬ Blank c

/-- A string value that can stand between quotes on a line. -/
def Quotable (w : Str) : Prop := w ≠ [] ∧ '"' ∉ w ∧ '\n' ∉ w

/-- Value range of `int`. -/
def IntRange (n : Int) : Prop := -2147483648 ≤ n ∧ n ≤ 2147483647

/-- The value read back for a value written: doubles become what their text denotes. -/
def rounded (rnd : D → D) : Val D → Val D
  | .d x => .d (rnd x)
  | .i x => .i x
  | .s x => .s x

/-- The header entry has this value (read with the getter of its type). -/
def HHolds (t : Table D) (n : Str) : Val D → Prop
  | .d x => headerGetD t n = .ok x
  | .i x => headerGetI t n = .ok x
  | .s x => headerGetS t n = .ok x

/-- What the format can represent of a value. -/
def Writable : Val D → Prop
  | .d _ => True
  | .i x => IntRange x
  | .s x => Quotable x

/-- What is assumed about number conversion: `stoi` is the standard function, a double is
written as one word, and reading that word with `stod` gives `rnd` of the double (`rnd` is
rounding to the 9 significant digits written). -/
structure FmtOk (cv : Conv D) (fmt : D → Str) (rnd : D → D) : Prop where
  stoi : cv.stoi = TFS.stoi
  word : ∀ x, Word (fmt x)
  stod : ∀ x, cv.stod (fmt x) = .ok (rnd x)

end Verif.TFS.Spec
