import Verif.DataTable.Model

/-! # Specification vocabulary for `DataTable`: what a user sees through the getters -/

namespace Verif.DataTable.Spec
open Verif Verif.DataTable

variable {D : Type}

/-- Column types of the documentation (DataTable.h:96-97). -/
def Known (c : Char) : Prop := c = 'd' ∨ c = 'i' ∨ c = 's'

/-- The getter of type `c` returns a value at row `i` of column `n`. -/
def Readable (t : Table D) (n : Str) (c : Char) (i : Nat) : Prop :=
  (c = 'd' ∧ ∃ x, getD t n i = .ok x) ∨ (c = 'i' ∧ ∃ x, getI t n i = .ok x) ∨
    (c = 's' ∧ ∃ x, getS t n i = .ok x)

/-- The cell holds the value `v`, read with the getter of its type. -/
def Holds (t : Table D) (n : Str) (i : Nat) : Val D → Prop
  | .d x => getD t n i = .ok x
  | .i x => getI t n i = .ok x
  | .s x => getS t n i = .ok x

/-- Nothing that can be read at row `j` of column `m` differs, exceptions included. -/
def SameCell (t t' : Table D) (m : Str) (j : Nat) : Prop :=
  getD t' m j = getD t m j ∧ getI t' m j = getI t m j ∧ getS t' m j = getS t m j

/-- Column list, types and number of rows agree. -/
def SameLayout (t t' : Table D) : Prop :=
  t'.colNames = t.colNames ∧ (∀ m, getColumnType t' m = getColumnType t m) ∧ t'.length = t.length

/-- Nothing that can be read from the header differs. -/
def SameHeaderView (t t' : Table D) : Prop :=
  t'.hcolNames = t.hcolNames ∧ ∀ m, headerGetD t' m = headerGetD t m ∧
    headerGetI t' m = headerGetI t m ∧ headerGetS t' m = headerGetS t m

/-- The type letter of a value. -/
def tyOf : Val D → Char
  | .d _ => 'd'
  | .i _ => 'i'
  | .s _ => 's'

/-- The table is the result of some history of public calls on a new table. -/
def Reachable [Inhabited D] (cv : Conv D) (t : Table D) : Prop :=
  ∃ ops, t = run cv empty ops

end Verif.DataTable.Spec
