import Verif.CollDB.Model
import Verif.Aperture.Spec

/-!
# Specification of the collimator database
-/

namespace Verif.CollDB.Spec
open Verif.CollDB

variable {K M : Type}

/-- A line of the file: name, words of numbers, name of the material. -/
structure Line where
  name : Str
  nums : List Str
  mat : Str

/-- The words of a line. -/
def Line.words (l : Line) : List Str := l.name :: l.nums ++ [l.mat]

/-- A line of `m` numbers. -/
def Line.Proper (num : Str → Option K) (m : Nat) (l : Line) : Prop :=
  l.nums.length = m ∧ ∀ w ∈ l.nums, (num w).isSome

/-- The material of a name. -/
def known (p : Property M) (k : Str) : Prop := ∃ x ∈ p, x.1 = k

/-- The entry of a material. -/
def entry (p : Property M) (k : Str) : Option M := (p.find? fun x => x.1 == k).bind (·.2)

variable [Field K] [LinearOrder K]

/-- The square of the beam size along a direction at an angle to the horizontal, given its cosine and sine. -/
def sizeSq (ex ey bx by_ c s : K) : K := bx * ex * c ^ 2 + by_ * ey * s ^ 2

end Verif.CollDB.Spec
