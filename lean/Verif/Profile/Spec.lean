import Verif.Profile.Model

/-! # What is claimed about profiles -/

namespace Verif.Profile.Spec

/-- A time in nanoseconds. -/
def ns (t : Time) : Int := 1000000000 * t.sec + t.nsec

/-- What a clock shows. -/
def Shown (t : Time) : Prop := 0 ≤ t.nsec ∧ t.nsec < 1000000000

/-- Calls that concern a process. -/
def about (k : String) : Op → Bool
  | .add j => decide (j = k)
  | .remove j => decide (j = k)
  | .start j _ => decide (j = k)
  | .stop j _ => decide (j = k)
  | .clear => true

/-- The calls for one interval, and for adding a process once more. -/
def calls (k : String) : Option (Time × Time) → List Op
  | some q => [.start k q.1, .stop k q.2]
  | none => [.add k]

/-- A process that is added and then timed in some intervals, possibly added again between them. -/
def timed (k : String) (l : List (Option (Time × Time))) : List Op := .add k :: l.flatMap (calls k)

/-- The sum of the intervals. -/
def spent (l : List (Option (Time × Time))) : Int := ((l.filterMap id).map fun q => ns q.2 - ns q.1).sum

end Verif.Profile.Spec
