import Verif.Stable.Model

/-! # What is claimed about stable orbits -/

namespace Verif.Stable.Spec

variable {P : Type}

/-- One particle alone, once around the ring: where it ends, if it is inside of every aperture. -/
def around : List (Elem P) → P → Option P
  | [], p => some p
  | e :: l, p => if e.inside (e.before p) then around l (e.after (e.before p)) else none

/-- A particle that stays in the ring for `n` turns. -/
def Stays (ring : List (Elem P)) : Nat → P → Prop
  | 0, _ => True
  | n + 1, p => ∃ q, around ring p = some q ∧ Stays ring n q

end Verif.Stable.Spec
