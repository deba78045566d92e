import Verif.Impacts.Model

/-! # What the files of impacts ought to hold -/

namespace Verif.Impacts.Spec

variable {K : Type}

/-- The records of jaw impacts of one collimator, in the order in which they were made. -/
def ofCollimator (calls : List (Particle K × Int × String)) (name : String) : List (Particle K × Int) :=
  calls.filterMap fun c => if c.2.2 = name then some (c.1, c.2.1) else none

/-- The entries of a line for a particle which hits the jaw. -/
def entries (p : Particle K) (turn : Int) : List (Entry K) :=
  [.int p.id, .num p.x, .num p.xp, .num p.y, .num p.yp, .num p.ct, .num p.dp, .int turn]

/-- The same for the position `z` of a particle in the collimator. -/
def ofCollimator' (calls : List (Particle K × K × Int × String)) (name : String) : List (Particle K × K × Int) :=
  calls.filterMap fun c => if c.2.2.2 = name then some (c.1, c.2.1, c.2.2.1) else none

/-- The entries of a line of a scatter plot. -/
def entries' (p : Particle K) (z : K) (turn : Int) : List (Entry K) :=
  [.int p.id, .num z, .num p.x, .num p.y, .int turn]

/-- A relation that can be used to sort. -/
def StrictWeak {α : Type} (r : α → α → Bool) : Prop :=
  (∀ a, r a a = false) ∧ ∀ a b, r a b = true → r b a = false

end Verif.Impacts.Spec
