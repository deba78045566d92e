import Verif.NANCheck.Model

/-!
# Specification of the check for invalid particles
-/

namespace Verif.NANCheck.Spec
open Verif.NANCheck

variable {D : Type}

/-- A coordinate is not a finite number. -/
def Bad (fin : D → Bool) (p : Particle D) : Prop := ∃ i, fin (p.v i) = false

/-- Tracking makes no particles: the ids after are ids from before. -/
def KeepsIds (t : List (Particle D) → List (Particle D)) : Prop := ∀ b, ∀ p ∈ t b, ∃ q ∈ b, q.pid = p.pid

/-- Different particles have different ids. -/
def Distinct (b : List (Particle D)) : Prop := (b.map (·.pid)).Nodup

end Verif.NANCheck.Spec
