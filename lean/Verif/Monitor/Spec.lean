import Verif.Monitor.Model

/-!
# Specification for monitors

The state of the buffers is described by the history of calls, latest call first.
-/

namespace Verif.Monitor.Spec
open Verif Verif.Monitor

variable {D : Type}

/-- Buffer `b` was added to monitor `m` and not removed since. -/
def attached (m : Nat) (b : Option Nat) : List (Op D) → Bool
  | [] => false
  | .add m' b' :: h => (m = m' && b = b') || attached m b h
  | .remove m' b' :: h => !(m = m' && b = b') && attached m b h
  | .clear m' :: h => !(m = m') && attached m b h
  | _ :: h => attached m b h

/-- The default buffer last set. -/
def dflt : List (Op D) → Option Nat
  | [] => none
  | .setDefault b :: _ => b
  | _ :: h => dflt h

/-- The monitor is switched on. -/
def on (m : Nat) : List (Op D) → Bool
  | [] => true
  | .setActive m' a :: h => if m = m' then a else on m h
  | _ :: h => on m h

/-- Monitors are switched off globally. -/
def off : List (Op D) → Bool
  | [] => false
  | .setAllInactive a :: _ => a
  | _ :: h => off h

/-- How often a buffer has recorded. -/
def records [DecidableEq D] (b m : Nat) (d : D) (log : List (Nat × Nat × D)) : Nat :=
  log.count (b, m, d)

end Verif.Monitor.Spec
