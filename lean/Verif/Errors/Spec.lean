import Verif.Errors.Model
import Verif.MultiNormal.Spec

/-!
# Specification of alignment errors
-/

namespace Verif.Errors.Spec
open Verif.Errors Verif.StringPattern

variable {K G : Type} [Field K] [LinearOrder K] [Group G]

/-- Where an element stands. -/
def place (f : Frame G) : G :=
  match f.localT with
  | some t => t
  | none => 1

/-- A random number is drawn for this axis. -/
def Active (eps : K) (rms : Fin 3 → K) (a : Fin 3) : Prop := eps < rms a * rms a

instance (eps : K) (rms : Fin 3 → K) (a : Fin 3) : Decidable (Active eps rms a) := by unfold Active; infer_instance

/-- Axes of an element drawn before axis `a`; for `a = 3` the count of one element. -/
def before (eps : K) (rms : Fin 3 → K) (a : Nat) : Nat :=
  ((List.finRange 3).filter fun b => decide (b.val < a) && decide (Active eps rms b)).length

/-- The error of the `m`-th selected element along an axis, for a stream of standard normal numbers. -/
def error (eps : K) (rms mean : Fin 3 → K) (m : Nat) (a : Fin 3) (g : Nat → K) : K :=
  if Active eps rms a then mean a + |rms a| * g (m * before eps rms 3 + before eps rms a) else mean a

/-- The rotation about one axis: none for an angle within the rounding error. -/
def turn (eps : K) (r : K → G) (e : K) : G := if |e| ≤ eps then 1 else r e

/-- The element is asked for. -/
def wanted (p : Str) : Option (Frame G) → Bool
  | none => false
  | some f => (construct ('*' :: '.' :: p)).matches (f.type ++ '.' :: f.name)

/-- Type, name and place of an element. -/
def view (f : Frame G) : Str × Str × G := (f.type, f.name, place f)

/-- The elements of the beamline after errors: those wanted are moved by `mv m`, `m` their number. -/
def moved (clear : Bool) (mv : Nat → G) (p : Str) (l : List (Option (Frame G))) (j : Nat) :
    Option (Option (Str × Str × G)) :=
  (l[j]?).map fun o => o.map fun f =>
    (f.type, f.name,
      if wanted p (some f) then mv ((l.take j).filter (wanted p)).length * (if clear then 1 else place f)
      else place f)

/-- The translation of the `m`-th selected element. -/
def shift (eps : K) (mv : Moves K G) (rms mean : Fin 3 → K) (g : Nat → K) (m : Nat) : G :=
  mv.tr (error eps rms mean m 0 g) (error eps rms mean m 1 g) (error eps rms mean m 2 g)

/-- The rotation of the `m`-th selected element: about x first, then y, then z. -/
def turns (eps : K) (mv : Moves K G) (rms mean : Fin 3 → K) (g : Nat → K) (m : Nat) : G :=
  turn eps (mv.rot 2) (error eps rms mean m 2 g) * turn eps (mv.rot 1) (error eps rms mean m 1 g) *
    turn eps (mv.rot 0) (error eps rms mean m 0 g)

end Verif.Errors.Spec
