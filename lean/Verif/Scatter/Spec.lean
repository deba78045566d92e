import Verif.Scatter.Model

/-!
# Specification of scattering
-/

namespace Verif.Scatter.Spec
open Verif.Scatter

/-- A change of direction by a momentum transfer `t` at an energy, at the same place. -/
def Kick (p q : Part) (t E : ℝ) : Prop :=
  (q.xp - p.xp) ^ 2 + (q.yp - p.yp) ^ 2 = t / E ^ 2 ∧ q.x = p.x ∧ q.y = p.y

/-- The energy of a particle with reference energy `E0`. -/
def energy (p : Part) (E0 : ℝ) : ℝ := E0 * (1 + p.dp)

/-- The energy at which a material was first used in a list of calls. -/
def firstEnergy (a : Nat) : List (Nat × ℝ) → Option ℝ
  | [] => none
  | c :: l => if c.1 = a then some c.2 else firstEnergy a l

/-- The slope of single diffraction that joins its two ends. -/
noncomputable def joinedSlope (b x : ℝ) : ℝ := if x < 2 then 2 * b else if x ≤ 5 then (106 - 17 * x) * b / 36 else 7 * b / 12

end Verif.Scatter.Spec
