import Verif.Radiation.Model

/-!
# Specification of radiation
-/

namespace Verif.Radiation.Spec
open Verif.Radiation

noncomputable section

/-- The momentum of a particle for the reference momentum `p`. -/
def momentum (p : ℝ) (v : Part) : ℝ := p * (1 + v.dp)

/-- The vector of the momentum for canonical variables: `xp` and `yp` are momenta in units of the reference. -/
def vector (p : ℝ) (v : Part) : ℝ × ℝ × ℝ :=
  (p * v.xp, p * v.yp, p * Real.sqrt ((1 + v.dp) ^ 2 - v.xp ^ 2 - v.yp ^ 2))

/-- Same place and time. -/
def SamePlace (v w : Part) : Prop := w.x = v.x ∧ w.y = v.y ∧ w.ct = v.ct

/-- A photon takes energy from a particle in the direction of its motion: the vector of the momentum gets shorter by `u`
and keeps its direction. -/
def Braked (p u : ℝ) (v w : Part) : Prop :=
  ∃ k, 0 < k ∧ k * momentum p v = momentum p v - u ∧
    vector p w = (k * (vector p v).1, k * (vector p v).2.1, k * (vector p v).2.2)

/-- Steps which a tracker may take: none is longer than the process allows. -/
def Allowed (eps : ℝ) (ns : Nat) : Sched → List ℝ → Prop
  | _, [] => True
  | c, ds :: l => 0 ≤ ds ∧ (c.active = true → ds ≤ maxStep c) ∧
      Allowed eps ns (if c.active then (doProcess eps ns c ds).1 else c) l

end

end Verif.Radiation.Spec
