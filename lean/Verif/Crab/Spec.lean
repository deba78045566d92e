import Verif.Crab.Model

/-! Specification: sets of cavities, turns, and what cavities are for. -/

namespace Verif.Crab.Spec
open Verif Verif.Crab Real

/-- The four sets of cavities: before and behind the two interaction points. -/
inductive Set
  | up5 | down5 | up1 | down1
  deriving DecidableEq

/-- Where the sets are, in metres from the first interaction point. -/
def At : Set → ℝ → Prop
  | .up5, z => 10000 ≤ z ∧ z ≤ 13200
  | .down5, z => 13300 ≤ z ∧ z ≤ 15000
  | .up1, z => 20000 ≤ z ∧ z ≤ 30000
  | .down1, z => 0 ≤ z ∧ z ≤ 200

/-- A turn with four cavities in each set, the sets in the given order. -/
def Round (order : List Set) (ms : List Marker) : Prop := List.Forall₂ (fun k m => At k m.pos) (order.flatMap (List.replicate 4)) ms

/-- A bunch passes cavities one after the other. -/
noncomputable def passes (o : Optics) : List Marker → State × List Particle → Outcome Unit (State × List Particle)
  | [], r => .ok r
  | m :: ms, r => (pass o m r).bind (passes o ms)

/-- The offset at the interaction point that a slope of one at a cavity leads to. -/
noncomputable def lever (o : Optics) (horizontal : Bool) (n1 n2 : Int) : ℝ :=
  √(o.beta horizontal n1 * o.beta horizontal n2) * sin (2 * π * |plane horizontal (o.mu n2) - plane horizontal (o.mu n1)|)

/-- The offset of a particle at the interaction point: a tilt by the half crossing angle, for particles near the centre of
the bunch when the phase is zero. -/
noncomputable def tilt (omega theta phi ct : ℝ) : ℝ := -(c / omega * tan theta * sin (phi + ct * (omega / c)))

/-- Motion from one place to another with given lattice functions and phase advance. -/
noncomputable def transfer (b1 a1 b2 a2 d : ℝ) (p : ℝ × ℝ) : ℝ × ℝ :=
  (√(b2 / b1) * (cos d + a1 * sin d) * p.1 + √(b1 * b2) * sin d * p.2,
   -((1 + a1 * a2) * sin d + (a2 - a1) * cos d) / √(b1 * b2) * p.1 + √(b1 / b2) * (cos d - a2 * sin d) * p.2)

/-- Two particles that differ at most in one slope. -/
def SameBut (horizontal : Bool) (p q : Particle) : Prop :=
  q.x = p.x ∧ q.y = p.y ∧ q.ct = p.ct ∧ q.dp = p.dp ∧ (horizontal = true → q.yp = p.yp) ∧ (horizontal = false → q.xp = p.xp)

/-- The slope in a plane. -/
def slope (horizontal : Bool) (p : Particle) : ℝ := if horizontal then p.xp else p.yp

/-- Change the slope in a plane. -/
def deflect (horizontal : Bool) (k : ℝ) (p : Particle) : Particle :=
  if horizontal then { p with xp := p.xp + k } else { p with yp := p.yp + k }

/-- The fraction of the voltage in a turn of the failure. -/
def Fraction (s : State) (turn : Int) (r : ℝ) : Prop :=
  ((s.failureOn = false ∨ turn < s.nonFailTurns) → r = 1) ∧
  (s.failureOn = true → s.nonFailTurns ≤ turn → r = 1 - ((turn + 1 - s.nonFailTurns : Int) : ℝ) / (s.failTurns : ℝ))

end Verif.Crab.Spec
