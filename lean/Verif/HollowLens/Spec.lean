import Mathlib.MeasureTheory.Integral.IntervalIntegral.Basic
import Verif.HollowLens.Model

/-!
# Specification for the hollow electron lens

Written without reference to the process: distributions of current over the radius, the part of the current within a
radius, the force between the beams by the Lorentz law, and how often the modes of operation act.
-/

namespace Verif.HollowLens.Spec
open Verif Verif.Symplectic Verif.HollowLens Real

noncomputable section

/-- Current evenly spread between two radii. -/
def annulus (a b r : ℝ) : ℝ := if a < r ∧ r ≤ b then 1 else 0

/-- A density given by points with straight lines between them, zero outside. -/
def through : List (ℝ × ℝ) → ℝ → ℝ
  | p :: q :: t, r => if p.1 < r ∧ r ≤ q.1 then p.2 + (q.2 - p.2) * ((r - p.1) / (q.1 - p.1)) else through (q :: t) r
  | _, _ => 0

/-- The density measured at the Tevatron, the inner radius scaled to `a`. -/
def tevatron (a : ℝ) : List (ℝ × ℝ) :=
  [(a, 0), (252.5 / 222.5 * a, 917), (287 / 222.5 * a, 397), (364.5 / 222.5 * a, 228), (426.5 / 222.5 * a, 0)]

/-- The density for the LHC. -/
def forLHC (a : ℝ) : List (ℝ × ℝ) :=
  [(a, 0), (265 / 222.5 * a, 917), (315 / 222.5 * a, 397), (435 / 222.5 * a, 228), (505 / 222.5 * a, 0)]

/-- The part of the current of density `j` within the radius `R`, of the current within `out`. -/
def enclosed (j : ℝ → ℝ) (out R : ℝ) : ℝ := (∫ r in (0 : ℝ)..R, j r * r) / ∫ r in (0 : ℝ)..out, j r * r

/-- Outward deflection of a proton of velocity `bp` and magnetic rigidity `rho` at radius `r` along a length `L` of an
electron beam of velocity `be` with the current `I` within the radius (SI units, velocities in units of `c`): electric
field of the charge per length, magnetic field of the current, force per charge times time over momentum per charge.
`s` is one if the electrons move against the protons, minus one if they move with them. -/
def deflection (c L I be bp rho s r : ℝ) : ℝ :=
  let field := -(2 * (c ^ 2 / 1e7) * (I / (be * c))) / r
  let mag := s * (2 * I / 1e7) / r
  (field - bp * c * mag) * (L / (bp * c)) / rho

/-- The slopes of a particle changed away from a centre, by an amount that depends on the distance. -/
def bent (cx cy : ℝ) (D : ℝ → ℝ) (v : PS) : PS :=
  let R := √((v.x - cx) ^ 2 + (v.y - cy) ^ 2)
  { v with px := v.px + D R * ((v.x - cx) / R), py := v.py + D R * ((v.y - cy) / R) }

/-- A lens with values for everything a kick needs, electrons against the protons. -/
structure Ready (l : Lens) (a b pb : ℝ) : Prop where
  rmin : l.rmin = some a
  rmax : l.rmax = some b
  pos : 0 ≤ a
  lt : a < b
  rigidity : l.rigidity ≠ 0
  betaE : l.betaE ≠ 0
  pb : pb ≠ 0

/-- All quantities positive and the velocities below that of light. -/
structure Physical (l : Lens) (pb : ℝ) : Prop where
  effLen : 0 < l.effLen
  current : 0 < l.current
  rigidity : 0 < l.rigidity
  betaE : 0 < l.betaE
  proton : 0 < pb
  slow : l.betaE * pb < 1

/-- The lens is on the axis. -/
def Centred (l : Lens) : Prop := l.xOff = 0 ∧ l.yOff = 0

/-- The deflection by a lens whose current is spread evenly, for electrons against (`s = 1`) or with (`s = -1`) the
protons. -/
def evenly (l : Lens) (c a b pb s R : ℝ) : ℝ :=
  deflection c l.effLen (l.current * enclosed (annulus a b) b R) l.betaE pb l.rigidity s R

/-- The deflection by a lens with a density given by points. -/
def measured (l : Lens) (pts : List (ℝ × ℝ)) (out c pb s R : ℝ) : ℝ :=
  deflection c l.effLen (l.current * enclosed (through pts) out R) l.betaE pb l.rigidity s R

/-- Velocity of a particle of momentum `p` and rest energy `m` in the same units. -/
def velocity (m p : ℝ) : ℝ := p / √(p ^ 2 + m ^ 2)

/-- The kicks of several turns together: `w t r` is the weight of the turn with number `t` in which `r` is drawn. -/
def total (w : Int → ℝ → ℝ) : Int → List ℝ → ℝ
  | _, [] => 0
  | t, r :: rs => w (t + 1) r + total w (t + 1) rs

/-- Several turns, with the numbers drawn in each. -/
def turns (pb : ℝ) : List ℝ → Lens → List PS → Outcome Unit (Lens × List PS)
  | [], l, ps => .ok (l, ps)
  | r :: rs, l, ps => (doProcess l pb r ps).bind fun q => turns pb rs q.1 q.2

end

end Verif.HollowLens.Spec
