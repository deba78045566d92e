import Verif.ModeWake.Model

/-!
# Specification of wake fields by modes
-/

namespace Verif.ModeWake.Spec
open Verif.ModeWake

noncomputable section

/-- The place of a particle in the complex plane. -/
def pos (p : P) : ℂ := ⟨p.x, p.y⟩

/-- The slope of a particle in the complex plane. -/
def slope (p : P) : ℂ := ⟨p.xp, p.yp⟩

/-- The moment of order `m` of some particles. -/
def moment (m : Nat) (l : List P) : ℂ := (l.map fun p => pos p ^ m).sum

/-- The moments of order `m` of a slice and of those ahead of it, each with the wake at its distance `k dz`. -/
def source (w : ℝ → ℝ) (dz : ℝ) (m : Nat) : Nat → List (List P) → ℂ
  | _, [] => 0
  | k, l :: ls => w (k * dz) * moment m l + source w dz m (k + 1) ls

/-- The potential of a mode at `(x, y)` for the source `c + i s`. -/
def potential (m : Nat) (c s x y : ℝ) : ℝ := c * ((⟨x, y⟩ : ℂ) ^ m).re + s * ((⟨x, y⟩ : ℂ) ^ m).im

/-- The transverse force of a mode on a particle at `z`. -/
def force (m : Nat) (z src : ℂ) : ℂ := m * (starRingEnd ℂ z) ^ (m - 1) * src

/-- The longitudinal force of a mode: it only depends on the angle between particle and source. -/
def loss (m : Nat) (z src : ℂ) : ℝ := ((starRingEnd ℂ z) ^ m * src).re

/-- The bunch turned by `u` about the axis. -/
def turn (u : ℂ) (p : P) : P :=
  { p with x := (u * pos p).re, y := (u * pos p).im, xp := (u * slope p).re, yp := (u * slope p).im }

end

end Verif.ModeWake.Spec
