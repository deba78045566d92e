import Mathlib.Analysis.Asymptotics.Lemmas
import Mathlib.Analysis.Calculus.Deriv.Basic
import Verif.Symplectic.Spec
import Verif.TransportMaps.Model

/-!
# Specification for the second order maps

Written without reference to the maps: the Lorentz equations along a curved reference orbit, in two sets of
coordinates, and what it means to follow them to second order.
-/

namespace Verif.TransportMaps.Spec
open Verif Verif.Symplectic Verif.Symplectic.Spec Real Asymptotics

/-- All coordinates multiplied by one number. -/
def scale (e : ℝ) (v : PS) : PS := ⟨e * v.x, e * v.px, e * v.y, e * v.py, e * v.ct, e * v.dp⟩

/-- Of third order in a small number. -/
def Third (f : ℝ → ℝ) : Prop := f =O[nhds 0] fun e => e ^ 3

/-- The Lorentz equations with the length of the reference orbit of curvature `h` as the independent variable, for a
magnetic field normalised to the reference momentum; `px` and `py` are the ratios of the transverse momenta to the
momentum along the orbit (for zero curvature, slopes), `ct` is the delay of particles which move with the velocity of
light. -/
noncomputable def lorentz (h : ℝ) (bx by' : ℝ → ℝ → ℝ) (v : PS) : PS :=
  let g := 1 + h * v.x
  let r := √(1 + v.px ^ 2 + v.py ^ 2)
  let ps := (1 + v.dp) / r
  ⟨g * v.px, h * (1 + v.px ^ 2) - g / ps * (by' v.x v.y * (1 + v.px ^ 2) - v.px * v.py * bx v.x v.y),
    g * v.py, h * (v.px * v.py) + g / ps * (bx v.x v.y * (1 + v.py ^ 2) - v.px * v.py * by' v.x v.y),
    1 - g * r, 0⟩

/-- The same equations with transverse momenta in units of the reference momentum. -/
noncomputable def canonical (h : ℝ) (bx by' : ℝ → ℝ → ℝ) (v : PS) : PS :=
  let g := 1 + h * v.x
  let ps := √((1 + v.dp) ^ 2 - v.px ^ 2 - v.py ^ 2)
  ⟨g * v.px / ps, h * ps - g * by' v.x v.y, g * v.py / ps, g * bx v.x v.y, 1 - g * (1 + v.dp) / ps, 0⟩

/-- The map of every length is defined on the multiples of a particle, that of length zero does nothing, and for each
length the derivative by it agrees with the equations of motion up to terms of third order in the size of the
coordinates. -/
def Follows (V : PS → PS) (F : ℝ → PS → Outcome Unit PS) (z : PS) : Prop :=
  ∃ M : ℝ → ℝ → PS, (∀ s e, F s (scale e z) = .ok (M s e)) ∧ (∀ e, M 0 e = scale e z) ∧
    ∀ s, ∃ W : ℝ → PS, (∀ e, Der (fun s => M s e) (W e) s) ∧
      Third (fun e => (W e).x - (V (M s e)).x) ∧ Third (fun e => (W e).px - (V (M s e)).px) ∧
      Third (fun e => (W e).y - (V (M s e)).y) ∧ Third (fun e => (W e).py - (V (M s e)).py) ∧
      Third (fun e => (W e).ct - (V (M s e)).ct) ∧ Third (fun e => (W e).dp - (V (M s e)).dp)

/-- Derivative of a curve in phase space but for the delay. -/
def DerTrans (c : ℝ → PS) (a : PS) (s : ℝ) : Prop :=
  HasDerivAt (fun s => (c s).x) a.x s ∧ HasDerivAt (fun s => (c s).px) a.px s ∧ HasDerivAt (fun s => (c s).y) a.y s ∧
  HasDerivAt (fun s => (c s).py) a.py s ∧ HasDerivAt (fun s => (c s).dp) a.dp s

/-- As `Follows`, without the delay. -/
def FollowsTrans (V : PS → PS) (F : ℝ → PS → Outcome Unit PS) (z : PS) : Prop :=
  ∃ M : ℝ → ℝ → PS, (∀ s e, F s (scale e z) = .ok (M s e)) ∧ (∀ e, M 0 e = scale e z) ∧
    ∀ s, ∃ W : ℝ → PS, (∀ e, DerTrans (fun s => M s e) (W e) s) ∧
      Third (fun e => (W e).x - (V (M s e)).x) ∧ Third (fun e => (W e).px - (V (M s e)).px) ∧
      Third (fun e => (W e).y - (V (M s e)).y) ∧ Third (fun e => (W e).py - (V (M s e)).py) ∧
      Third (fun e => (W e).dp - (V (M s e)).dp)

/-- No field. -/
def noField : ℝ → ℝ → ℝ := fun _ _ => 0

/-- The field in the plane of the orbit normal to it and its continuation by Maxwell's equations for curvature `h`,
to second order: dipole, gradient and sextupole component. -/
noncomputable def byField (h k1 k2 : ℝ) : ℝ → ℝ → ℝ :=
  fun x y => h + k1 * x + k2 * x ^ 2 - (h * k1 + 2 * k2) / 2 * y ^ 2

/-- The other component of the field of `byField`. -/
def bxField (k1 k2 : ℝ) : ℝ → ℝ → ℝ := fun x y => k1 * y + 2 * k2 * (x * y)

/-- A map of phase space keeps the canonical form up to second order in the size of the coordinates: on curves through
multiples of `z`. -/
def SymplecticTo (F : PS → Outcome Unit PS) : Prop :=
  ∀ z u w : PS, ∃ L : ℝ → PS → PS,
    (∀ e, ∀ (c : ℝ → PS) (a : PS) (t : ℝ), c t = scale e z → Der c a t →
      ∃ d : ℝ → PS, (∀ s, F (c s) = .ok (d s)) ∧ Der d (L e a) t) ∧
    (fun e => form (L e u) (L e w) - form u w) =O[nhds 0] fun e => e ^ 2

end Verif.TransportMaps.Spec
