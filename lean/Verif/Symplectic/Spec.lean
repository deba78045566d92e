import Mathlib.Analysis.Calculus.Deriv.Basic
import Verif.Symplectic.Model

/-!
# Specification for the symplectic integrators

Written without reference to the maps: the canonical two-form, derivatives along curves, maps that preserve the
form, and Hamilton's equations with the path length as independent variable.  Coordinates and momenta are
(x, px), (y, py) and (ct, dp).
-/

namespace Verif.Symplectic.Spec
open Verif Verif.Symplectic Real

/-- The canonical two-form. -/
def form (u w : PS) : ℝ :=
  (u.x * w.px - u.px * w.x) + (u.y * w.py - u.py * w.y) + (u.ct * w.dp - u.dp * w.ct)

/-- A curve has a velocity. -/
def Der (c : ℝ → PS) (u : PS) (t : ℝ) : Prop :=
  HasDerivAt (fun s => (c s).x) u.x t ∧ HasDerivAt (fun s => (c s).px) u.px t ∧
  HasDerivAt (fun s => (c s).y) u.y t ∧ HasDerivAt (fun s => (c s).py) u.py t ∧
  HasDerivAt (fun s => (c s).ct) u.ct t ∧ HasDerivAt (fun s => (c s).dp) u.dp t

/-- The map is defined about a point and carries every curve through it to a curve whose velocity depends only on
the velocity of the first one, in such a way that the form is kept. -/
def Preserves (F : PS → Outcome Unit PS) (v : PS) : Prop :=
  ∃ L : PS → PS,
    (∀ (c : ℝ → PS) (u : PS) (t : ℝ), c t = v → Der c u t →
      ∃ d : ℝ → PS, (∀ᶠ s in nhds t, F (c s) = .ok (d s)) ∧ Der d (L u) t) ∧
    ∀ u w, form (L u) (L w) = form u w

/-- As `Preserves`, for a map after which momenta are given in units of another reference momentum: the form is
multiplied by a constant. -/
def Scales (r : ℝ) (F : PS → Outcome Unit PS) (v : PS) : Prop :=
  ∃ L : PS → PS,
    (∀ (c : ℝ → PS) (u : PS) (t : ℝ), c t = v → Der c u t →
      ∃ d : ℝ → PS, (∀ᶠ s in nhds t, F (c s) = .ok (d s)) ∧ Der d (L u) t) ∧
    ∀ u w, form (L u) (L w) = r * form u w

/-- A particle flies in a straight line to a plane at a given distance: displacement and momentum are parallel,
the length of the momentum vector is `1 + dp` and the delay is the extra length of the path. -/
def Straight (ds : ℝ) (v w : PS) : Prop :=
  ∃ pz τ : ℝ, 0 < pz ∧ v.px ^ 2 + v.py ^ 2 + pz ^ 2 = (1 + v.dp) ^ 2 ∧ τ * pz = ds ∧
    w = ⟨v.x + τ * v.px, v.px, v.y + τ * v.py, v.py, v.ct + (ds - τ * (1 + v.dp)), v.dp⟩

/-- Partial derivatives of a function of the coordinates. -/
def Grad (H : PS → ℝ) (v g : PS) : Prop :=
  HasDerivAt (fun t => H { v with x := t }) g.x v.x ∧ HasDerivAt (fun t => H { v with px := t }) g.px v.px ∧
  HasDerivAt (fun t => H { v with y := t }) g.y v.y ∧ HasDerivAt (fun t => H { v with py := t }) g.py v.py ∧
  HasDerivAt (fun t => H { v with ct := t }) g.ct v.ct ∧ HasDerivAt (fun t => H { v with dp := t }) g.dp v.dp

/-- Hamilton's equations hold at one place of an orbit. -/
def Hamilton (H : PS → ℝ) (o : ℝ → PS) (s : ℝ) : Prop :=
  ∃ g, Grad H (o s) g ∧ Der o ⟨g.px, -g.x, g.py, -g.y, g.dp, -g.ct⟩ s

/-- Exact Hamiltonian of a straight space: the difference of the momentum and its component along the orbit. -/
noncomputable def exactDrift (v : PS) : ℝ := v.dp - √((1 + v.dp) ^ 2 - v.px ^ 2 - v.py ^ 2)

/-- Exact Hamiltonian of a dipole whose field matches the curvature. -/
noncomputable def exactBend (h : ℝ) (v : PS) : ℝ :=
  v.dp - (1 + h * v.x) * √((1 + v.dp) ^ 2 - v.px ^ 2 - v.py ^ 2) + (1 + h * v.x) ^ 2 / 2

/-- Hamiltonian of a magnet with curvature and gradient to second order in the transverse coordinates. -/
noncomputable def magnet (h k : ℝ) (v : PS) : ℝ :=
  (v.px ^ 2 + v.py ^ 2) / (2 * (1 + v.dp)) + (h ^ 2 + k) * v.x ^ 2 / 2 - k * v.y ^ 2 / 2 - h * v.x * v.dp

/-- Two coordinates of a particle seen in axes turned about the orbit. -/
noncomputable def turn (t : ℝ) (v : PS) : PS :=
  ⟨cos t * v.x - sin t * v.y, cos t * v.px - sin t * v.py, sin t * v.x + cos t * v.y, sin t * v.px + cos t * v.py,
    v.ct, v.dp⟩

/-- The same magnetic field: equal scale and equal coefficients, missing ones being zero. -/
def SameField (m n : Multipole.MField ℝ) : Prop := m.b0 = n.b0 ∧ ∀ i, m.terms.getD i 0 = n.terms.getD i 0

end Verif.Symplectic.Spec
