import Mathlib.Analysis.Calculus.Deriv.Basic
import Mathlib.Analysis.SpecialFunctions.Trigonometric.Basic
import Verif.Multipole.Model
import Verif.Slices.Model
import Verif.Slices.Spec

/-!
# Specification of the tracking of slices

A slice stands for a cloud of charges; each charge moves by itself according to an equation of motion.  Nothing of the
integrators is used.
-/

namespace Verif.SMPMaps.Spec
open Verif Verif.Multipole Verif.Slices Verif.Slices.Spec

noncomputable section

/-- The coordinates of a particle. -/
abbrev Pt := Nat → ℝ

/-- A slice has the charge, the means, and the covariances of the transverse coordinates of a cloud. -/
structure Stands (s : Slice ℝ) (l : Cloud ℝ) : Prop where
  charge : total l = s.q
  mean : ∀ i < 6, first l i = s.q * s.x i
  cov : ∀ i < 4, ∀ j < 4, second l s.x i j = s.q * LinMap.sig 4 s.c i j

/-- All particles of a cloud have the momentum of the slice. -/
def OneMomentum (s : Slice ℝ) (l : Cloud ℝ) : Prop := ∀ p ∈ l, p.2 5 = s.x 5

/-- All particles of a cloud have the place of the slice within the bunch. -/
def OnePlace (s : Slice ℝ) (l : Cloud ℝ) : Prop := ∀ p ∈ l, p.2 4 = s.x 4

/-- Each particle of a cloud is moved. -/
def moved (f : Pt → Pt) (l : Cloud ℝ) : Cloud ℝ := l.map fun p => (p.1, f p.2)

/-- Whatever cloud a slice stands for: after the step it stands for the same charges, each moved as `R` says. -/
def Follows (R : Pt → Pt → Prop) (s s' : Slice ℝ) : Prop := ∀ l, Stands s l → OneMomentum s l →
  ∃ f, (∀ p ∈ l, R p.2 (f p.2)) ∧ Stands s' (moved f l) ∧ OneMomentum s' (moved f l)

/-- One motion after the other. -/
def After (R R' : Pt → Pt → Prop) (p r : Pt) : Prop := ∃ q, R p q ∧ R' q r

/-- A particle is carried over the length `s` by the equation of motion `V`. -/
def Carried (V : Pt → Pt) (s : ℝ) (p p' : Pt) : Prop := ∃ o : ℝ → Pt,
  (∀ i < 6, o 0 i = p i) ∧ (∀ i < 6, o s i = p' i) ∧ ∀ t, ∀ i < 6, HasDerivAt (fun t => o t i) (V (o t) i) t

/-- The motion in the dipole `k0` and the gradient `k1` (imaginary parts skew), in units of the reference momentum: the
field at `x + i y` is `k0 + k1 (x + i y)`. -/
def straight (k0 k1 : Cx ℝ) (p : Pt) : Pt
  | 0 => p 1
  | 1 => -(k0.re + (k1.re * p 0 - k1.im * p 2)) / (1 + p 5)
  | 2 => p 3
  | 3 => (k0.im + (k1.re * p 2 + k1.im * p 0)) / (1 + p 5)
  | _ => 0

/-- The linear motion about a circle of curvature `h` with the gradient `k`, the last coordinate being the deviation from
the momentum that belongs to the circle. -/
def circle (h k : ℝ) (p : Pt) : Pt
  | 0 => p 1
  | 1 => -(h * h + k) * p 0 + h * p 5
  | 2 => p 3
  | 3 => k * p 2
  | 4 => -h * p 0
  | _ => 0

/-- A particle with its momentum deviation relative to another momentum: `p0 (1 + dp) = p1 (1 + dp')`. -/
def relative (p0 p1 : ℝ) (p : Pt) : Pt := fun i => if i = 5 then p0 * (1 + p 5) / p1 - 1 else p i

/-- Rotation about the axis. -/
def turned (a : ℝ) (p : Pt) : Pt
  | 0 => Real.cos a * p 0 - Real.sin a * p 2
  | 1 => Real.cos a * p 1 - Real.sin a * p 3
  | 2 => Real.sin a * p 0 + Real.cos a * p 2
  | 3 => Real.sin a * p 1 + Real.cos a * p 3
  | n => p n

/-- A particle without deviations of momentum and place. -/
def flat (p : Pt) : Pt := fun i => if i < 4 then p i else 0

/-- The motion in a bend of curvature `h` with the gradient `k`: the momentum deviation is kept, and relative to the momentum
`p1` that belongs to the circle the particle moves about it. -/
def Bent (p0 p1 h k s : ℝ) (p p' : Pt) : Prop :=
  p' 5 = p 5 ∧ Carried (circle h k) s (relative p0 p1 p) (relative p0 p1 p')

/-- Focusing by the edge of a field with the strengths `u` and `v` of the two planes. -/
def edged (u v : ℝ) (p : Pt) : Pt
  | 1 => p 1 + u * p 0
  | 3 => p 3 + v * p 2
  | n => p n

/-- Deflection by a short magnet with the integrated field `k0 + k1 (x + i y)`. -/
def deflected (k0 k1 : Cx ℝ) (p : Pt) : Pt
  | 1 => p 1 - (k0.re + (k1.re * p 0 - k1.im * p 2)) / (1 + p 5)
  | 3 => p 3 + (k0.im + (k1.re * p 2 + k1.im * p 0)) / (1 + p 5)
  | n => p n

/-- The motion inside a longitudinal field of strength `k` for the reference momentum. -/
def gyrating (k : ℝ) (p : Pt) : Pt
  | 0 => p 1
  | 1 => k * p 3
  | 2 => p 3
  | 3 => -k * p 1
  | _ => 0

/-- The edge of a longitudinal field that rises by `k`. -/
def rising (k : ℝ) (p : Pt) : Pt
  | 1 => p 1 + k / 2 * p 2
  | 3 => p 3 - k / 2 * p 0
  | n => p n

/-- What a step leaves as it is: charge and momentum deviation. -/
def Kept (s s' : Slice ℝ) : Prop := s'.q = s.q ∧ s'.x 5 = s.x 5

/-- A bunch after a step without acceleration: each slice has moved as its particles do. -/
structure Tracked (R : Pt → Pt → Prop) (b b' : SBunch ℝ) : Prop where
  p0 : b'.p0 = b.p0
  ct0 : b'.ct0 = b.ct0
  charge : b'.qt = b.qt
  slices : List.Forall₂ (fun s s' => Kept s s' ∧ Follows R s s') b.slices b'.slices

/-- The strength of a component of a field in units of the momentum `p0`; `ec` turns fields into momentum per length. -/
def component (ec q p0 : ℝ) (m : MField ℝ) (n : Nat) : Cx ℝ := Cx.smul (q * ec / p0 * m.b0) (m.terms.getD n 0)

/-- The momentum of a slice. -/
def momentum (p0 : ℝ) (s : Slice ℝ) : ℝ := p0 * (1 + s.x 5)

/-- The square of the emittance in the plane that begins with coordinate `o`. -/
def emittance2 (s : Slice ℝ) (o : Nat) : ℝ :=
  LinMap.sig 4 s.c o o * LinMap.sig 4 s.c (o + 1) (o + 1) - LinMap.sig 4 s.c (o + 1) o ^ 2

/-- A position along a straight line in an accelerating field: the transverse momentum `w` stays and the momentum grows as
`P + a t`. -/
def Accelerated (P a w ds x y : ℝ) : Prop := ∃ o : ℝ → ℝ, o 0 = x ∧ o ds = y ∧
  ∀ t ∈ Set.Icc 0 ds, HasDerivAt o (w / (P + a * t)) t

/-- The elements of a line: a drift, a straight magnet with its length and field, a bend with its curvature, the momentum of
its circle, and its field. -/
inductive Elem where
  | drift (l : ℝ)
  | magnet (l : ℝ) (m : MField ℝ)
  | bend (l h p1 : ℝ) (m : MField ℝ)

/-- How a particle, given relative to the momentum `p0`, moves through an element. -/
def Elem.motion (ec q p0 : ℝ) : Elem → Pt → Pt → Prop
  | .drift l => Carried (straight 0 0) l
  | .magnet l m => Carried (straight (component ec q p0 m 0) (component ec q p0 m 1)) l
  | .bend l h p1 m => Bent p0 p1 h (component ec q p0 m 1).re l

/-- How a particle moves through a line. -/
def through (ec q p0 : ℝ) : List Elem → Pt → Pt → Prop
  | [] => fun p p' => p' = p
  | e :: l => After (e.motion ec q p0) (through ec q p0 l)

end

end Verif.SMPMaps.Spec
