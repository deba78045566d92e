import Verif.Aperture.Model

/-!
# Specification of apertures
-/

namespace Verif.Aperture.Spec
open Verif Verif.Aperture

variable {K : Type} [Field K] [LinearOrder K]

/-- Shapes in the transverse plane.  The corners of an octagon are cut by the straight line through
`(hx, hx * t1)` and `(hy * t2, hy)`. -/
inductive Shape (K : Type) where
  | circle (r : K)
  | rect (hx hy : K)
  | ellipse (a b : K)
  | rectEllipse (hx hy a b : K)
  | octagon (hx hy t1 t2 : K)

/-- Twice the signed area of the triangle `a b p`. -/
def area (a b p : K × K) : K := (b.1 - a.1) * (p.2 - a.2) - (b.2 - a.2) * (p.1 - a.1)

/-- Points strictly inside a shape. -/
def Inside : Shape K → K → K → Prop
  | .circle r, x, y => x ^ 2 + y ^ 2 < r ^ 2
  | .rect hx hy, x, y => |x| < hx ∧ |y| < hy
  | .ellipse a b, x, y => x ^ 2 / a ^ 2 + y ^ 2 / b ^ 2 < 1
  | .rectEllipse hx hy a b, x, y => (|x| < hx ∧ |y| < hy) ∧ x ^ 2 / a ^ 2 + y ^ 2 / b ^ 2 < 1
  | .octagon hx hy t1 t2, x, y => (|x| < hx ∧ |y| < hy) ∧
      0 < area (hx, hx * t1) (hy * t2, hy) (|x|, |y|) * area (hx, hx * t1) (hy * t2, hy) (0, 0)

/-- Points of a shape or of its boundary. -/
def InsideOrOn : Shape K → K → K → Prop
  | .circle r, x, y => x ^ 2 + y ^ 2 ≤ r ^ 2
  | .rect hx hy, x, y => |x| ≤ hx ∧ |y| ≤ hy
  | .ellipse a b, x, y => x ^ 2 / a ^ 2 + y ^ 2 / b ^ 2 ≤ 1
  | .rectEllipse hx hy a b, x, y => (|x| ≤ hx ∧ |y| ≤ hy) ∧ x ^ 2 / a ^ 2 + y ^ 2 / b ^ 2 ≤ 1
  | .octagon hx hy t1 t2, x, y => (|x| ≤ hx ∧ |y| ≤ hy) ∧
      0 ≤ area (hx, hx * t1) (hy * t2, hy) (|x|, |y|) * area (hx, hx * t1) (hy * t2, hy) (0, 0)

/-- Positive dimensions; the cut of an octagon begins and ends on its rectangle and is not only the
corner. -/
def Proper : Shape K → Prop
  | .circle r => 0 < r
  | .rect hx hy => 0 < hx ∧ 0 < hy
  | .ellipse a b => 0 < a ∧ 0 < b
  | .rectEllipse hx hy a b => 0 < hx ∧ 0 < hy ∧ 0 < a ∧ 0 < b
  | .octagon hx hy t1 t2 => 0 < hx ∧ 0 < hy ∧ 0 ≤ t1 ∧ 0 ≤ t2 ∧ hx * t1 ≤ hy ∧ hy * t2 ≤ hx ∧ t1 * t2 < 1

/-- The shape described by four numbers for a type. -/
def shape (tan : K → K) (pi : K) : Kind → K → K → K → K → Shape K
  | .circle, a, _, _, _ => .circle a
  | .rect, a, b, _, _ => .rect a b
  | .ellipse, a, b, _, _ => .ellipse a b
  | .rectEllipse, a, b, c, d => .rectEllipse a b c d
  | .octagon, a, b, c, d => .octagon a b (tan c) (tan (pi / 2 - d))

/-- The value at `z` on the straight line through `(s0, v0)` and `(s1, v1)`. -/
def between (s0 v0 s1 v1 z : K) : K := (v0 * (s1 - z) + v1 * (z - s0)) / (s1 - s0)

/-- Neighbouring rows of a table around a place. -/
def Around (l : List (Row K)) (z : K) (a b : Row K) : Prop :=
  (∃ p q, l = p ++ a :: b :: q) ∧ a.s ≤ z ∧ z ≤ b.s

/-- The shape with dimensions interpolated between two rows. -/
def shapeAt (tan : K → K) (pi : K) (k : Kind) (a b : Row K) (z : K) : Shape K :=
  shape tan pi k (between a.s a.ap1 b.s b.ap1 z) (between a.s a.ap2 b.s b.ap2 z)
    (between a.s a.ap3 b.s b.ap3 z) (between a.s a.ap4 b.s b.ap4 z)

/-- The opening of a tapered, shifted and tilted pair of collimator jaws at the fraction `u` of its length:
all dimensions change linearly. -/
def Opening (w0 w1 h0 h1 x0 x1 y0 y1 c s u x y : K) : Prop :=
  let dx := x - ((1 - u) * x0 + u * x1)
  let dy := y - ((1 - u) * y0 + u * y1)
  |dx * c - dy * s| < ((1 - u) * w0 + u * w1) / 2 ∧ |dx * s + dy * c| < ((1 - u) * h0 + u * h1) / 2

end Verif.Aperture.Spec
