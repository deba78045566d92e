import Verif.Rotation.Model

/-!
# What a rotation is

A map of three-dimensional space onto itself that is linear and keeps scalar and vector products.
Only the coordinates of `V3` are used here, none of the rotation classes.
-/

namespace Verif.Rotation.Spec
open Verif.Rotation

variable {K : Type} [Field K]

def dot (p q : V3 K) : K := p.x * q.x + p.y * q.y + p.z * q.z

def cross (p q : V3 K) : V3 K :=
  ⟨p.y * q.z - p.z * q.y, p.z * q.x - p.x * q.z, p.x * q.y - p.y * q.x⟩

def add (p q : V3 K) : V3 K := ⟨p.x + q.x, p.y + q.y, p.z + q.z⟩

def smul (a : K) (p : V3 K) : V3 K := ⟨a * p.x, a * p.y, a * p.z⟩

/-- Proper rotation of space. -/
structure IsRotation (f : V3 K → V3 K) : Prop where
  add : ∀ p q, f (add p q) = Spec.add (f p) (f q)
  smul : ∀ a p, f (smul a p) = Spec.smul a (f p)
  dot : ∀ p q, Spec.dot (f p) (f q) = Spec.dot p q
  cross : ∀ p q, f (cross p q) = Spec.cross (f p) (f q)

/-- Rotation by 180 degrees about an axis. -/
def halfX (p : V3 K) : V3 K := ⟨p.x, -p.y, -p.z⟩
def halfY (p : V3 K) : V3 K := ⟨-p.x, p.y, -p.z⟩
def halfZ (p : V3 K) : V3 K := ⟨-p.x, -p.y, p.z⟩

/-- The meaning of an expression, as a relation between a point and its image: axis rotations turn
the coordinate axes by the angle, `mul` is composition, `inv` the inverse relation, the others are
conjugation with a half turn. -/
def Means (cos sin : K → K) : Expr K → V3 K → V3 K → Prop
  | .identity, p, q => q = p
  | .rotationX a, p, q => q = ⟨p.x, cos a * p.y + sin a * p.z, cos a * p.z - sin a * p.y⟩
  | .rotationY a, p, q => q = ⟨cos a * p.x - sin a * p.z, p.y, cos a * p.z + sin a * p.x⟩
  | .rotationZ a, p, q => q = ⟨cos a * p.x + sin a * p.y, cos a * p.y - sin a * p.x, p.z⟩
  | .mul e f, p, q => ∃ r, Means cos sin f p r ∧ Means cos sin e r q
  | .inv e, p, q => Means cos sin e q p
  | .xPI e, p, q => Means cos sin e (halfX p) (halfX q)
  | .yPI e, p, q => Means cos sin e (halfY p) (halfY q)
  | .zPI e, p, q => Means cos sin e (halfZ p) (halfZ q)

end Verif.Rotation.Spec
