import Verif.Rotation.Model
import Mathlib.Algebra.Order.Field.Basic

/-!
# Model of `Transform3D` and `Transform2D`

Merlin++/Transform3D.h, Transform3D.cpp, Transform2D.h, Space2D.h, Space3D.h.  `double` is a field,
`fequal` (utils.h:16-19) is modelled with its tolerance `eps` as a parameter.
-/

namespace Verif.Transform
open Verif.Rotation

section
variable {K : Type} [Field K] [DecidableEq K]

/-- `TVec3D` arithmetic, Space3D.h:153-159, 189-198. -/
def vadd (a b : V3 K) : V3 K := ⟨a.x + b.x, a.y + b.y, a.z + b.z⟩
def vsub (a b : V3 K) : V3 K := ⟨a.x - b.x, a.y - b.y, a.z - b.z⟩
def vneg (a : V3 K) : V3 K := ⟨-a.x, -a.y, -a.z⟩

/-- `Transform3D`, data members Transform3D.h:156-164. -/
structure T3 (K : Type) where
  x0 : V3 K
  r : Rep K

/-- Default constructor, Transform3D.h:171-174. -/
def T3.ident : T3 K := ⟨⟨0, 0, 0⟩, .ident⟩

/-- `operator()(Point3D)`, `operator*(Point3D)`, Transform3D.h:196-199, 206-209. -/
def T3.point (t : T3 K) (p : V3 K) : V3 K := t.r.rotate (vsub p t.x0)

/-- `operator()(Vector3D)`, `operator*(Vector3D)`, Transform3D.h:201-204, 211-214. -/
def T3.vector (t : T3 K) (v : V3 K) : V3 K := t.r.rotate v

/-- `operator*=`, Transform3D.cpp:13-19: `this.mulEq t`. -/
def T3.mulEq (this t : T3 K) : T3 K := ⟨vadd this.x0 (this.r.inv.rotate t.x0), t.r.dot this.r⟩

/-- `operator*`, Transform3D.h:216-220. -/
def T3.mul (this t : T3 K) : T3 K := t.mulEq this

/-- `inv`, Transform3D.cpp:21-24. -/
def T3.inv (t : T3 K) : T3 K := ⟨vneg (t.r.rotate t.x0), t.r.inv⟩

/-- `invert`, Transform3D.cpp:26-31. -/
def T3.invert (t : T3 K) : T3 K :=
  let t1 : T3 K := { t with x0 := vneg (t.r.rotate t.x0) }
  { t1 with r := t1.r.inv }

/-- `rotXbyPI`, `rotYbyPI`, `rotZbyPI`, Transform3D.h:222-241. -/
def T3.rotXbyPI (t : T3 K) : T3 K := ⟨⟨t.x0.x, t.x0.y * -1, t.x0.z * -1⟩, t.r.rotXbyPI⟩
def T3.rotYbyPI (t : T3 K) : T3 K := ⟨⟨t.x0.x * -1, t.x0.y, t.x0.z * -1⟩, t.r.rotYbyPI⟩
def T3.rotZbyPI (t : T3 K) : T3 K := ⟨⟨t.x0.x * -1, t.x0.y * -1, t.x0.z⟩, t.r.rotZbyPI⟩

/-- Factories, Transform3D.cpp:33-51, and the constructor from a point and a rotation,
Transform3D.h:176-179. -/
def T3.rotationX (cos sin : K → K) (a : K) : T3 K := ⟨⟨0, 0, 0⟩, Rotation.rotationX cos sin a⟩
def T3.rotationY (cos sin : K → K) (a : K) : T3 K := ⟨⟨0, 0, 0⟩, Rotation.rotationY cos sin a⟩
def T3.rotationZ (cos sin : K → K) (a : K) : T3 K := ⟨⟨0, 0, 0⟩, Rotation.rotationZ cos sin a⟩
def T3.translation (dx dy dz : K) : T3 K := ⟨⟨dx, dy, dz⟩, .ident⟩

/-- `TVec2D`, Space2D.h:24-160. -/
@[ext] structure V2 (K : Type) where
  x : K
  y : K
  deriving DecidableEq

/-- `Rotation2D`, data members Transform2D.h:158-166. -/
@[ext] structure R2 (K : Type) where
  c : K
  s : K
  deriving DecidableEq

/-- Constructor, Transform2D.h:31-34. -/
def R2.ofAngle (cos sin : K → K) (a : K) : R2 K := ⟨cos a, sin a⟩

/-- `operator*=`, Transform2D.h:85-92. -/
def R2.mulEq (this r : R2 K) : R2 K := ⟨r.c * this.c - r.s * this.s, r.s * this.c + r.c * this.s⟩

/-- `operator*`, Transform2D.h:97-100. -/
def R2.mul (r2 r1 : R2 K) : R2 K := ⟨r2.c * r1.c - r2.s * r1.s, r2.s * r1.c + r2.c * r1.s⟩

/-- `inv`, `invert`, Transform2D.h:105-117. -/
def R2.inv (r : R2 K) : R2 K := ⟨r.c, -r.s⟩

/-- `operator()`, Transform2D.h:122-130. -/
def R2.rotate (r : R2 K) (p : V2 K) : V2 K := ⟨r.c * p.x - r.s * p.y, r.s * p.x + r.c * p.y⟩

/-- `Transform2D`, Transform2D.h:176-195. -/
@[ext] structure T2 (K : Type) where
  r : R2 K
  x0 : V2 K
  deriving DecidableEq

/-- Constructor from displacement and angle, Transform2D.h:182-185. -/
def T2.make (cos sin : K → K) (dx dy phi : K) : T2 K := ⟨R2.ofAngle cos sin phi, ⟨dx, dy⟩⟩

/-- `operator*`, Transform2D.h:198-202. -/
def T2.mul (t2 t1 : T2 K) : T2 K :=
  ⟨t2.r.mul t1.r, ⟨(t2.r.rotate t1.x0).x + t2.x0.x, (t2.r.rotate t1.x0).y + t2.x0.y⟩⟩

/-- `operator*=`, Transform2D.h:208-211. -/
def T2.mulEq (this t : T2 K) : T2 K := t.mul this

/-- `invert`, Transform2D.h:225-230 (and `inv`, 216-220). -/
def T2.invert (t : T2 K) : T2 K :=
  let r := t.r.inv
  ⟨r, ⟨-(r.rotate t.x0).x, -(r.rotate t.x0).y⟩⟩

/-- `operator()(Point2D)`, Transform2D.h:288-291. -/
def T2.point (t : T2 K) (p : V2 K) : V2 K :=
  ⟨(t.r.rotate p).x - t.x0.x, (t.r.rotate p).y - t.x0.y⟩

/-- `operator()(Vector2D)`, Transform2D.h:293-296. -/
def T2.vector (t : T2 K) (v : V2 K) : V2 K := t.r.rotate v

/-- `Transform3D(const Transform2D&)`, Transform3D.h:181-184.  The angle is `atan2(sin, cos)`; the
rotation built from it has the cosine and sine of `t.r`, and is the identity when the angle is 0. -/
def T3.ofT2 (t : T2 K) : T3 K :=
  ⟨⟨t.x0.x, t.x0.y, 0⟩, if t.r.c = 1 then .ident else .z t.r.c t.r.s⟩

end

section
variable {K : Type} [Field K] [LinearOrder K]

/-- `fequal`, utils.h:16-19. -/
def fequal (eps x y : K) : Bool := decide (|x - y| ≤ eps)

/-- `TVec3D::isZero`, Space3D.h:206-211. -/
def isZero3 (eps : K) (p : V3 K) : Bool := fequal eps p.x 0 && fequal eps p.y 0 && fequal eps p.z 0

/-- `TVec3D::operator==` and `operator!=`, Space3D.h:128-138. -/
def eq3 (eps : K) (p q : V3 K) : Bool := fequal eps p.x q.x && fequal eps p.y q.y && fequal eps p.z q.z
def ne3 (p q : V3 K) : Bool := decide (p.x ≠ q.x) || decide (p.y ≠ q.y) || decide (p.z ≠ q.z)

/-- `TVec2D::isZero`, Space2D.h:116-120: the second test is written `fequal(y, 0, 0)`, that is with
tolerance 0. -/
def isZero2 (eps : K) (p : V2 K) : Bool := fequal eps p.x 0 && fequal 0 p.y 0

/-- `Transform3D::isIdentity`, Transform3D.h:243-246. -/
def T3.isIdentity (eps : K) (t : T3 K) : Bool := isZero3 eps t.x0 && t.r.isIdentity

/-- `Rotation2D::isIdentity`, Transform2D.h:77-80. -/
def R2.isIdentity (eps : K) (r : R2 K) : Bool := fequal eps r.s 0

/-- `Transform2D::isIdentity`, Transform2D.h:282-285. -/
def T2.isIdentity (eps : K) (t : T2 K) : Bool := isZero2 eps t.x0 && t.r.isIdentity eps

end

end Verif.Transform
