import Mathlib.Algebra.Field.Defs
import Mathlib.Tactic.Ring

/-!
# Model of `Rotation3D` and its letter classes

Merlin++/Rotation3D.h, Rot3Drep.cpp, IdentityRotation.cpp, AxisRotations.cpp, GeneralRotation.cpp,
RotationMatrix.h, Space3D.h.  `double` is an arbitrary field `K`; the functions `cos` and `sin` are
parameters.  Double dispatch (`dot`/`dotBy`) is a match on both representations; the reference
counting of the representations is modelled in `Verif/RefCount`.
-/

namespace Verif.Rotation

/-- `TVec3D` (`Point3D`, `Vector3D`), Space3D.h:26-96. -/
@[ext] structure V3 (K : Type) where
  x : K
  y : K
  z : K
  deriving DecidableEq

/-- A 3x3 `RealMatrix`. -/
@[ext] structure M3 (K : Type) where
  m00 : K
  m01 : K
  m02 : K
  m10 : K
  m11 : K
  m12 : K
  m20 : K
  m21 : K
  m22 : K
  deriving DecidableEq

variable {K : Type} [Field K] [DecidableEq K]

/-- Matrix product, LinearAlgebra / TLAS `operator*`: row by column. -/
def M3.mul (a b : M3 K) : M3 K :=
  ⟨a.m00 * b.m00 + a.m01 * b.m10 + a.m02 * b.m20, a.m00 * b.m01 + a.m01 * b.m11 + a.m02 * b.m21,
   a.m00 * b.m02 + a.m01 * b.m12 + a.m02 * b.m22,
   a.m10 * b.m00 + a.m11 * b.m10 + a.m12 * b.m20, a.m10 * b.m01 + a.m11 * b.m11 + a.m12 * b.m21,
   a.m10 * b.m02 + a.m11 * b.m12 + a.m12 * b.m22,
   a.m20 * b.m00 + a.m21 * b.m10 + a.m22 * b.m20, a.m20 * b.m01 + a.m21 * b.m11 + a.m22 * b.m21,
   a.m20 * b.m02 + a.m21 * b.m12 + a.m22 * b.m22⟩

/-- `DECL_XROT`, RotationMatrix.h:16-23. -/
def declX (c s : K) : M3 K := ⟨1, 0, 0, 0, c, s, 0, -s, c⟩

/-- `DECL_YROT`, RotationMatrix.h:28-35. -/
def declY (c s : K) : M3 K := ⟨c, 0, -s, 0, 1, 0, s, 0, c⟩

/-- `DECL_ZROT`, RotationMatrix.h:40-47. -/
def declZ (c s : K) : M3 K := ⟨c, s, 0, -s, c, 0, 0, 0, 1⟩

/-- The classes derived from `Rot3Drep`: identity, the three axis rotations with cosine and sine, and
a general matrix. -/
inductive Rep (K : Type) where
  | ident
  | x (c s : K)
  | y (c s : K)
  | z (c s : K)
  | gen (m : M3 K)
  deriving DecidableEq

/-- `RotationType`, RotationType.h. -/
inductive RType where
  | ident | xrot | yrot | zrot | mixed
  deriving DecidableEq

namespace Rep

/-- `rotate`: IdentityRotation.cpp:17-25, AxisRotations.cpp:23-31, 104-112, 185-193,
GeneralRotation.cpp:148-162 (points and vectors have the same code). -/
def rotate : Rep K → V3 K → V3 K
  | ident, p => p
  | x c s, p => ⟨p.x, p.y * c + p.z * s, -p.y * s + p.z * c⟩
  | y c s, p => ⟨p.x * c - p.z * s, p.y, p.z * c + p.x * s⟩
  | z c s, p => ⟨p.x * c + p.y * s, p.y * c - p.x * s, p.z⟩
  | gen m, p => ⟨m.m00 * p.x + m.m01 * p.y + m.m02 * p.z, m.m10 * p.x + m.m11 * p.y + m.m12 * p.z,
      m.m20 * p.x + m.m21 * p.y + m.m22 * p.z⟩

/-- The two-axis constructors, GeneralRotation.cpp:18-112: `genXY` is `GeneralRotation(rx, ry)` etc.
The arguments are in the order cosine and sine of the first, then of the second rotation. -/
def genXY (cx sx cy sy : K) : M3 K :=
  ⟨cy, 0, -sy, sx * sy, cx, sx * cy, cx * sy, -sx, cx * cy⟩
def genXZ (cx sx cz sz : K) : M3 K :=
  ⟨cz, sz, 0, -cx * sz, cx * cz, sx, sx * sz, -cz * sx, cx⟩
def genYX (cy sy cx sx : K) : M3 K :=
  ⟨cy, sx * sy, -cx * sy, 0, cx, sx, sy, -cy * sx, cx * cy⟩
def genYZ (cy sy cz sz : K) : M3 K :=
  ⟨cy * cz, cy * sz, -sy, -sz, cz, 0, cz * sy, sy * sz, cy⟩
def genZX (cz sz cx sx : K) : M3 K :=
  ⟨cz, cx * sz, sx * sz, -sz, cx * cz, cz * sx, 0, -sx, cx⟩
def genZY (cz sz cy sy : K) : M3 K :=
  ⟨cy * cz, sz, -cz * sy, -cy * sz, cz, sy * sz, sy, 0, cy⟩

/-- Composition of two rotations about the same axis: `self.dotBy(other)`,
AxisRotations.cpp:38-50, 124-136, 210-222. -/
def sameAxis (mk : K → K → Rep K) (c s c' s' : K) : Rep K :=
  let ncos := c * c' - s * s'
  if ncos = 1 then ident else mk ncos (s * c' + c * s')

/-- `a.dot(b)` resolved by double dispatch: `a.dot(b)` calls `b.dotBy(a)`; for the identity on the left
it returns `b`, for the identity on the right `a`.  IdentityRotation.cpp:32-55,
AxisRotations.cpp:33-65, 114-146, 195-227, GeneralRotation.cpp:114-127, 164-187. -/
def dot : Rep K → Rep K → Rep K
  | ident, b => b
  | x c s, ident => x c s
  | y c s, ident => y c s
  | z c s, ident => z c s
  | gen m, ident => gen m
  | x c s, x c' s' => sameAxis x c' s' c s
  | y c s, x c' s' => gen (genYX c s c' s')
  | z c s, x c' s' => gen (genZX c s c' s')
  | gen m, x c' s' => gen (m.mul (declX c' s'))
  | x c s, y c' s' => gen (genXY c s c' s')
  | y c s, y c' s' => sameAxis y c' s' c s
  | z c s, y c' s' => gen (genZY c s c' s')
  | gen m, y c' s' => gen (m.mul (declY c' s'))
  | x c s, z c' s' => gen (genXZ c s c' s')
  | y c s, z c' s' => gen (genYZ c s c' s')
  | z c s, z c' s' => sameAxis z c' s' c s
  | gen m, z c' s' => gen (m.mul (declZ c' s'))
  | x c s, gen m' => gen ((declX c s).mul m')
  | y c s, gen m' => gen ((declY c s).mul m')
  | z c s, gen m' => gen ((declZ c s).mul m')
  | gen m, gen m' => gen (m.mul m')

/-- `inv`: IdentityRotation.cpp:12-15, AxisRotations.cpp:18-21, 99-102, 180-183,
GeneralRotation.cpp:129-146 (transposition). -/
def inv : Rep K → Rep K
  | ident => ident
  | x c s => x c (-s)
  | y c s => y c (-s)
  | z c s => z c (-s)
  | gen m => gen ⟨m.m00, m.m10, m.m20, m.m01, m.m11, m.m21, m.m02, m.m12, m.m22⟩

/-- `type`. -/
def type : Rep K → RType
  | ident => .ident
  | x _ _ => .xrot
  | y _ _ => .yrot
  | z _ _ => .zrot
  | gen _ => .mixed

/-- `isIdentity`: Rot3Drep.cpp:22-25, IdentityRotation.cpp:27-30, GeneralRotation.cpp:194-197. -/
def isIdentity : Rep K → Bool
  | ident => true
  | gen m => decide (m.m00 = 1) && decide (m.m11 = 1) && decide (m.m22 = 1)
  | _ => false

/-- `isXrot`: Rot3Drep.cpp:27-30, AxisRotations.cpp:72-75, GeneralRotation.cpp:199-202. -/
def isXrot : Rep K → Bool
  | x _ _ => true
  | gen m => decide (m.m00 = 1) && decide (m.m01 = 0) && decide (m.m02 = 0)
  | _ => false

/-- `isYrot`: Rot3Drep.cpp:32-35, AxisRotations.cpp:153-156, GeneralRotation.cpp:204-207. -/
def isYrot : Rep K → Bool
  | y _ _ => true
  | gen m => decide (m.m10 = 0) && decide (m.m11 = 1) && decide (m.m12 = 0)
  | _ => false

/-- `isZrot`: Rot3Drep.cpp:37-40, AxisRotations.cpp:234-237, GeneralRotation.cpp:209-212. -/
def isZrot : Rep K → Bool
  | z _ _ => true
  | gen m => decide (m.m20 = 0) && decide (m.m21 = 0) && decide (m.m22 = 1)
  | _ => false

/-- `rotXbyPI`: IdentityRotation.cpp:62-65, AxisRotations.cpp:77-80, 158-161, 239-242,
GeneralRotation.cpp:214-222. -/
def rotXbyPI : Rep K → Rep K
  | ident => ident
  | x c s => x c s
  | y c s => y c (-s)
  | z c s => z c (-s)
  | gen m => gen { m with m01 := m.m01 * -1, m02 := m.m02 * -1, m10 := m.m10 * -1, m20 := m.m20 * -1 }

/-- `rotYbyPI`: IdentityRotation.cpp:67-70, AxisRotations.cpp:82-85, 163-166, 244-247,
GeneralRotation.cpp:224-232. -/
def rotYbyPI : Rep K → Rep K
  | ident => ident
  | x c s => x c (-s)
  | y c s => y c s
  | z c s => z c (-s)
  | gen m => gen { m with m01 := m.m01 * -1, m10 := m.m10 * -1, m12 := m.m12 * -1, m21 := m.m21 * -1 }

/-- `rotZbyPI`: IdentityRotation.cpp:72-75, AxisRotations.cpp:87-90, 168-171, 249-252,
GeneralRotation.cpp:234-242. -/
def rotZbyPI : Rep K → Rep K
  | ident => ident
  | x c s => x c (-s)
  | y c s => y c (-s)
  | z c s => z c s
  | gen m => gen { m with m02 := m.m02 * -1, m12 := m.m12 * -1, m20 := m.m20 * -1, m21 := m.m21 * -1 }

/-- `getMatrix`: IdentityRotation.cpp:77-80, AxisRotations.cpp:92-95, 173-176, 254-257,
GeneralRotation.cpp:244-247. -/
def getMatrix : Rep K → M3 K
  | ident => ⟨1, 0, 0, 0, 1, 0, 0, 0, 1⟩
  | x c s => declX c s
  | y c s => declY c s
  | z c s => declZ c s
  | gen m => m

end Rep

/-- Factories `rotationX/Y/Z`, Rot3Drep.cpp:47-81 (constructor from an angle:
`cosphi(cos(phi)), sinphi(sin(phi))`, AxisRotations.h). -/
def rotationX (cos sin : K → K) (a : K) : Rep K := if a = 0 then .ident else .x (cos a) (sin a)
def rotationY (cos sin : K → K) (a : K) : Rep K := if a = 0 then .ident else .y (cos a) (sin a)
def rotationZ (cos sin : K → K) (a : K) : Rep K := if a = 0 then .ident else .z (cos a) (sin a)

/-- An expression over the public interface of `Rotation3D`. -/
inductive Expr (K : Type) where
  | identity
  | rotationX (a : K)
  | rotationY (a : K)
  | rotationZ (a : K)
  | mul (e f : Expr K)
  | inv (e : Expr K)
  | xPI (e : Expr K)
  | yPI (e : Expr K)
  | zPI (e : Expr K)

/-- The object an expression evaluates to. -/
def Expr.eval (cos sin : K → K) : Expr K → Rep K
  | identity => .ident
  | rotationX a => Rotation.rotationX cos sin a
  | rotationY a => Rotation.rotationY cos sin a
  | rotationZ a => Rotation.rotationZ cos sin a
  | mul e f => (e.eval cos sin).dot (f.eval cos sin)
  | inv e => (e.eval cos sin).inv
  | xPI e => (e.eval cos sin).rotXbyPI
  | yPI e => (e.eval cos sin).rotYbyPI
  | zPI e => (e.eval cos sin).rotZbyPI

end Verif.Rotation
