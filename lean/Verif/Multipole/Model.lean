import Mathlib.Algebra.Order.Field.Basic
import Mathlib.Tactic.Ring
import Verif.Common.Outcome

/-!
# Model of `MultipoleField`

Merlin++/MultipoleField.h, Merlin++/MultipoleField.cpp and Merlin++/SectorBend.cpp.  Doubles are elements of a
linearly ordered field; `Complex` is the pair of real and imaginary part with the usual operations.
-/

namespace Verif.Multipole
open Verif

/-- `Complex` (Complex.h: `std::complex<double>`). -/
@[ext] structure Cx (K : Type) where
  re : K
  im : K
  deriving DecidableEq, Repr

namespace Cx
variable {K : Type}

instance [Zero K] : Zero (Cx K) := ⟨⟨0, 0⟩⟩
instance [Zero K] [One K] : One (Cx K) := ⟨⟨1, 0⟩⟩
instance [Add K] : Add (Cx K) := ⟨fun a b => ⟨a.re + b.re, a.im + b.im⟩⟩
instance [Neg K] : Neg (Cx K) := ⟨fun a => ⟨-a.re, -a.im⟩⟩
instance [Mul K] [Add K] [Sub K] : Mul (Cx K) := ⟨fun a b => ⟨a.re * b.re - a.im * b.im, a.re * b.im + a.im * b.re⟩⟩

variable [CommRing K]

@[simp] theorem zero_re : (0 : Cx K).re = 0 := rfl
@[simp] theorem zero_im : (0 : Cx K).im = 0 := rfl
@[simp] theorem one_re : (1 : Cx K).re = 1 := rfl
@[simp] theorem one_im : (1 : Cx K).im = 0 := rfl
@[simp] theorem add_re (a b : Cx K) : (a + b).re = a.re + b.re := rfl
@[simp] theorem add_im (a b : Cx K) : (a + b).im = a.im + b.im := rfl
@[simp] theorem neg_re (a : Cx K) : (-a).re = -a.re := rfl
@[simp] theorem neg_im (a : Cx K) : (-a).im = -a.im := rfl
@[simp] theorem mul_re (a b : Cx K) : (a * b).re = a.re * b.re - a.im * b.im := rfl
@[simp] theorem mul_im (a b : Cx K) : (a * b).im = a.re * b.im + a.im * b.re := rfl

instance : CommRing (Cx K) where
  add_assoc a b c := by ext <;> simp <;> ring
  zero_add a := by ext <;> simp
  add_zero a := by ext <;> simp
  add_comm a b := by ext <;> simp <;> ring
  left_distrib a b c := by ext <;> simp <;> ring
  right_distrib a b c := by ext <;> simp <;> ring
  zero_mul a := by ext <;> simp
  mul_zero a := by ext <;> simp
  mul_assoc a b c := by ext <;> simp <;> ring
  one_mul a := by ext <;> simp
  mul_one a := by ext <;> simp
  mul_comm a b := by ext <;> simp <;> ring
  neg_add_cancel a := by ext <;> simp
  nsmul := nsmulRec
  zsmul := zsmulRec

/-- Product of a real and a complex number. -/
def smul (k : K) (z : Cx K) : Cx K := ⟨k * z.re, k * z.im⟩

end Cx

/-- `Vector3D`. -/
@[ext] structure Vec (K : Type) where
  x : K
  y : K
  z : K
  deriving DecidableEq, Repr

variable {K : Type} [Field K] [LinearOrder K]

/-- `MultipoleField` (MultipoleField.h 198-205). -/
structure MField (K : Type) where
  b0 : K
  terms : List (Cx K)
  deriving DecidableEq, Repr

/-- The loop of `factorial` (MultipoleField.cpp 23-26): `while(n > 1) f *= n--`. -/
def factLoop : Nat → K → K
  | 0, f => f
  | n + 1, f => if n + 1 > 1 then factLoop n (f * ((n + 1 : Nat) : K)) else f

/-- `factorial` (MultipoleField.cpp 20-28); for zero the loop is entered with −1 and left at once. -/
def factorial (n : Nat) : K :=
  let f : K := factLoop (n - 1) (n : K)
  if f = 0 then 1 else f

/-- The field with no terms but a scale (MultipoleField.h 208-211). -/
def mkNull (scale : K) (nt : Nat) : MField K := ⟨scale, List.replicate nt 0⟩

/-- `MultipoleField(int, double, double, double)` (MultipoleField.cpp 32-39), with the value of `abs` given. -/
def mkNorm (absz : K) (np : Nat) (bn an r0 : K) : MField K :=
  ⟨absz / r0 ^ np, (List.replicate (np + 1) 0).set np ⟨bn / absz, an / absz⟩⟩

/-- `MultipoleField(int, double, double, bool)` (MultipoleField.cpp 41-46). -/
def mkRadius (np : Nat) (bn r0 : K) (skew : Bool) : MField K :=
  ⟨bn / r0 ^ np, (List.replicate (np + 1) 0).set np (if skew then ⟨0, 1⟩ else ⟨1, 0⟩)⟩

/-- `MultipoleField(int, double, bool)` (MultipoleField.cpp 48-52). -/
def mkGrad (np : Nat) (bn : K) (skew : Bool) : MField K :=
  ⟨bn / factorial np, (List.replicate (np + 1) 0).set np (if skew then ⟨0, 1⟩ else ⟨1, 0⟩)⟩

/-- `IsNullField` (MultipoleField.h 213-216), with the machine epsilon of `fequal` (utils.h 16-19) given. -/
def isNull (eps : K) (m : MField K) : Bool := decide (|m.b0 - 0| ≤ eps)

/-- `GetKn` (MultipoleField.cpp 64-68) for a non-negative order. -/
def getKn (m : MField K) (np : Nat) (rigidity : K) : Outcome Unit (Cx K) :=
  if rigidity = 0 then .ub
  else match m.terms[np]? with
    | some c => .ok (Cx.smul (m.b0 / rigidity * factorial np) c)
    | none => .ok 0

/-- The first loop of `GetField2D` (MultipoleField.cpp 84-87). -/
def powLoop (z0 : Cx K) : Nat → Cx K → Cx K
  | 0, z => z
  | n + 1, z => powLoop z0 n (z * z0)

/-- The second loop of `GetField2D` (MultipoleField.cpp 89-96). -/
def sumLoop (z0 : Cx K) : List (Cx K) → Cx K → Cx K → Cx K
  | [], b, _ => b
  | t :: ts, b, z => sumLoop z0 ts (b + t * z) (z * z0)

/-- `GetField2D` (MultipoleField.cpp 70-99); an iterator before the beginning is undefined. -/
def getField2D (eps : K) (m : MField K) (x y : K) (exclude : Int) : Outcome Unit (Cx K) :=
  if isNull eps m then .ok 0
  else if exclude + 1 > m.terms.length then .ok 0
  else if exclude + 1 < 0 then .ub
  else
    let e := (exclude + 1).toNat
    .ok (Cx.smul m.b0 (sumLoop ⟨x, y⟩ (m.terms.drop e) 0 (powLoop ⟨x, y⟩ e 1)))

/-- `GetBFieldAt` (MultipoleField.cpp 101-105). -/
def getBField (eps : K) (m : MField K) (p : Vec K) : Outcome Unit (Vec K) :=
  (getField2D eps m p.x p.y (-1)).bind (fun b => .ok ⟨b.im, b.re, 0⟩)

/-- `GetForceAt` (MultipoleField.cpp 112-118). -/
def getForce (eps : K) (m : MField K) (p v : Vec K) (q : K) : Outcome Unit (Vec K) :=
  (getField2D eps m p.x p.y (-1)).bind (fun b =>
    let qBx := q * b.im
    let qBy := q * b.re
    .ok ⟨-qBy * v.z, qBx * v.z, qBy * v.x - qBx * v.y⟩)

/-- The loop of `RotateY180` (MultipoleField.cpp 126-138). -/
def rotLoop : Bool → List (Cx K) → List (Cx K)
  | _, [] => []
  | even, z :: l => (if even then ⟨z.re, -z.im⟩ else ⟨-z.re, z.im⟩) :: rotLoop (!even) l

/-- `RotateY180` (MultipoleField.cpp 120-139). -/
def rotateY180 (m : MField K) : MField K := { m with terms := rotLoop false m.terms }

/-- The `resize` before an access (MultipoleField.cpp 152-155, 167-170, 177-180). -/
def grow (np : Nat) (l : List (Cx K)) : List (Cx K) := l ++ List.replicate (np + 1 - l.length) 0

/-- `SetComponent` (MultipoleField.cpp 148-158). -/
def setComponent (m : MField K) (np : Nat) (bn an r0 : K) : Outcome Unit (MField K) :=
  if m.b0 = 0 then .ub
  else .ok { m with terms := (grow np m.terms).set np ⟨bn / (m.b0 * r0 ^ np), an / (m.b0 * r0 ^ np)⟩ }

/-- `GetCoefficient` (MultipoleField.cpp 165-173): the value, and the field, whose expansion grows. -/
def getCoefficient (m : MField K) (np : Nat) (r0 : K) : Cx K × MField K :=
  (Cx.smul (r0 ^ np) ((grow np m.terms)[np]?.getD 0), { m with terms := grow np m.terms })

/-- `GetComponent` (MultipoleField.cpp 160-163). -/
def getComponent (m : MField K) (np : Nat) (r0 : K) : Cx K × MField K :=
  (Cx.smul m.b0 (getCoefficient m np r0).1, (getCoefficient m np r0).2)

/-- `SetCoefficient` (MultipoleField.cpp 175-182). -/
def setCoefficient (m : MField K) (np : Nat) (b : Cx K) (r0 : K) : MField K :=
  { m with terms := (grow np m.terms).set np ⟨b.re / r0 ^ np, b.im / r0 ^ np⟩ }

/-- `HighestMultipole` (MultipoleField.h 218-221). -/
def highest (m : MField K) : Int := (m.terms.length : Int) - 1

/-- The loop of `LowestMultipole` (MultipoleField.h 223-229): reading past the end is undefined. -/
def lowLoop : List (Cx K) → Nat → Outcome Unit Nat
  | [], _ => .ub
  | c :: l, n => if c = 0 then lowLoop l (n + 1) else .ok n

/-- `LowestMultipole` (MultipoleField.h 223-229). -/
def lowest (m : MField K) : Outcome Unit Nat := lowLoop m.terms 0

/-- `SectorBend` as far as the rotation is concerned: field, curvature, pole faces at entrance and exit. -/
structure Bend (K P : Type) where
  field : MField K
  h : K
  entrance : P
  exit : P
  deriving DecidableEq

/-- `SectorBend::RotateY180` (SectorBend.cpp 58-64). -/
def Bend.rotateY180 {P : Type} (b : Bend K P) : Bend K P :=
  ⟨Multipole.rotateY180 b.field, -b.h, b.exit, b.entrance⟩

end Verif.Multipole
