import Mathlib.Analysis.SpecialFunctions.Complex.Arg
import Verif.Multipole.Model
import Verif.Symplectic.Model

/-!
# Model of the components: RF structures and their fields, solenoids, bends with pole faces, copies, collimators

Sources in `Merlin++`: RFStructure.{h,cpp}, SWRFStructure.cpp, TWRFStructure.cpp, TransverseRFStructure.{h,cpp},
RFAcceleratingField.h, SWRFfield.{h,cpp}, TWRFfield.{h,cpp}, TransRFfield.{h,cpp}, BzField.{h,cpp}, EMField.cpp,
Solenoid.cpp, SectorBend.{h,cpp}, TemplateComponents.h, AcceleratorComponent.{h,cpp}, Collimator.{h,cpp},
RectMultipole.{h,cpp}.

Simplifications: doubles are real numbers; a division by zero, whose result would be infinite or not a number, is
outcome `ub`.  The speed of light is the parameter `cl`.  Pole faces are objects in a heap addressed by numbers, and
reading, writing or deleting a face which is not alive is undefined.  Other objects which components point to
(apertures, wake potentials, materials) are represented by their addresses only.
-/

namespace Verif.Components
open Verif Verif.Multipole Real

noncomputable section

/-! ## RF fields -/

/-- `Vector3D` and `Point3D`. -/
@[ext] structure V3 where
  x : ℝ
  y : ℝ
  z : ℝ

/-- Members of `RFAcceleratingField` (RFAcceleratingField.h 100-113) without the acceleration mode, and `theta` of
`TransverseRFfield` (TransRFfield.h 89), which the other fields do not have. -/
@[ext] structure RF where
  w : ℝ
  E0 : ℝ
  phi : ℝ
  theta : ℝ

/-- The classes of RF structures. -/
inductive Kind where
  | standing | travelling | transverse
  deriving DecidableEq

/-- `SWRFfield::Ez` (SWRFfield.h 68-72). -/
def swEz (cl : ℝ) (f : RF) (z t : ℝ) : ℝ := f.E0 * cos (f.w * z / cl) * cos (f.w * t + f.phi)

/-- `TWRFfield::Ez` (TWRFfield.h 68-72). -/
def twEz (cl : ℝ) (f : RF) (z t : ℝ) : ℝ := f.E0 * cos (f.w * (z / cl - t) + f.phi)

/-- `TransverseRFfield::Er` (TransRFfield.h 97-101). -/
def trEr (cl : ℝ) (f : RF) (z t : ℝ) : ℝ := f.E0 * cos (f.w * (z / cl - t) + f.phi)

/-- `GetEFieldAt` of the three fields (SWRFfield.cpp 15-18, TWRFfield.cpp 15-18, TransRFfield.cpp 15-19). -/
def eField (cl : ℝ) (k : Kind) (f : RF) (p : V3) (t : ℝ) : V3 :=
  match k with
  | .standing => ⟨0, 0, swEz cl f p.z t⟩
  | .travelling => ⟨0, 0, twEz cl f p.z t⟩
  | .transverse => ⟨trEr cl f p.z t * cos f.theta, trEr cl f p.z t * sin f.theta, 0⟩

/-- `GetBFieldAt` of the three fields (SWRFfield.cpp 10-13, TWRFfield.cpp 10-13, TransRFfield.cpp 10-13). -/
def bField (_p : V3) (_t : ℝ) : V3 := ⟨0, 0, 0⟩

/-- `GetForceAt` of the three fields (SWRFfield.cpp 20-23, TWRFfield.cpp 20-23, TransRFfield.cpp 21-27). -/
def rfForce (cl : ℝ) (k : Kind) (f : RF) (p _v : V3) (q t : ℝ) : V3 :=
  match k with
  | .standing => ⟨0, 0, q * swEz cl f p.z t⟩
  | .travelling => ⟨0, 0, q * twEz cl f p.z t⟩
  | .transverse =>
    let ex := trEr cl f p.z t * cos f.theta
    let ey := trEr cl f p.z t * sin f.theta
    ⟨q * ex, q * ey, 0⟩

/-- `cross` of two vectors (Space3D.h). -/
def cross (a b : V3) : V3 := ⟨a.y * b.z - a.z * b.y, a.z * b.x - a.x * b.z, a.x * b.y - a.y * b.x⟩

/-- `EMField::GetForceAt` (EMField.cpp 15-20). -/
def emForce (E B : V3) (v : V3) (q : ℝ) : V3 :=
  let c := cross v B
  ⟨q * (E.x + c.x), q * (E.y + c.y), q * (E.z + c.z)⟩

/-- `BzField::GetBFieldAt` (BzField.cpp 10-13). -/
def bzField (bz : ℝ) (_p : V3) : V3 := ⟨0, 0, bz⟩

/-- `Solenoid::RotateY180` (Solenoid.cpp 20-24): the strength of the field. -/
def solRotate (bz : ℝ) : ℝ := -bz

/-! ## RF structures -/

/-- An RF structure: length of the geometry, and field. -/
@[ext] structure Cav where
  len : ℝ
  f : RF

/-- `RFAcceleratingField::SetFrequency` (RFAcceleratingField.h 125-128) through the structure (RFStructure.cpp 42-45). -/
def Cav.setFrequency (c : Cav) (f : ℝ) : Cav := { c with f := { c.f with w := 2 * π * f } }

/-- `GetFrequency` (RFAcceleratingField.h 130-133). -/
def Cav.frequency (c : Cav) : ℝ := c.f.w / (2 * π)

/-- `GetWavelength` (RFAcceleratingField.h 155-159). -/
def Cav.wavelength (cl : ℝ) (c : Cav) : Outcome Unit ℝ := if c.f.w = 0 then .ub else .ok (2 * π * cl / c.f.w)

/-- `GetK` (RFAcceleratingField.h 161-165). -/
def Cav.k (cl : ℝ) (c : Cav) : ℝ := c.f.w / cl

/-- `RFStructure::SetWavelength` (RFStructure.cpp 52-56). -/
def Cav.setWavelength (cl : ℝ) (c : Cav) (l : ℝ) : Outcome Unit Cav :=
  if l = 0 then .ub else .ok (c.setFrequency (cl / l))

/-- `RFStructure::SetK` (RFStructure.cpp 58-62). -/
def Cav.setK (cl : ℝ) (c : Cav) (k : ℝ) : Cav := c.setFrequency (cl * k / (2 * π))

/-- `RFStructure::SetAmplitude` (RFStructure.cpp 22-25). -/
def Cav.setAmplitude (c : Cav) (e : ℝ) : Cav := { c with f := { c.f with E0 := e } }

/-- `RFStructure::SetPhase` (RFStructure.cpp 47-50). -/
def Cav.setPhase (c : Cav) (p : ℝ) : Cav := { c with f := { c.f with phi := p } }

/-- `RFStructure::GetBeamVoltage` (RFStructure.cpp 69-72). -/
def Cav.beamVoltage (c : Cav) : ℝ := c.f.E0 * cos c.f.phi * c.len

/-- `RFStructure::GetVoltage` (RFStructure.cpp 74-77). -/
def Cav.voltage (c : Cav) : ℝ := c.f.E0 * c.len

/-- `RFStructure::SetVoltage` (RFStructure.cpp 79-82). -/
def Cav.setVoltage (c : Cav) (v : ℝ) : Outcome Unit Cav :=
  if c.len = 0 then .ub else .ok (c.setAmplitude (v / c.len))

/-- `RFStructure::GetVoltagePhasor` (RFStructure.cpp 84-88): real and imaginary part. -/
def Cav.phasor (c : Cav) : ℂ := (c.voltage : ℂ) * ⟨cos c.f.phi, sin c.f.phi⟩

/-- `RFStructure::SetVoltagePhasor` (RFStructure.cpp 90-94). -/
def Cav.setPhasor (c : Cav) (z : ℂ) : Outcome Unit Cav :=
  (c.setVoltage ‖z‖).bind fun c => .ok (c.setPhase (Complex.arg z))

/-- The constructor of `SWRFStructure` (SWRFStructure.cpp 14-18, 25-28). -/
def makeSW (cl : ℝ) (ncells : ℤ) (f E0 phi : ℝ) : Outcome Unit Cav :=
  if f = 0 then .ub else .ok ⟨cl / f * ncells / 2, ⟨2 * π * f, E0, phi, 0⟩⟩

/-- `RotateY180` of the structures (SWRFStructure.cpp 50-54, TWRFStructure.cpp 39-43, TransverseRFStructure.cpp
40-46). -/
def Cav.rotateY180 (k : Kind) (c : Cav) : Cav :=
  match k with
  | .standing => c.setAmplitude (-c.f.E0)
  | .travelling => c.setAmplitude (-c.f.E0)
  | .transverse =>
    let e := c.f.E0
    let t := c.f.theta
    let c := c.setAmplitude (-e)
    { c with f := { c.f with theta := -t } }

/-! ## Fields of bends -/

/-- The field of a new bend (SectorBend.cpp 43-46, with the constructor of `MultipoleField` for a dipole:
MultipoleField.cpp 41-46): the scale is the field and the coefficient one. -/
def bendField (b0 : ℝ) : MField ℝ := ⟨b0, [⟨1, 0⟩]⟩

/-- `SectorBend::GetB0` (SectorBend.h 198-201). -/
def getB0 (m : MField ℝ) : ℝ := m.b0

/-- `SectorBend::SetB0` (SectorBend.h 212-215). -/
def setB0 (m : MField ℝ) (b : ℝ) : MField ℝ := { m with b0 := b }

/-- `SectorBend::GetB1` (SectorBend.cpp 95-98). -/
def getB1 (m : MField ℝ) : ℝ := (getComponent m 1 1).1.re

/-- `SectorBend::SetB1` (SectorBend.cpp 100-103). -/
def setB1 (m : MField ℝ) (b : ℝ) : Outcome Unit (MField ℝ) := setComponent m 1 b 0 1

/-- `SectorBend::GetMatchedMomentum` (SectorBend.cpp 86-93). -/
def matchedMomentum (cl h : ℝ) (m : MField ℝ) (q : ℝ) : Outcome Unit ℝ :=
  if h = 0 ∨ q = 0 then .ub
  else .ok ((10 : ℝ) ^ (-9 : ℤ) * cl * ((getCoefficient m 0 1).1.re * m.b0) / h / q)

/-! ## Pole faces -/

/-- `SectorBend::PoleFace` (SectorBend.h 38-66). -/
@[ext] structure Face where
  rot : ℝ
  fint : ℝ
  hgap : ℝ
  type : ℝ

/-- The memory of pole faces: what has ever been allocated, none after deletion. -/
abbrev Heap := List (Option Face)

/-- `PoleFaceInfo` (SectorBend.h 72-142): two pointers, none for null. -/
@[ext] structure Info where
  entrance : Option Nat
  exit : Option Nat

/-- Reading a face through a pointer. -/
def load (h : Heap) (p : Option Nat) : Outcome Unit Face :=
  match p with
  | none => .ub
  | some a =>
    match h[a]? with
    | some (some f) => .ok f
    | _ => .ub

/-- `delete` of a face. -/
def free (h : Heap) (a : Nat) : Outcome Unit Heap :=
  match h[a]? with
  | some (some _) => .ok (h.set a none)
  | _ => .ub

/-- Assignment to the member `type` through a pointer. -/
def setType (h : Heap) (p : Option Nat) (t : ℝ) : Outcome Unit Heap :=
  match p with
  | none => .ub
  | some a =>
    match h[a]? with
    | some (some f) => .ok (h.set a (some { f with type := t }))
    | _ => .ub

/-- The first `if` of `PoleFaceInfo::Clear` (SectorBend.h 130-133). -/
def clearEntrance (h : Heap) (i : Info) : Outcome Unit Heap :=
  match i.entrance with
  | none => .ok h
  | some a => free h a

/-- `PoleFaceInfo::Clear` (SectorBend.h 128-138). -/
def clear (h : Heap) (i : Info) : Outcome Unit Heap :=
  (clearEntrance h i).bind fun h =>
  match i.exit with
  | none => .ok h
  | some b => if i.exit ≠ i.entrance then free h b else .ok h

/-- `PoleFaceInfo::SetInfo(PoleFace*, PoleFace*)` (SectorBend.h 97-104). -/
def setInfo2 (h : Heap) (i : Info) (e1 e2 : Option Nat) : Outcome Unit (Heap × Info) :=
  (clear h i).bind fun h => (setType h e1 1).bind fun h => (setType h e2 0).bind fun h => .ok (h, ⟨e1, e2⟩)

/-- `PoleFaceInfo::SetInfo(PoleFace*)` (SectorBend.h 106-112). -/
def setInfo1 (h : Heap) (i : Info) (e : Option Nat) : Outcome Unit (Heap × Info) :=
  (clear h i).bind fun h => (setType h e 1).bind fun h => (setType h e 0).bind fun h => .ok (h, ⟨e, e⟩)

/-- `p ? new PoleFace(*p) : nullptr` (SectorBend.cpp 27, 34). -/
def clone (h : Heap) (p : Option Nat) : Outcome Unit (Heap × Option Nat) :=
  match p with
  | none => .ok (h, none)
  | some a => (load h (some a)).bind fun f => .ok (h ++ [some f], some h.length)

/-- `PoleFaceInfo::Copy` (SectorBend.cpp 25-36). -/
def copy (h : Heap) (rhs : Info) : Outcome Unit (Heap × Info) :=
  (clone h rhs.entrance).bind fun r =>
  if rhs.entrance = rhs.exit then .ok (r.1, ⟨r.2, r.2⟩)
  else (clone r.1 rhs.exit).bind fun s => .ok (s.1, ⟨r.2, s.2⟩)

/-- `PoleFaceInfo::operator=` (SectorBend.h 90-95): in an assignment to itself both arguments have the same
pointers. -/
def assign (h : Heap) (lhs rhs : Info) : Outcome Unit (Heap × Info) := (clear h lhs).bind fun h => copy h rhs

/-- The swap in `SectorBend::RotateY180` (SectorBend.cpp 63). -/
def swapFaces (i : Info) : Info := ⟨i.exit, i.entrance⟩

/-- `SectorBend::RotateY180` (SectorBend.cpp 58-64) of a bend as the symplectic integrators see it. -/
def turnBend (c : Symplectic.Bend) : Symplectic.Bend :=
  { c with field := Multipole.rotateY180 c.field, h := -c.h, entrance := c.exit, exit := c.entrance }

/-! ## Components and their copies -/

/-- Members of `AcceleratorComponent` (AcceleratorComponent.h 192-225) with the name (ModelElement.h 87): geometry
and field belong to the component, the others are addresses; the pointer to the material has no value (outer none)
until it is set. -/
@[ext] structure Comp (G F : Type) where
  name : String
  geom : G
  field : F
  aperture : Option Nat
  material : Option (Option Nat)
  wakes : Option Nat
  position : ℝ
  index : Nat

/-- The constructor (AcceleratorComponent.h 234-238), which the templates call (TemplateComponents.h 95-98, 116-119,
177-180). -/
def make {G F : Type} (name : String) (g : G) (f : F) : Comp G F := ⟨name, g, f, none, none, none, 0, 0⟩

/-- The copy constructors (TemplateComponents.h 137-140, 157-160; SWRFStructure.cpp 30-33, TWRFStructure.cpp 19-22,
TransverseRFStructure.cpp 19-23). -/
def copyComp {G F : Type} (c : Comp G F) : Comp G F := make c.name c.geom c.field

/-- `TAccCompGF::operator=` (TemplateComponents.h 143-151, 163-171). -/
def assignComp {G F : Type} (lhs rhs : Comp G F) : Comp G F :=
  { lhs with name := rhs.name, geom := rhs.geom, field := rhs.field }

/-- `AcceleratorComponent::GetMaterialProperties` (AcceleratorComponent.h 159-162). -/
def getMaterial {G F : Type} (c : Comp G F) : Outcome Unit (Option Nat) :=
  match c.material with
  | none => .ub
  | some m => .ok m

/-- `AcceleratorComponent::SetMaterialProperties` (AcceleratorComponent.h 155-158). -/
def setMaterial {G F : Type} (c : Comp G F) (m : Option Nat) : Comp G F := { c with material := some m }

/-- `AcceleratorComponent::SetResistiveWakePotentials` (AcceleratorComponent.cpp 51-62): `conductive` tells which
materials have the extra property, and `w` is the address of the new wake potentials. -/
def setResistive {G F : Type} (conductive : Nat → Bool) (w : Nat) (c : Comp G F) : Outcome Unit (Comp G F) :=
  (getMaterial c).bind fun m =>
  match m with
  | none => .ok c
  | some a => if conductive a then .ok { c with wakes := some w } else .ok c

/-- `Collimator`: length, and the radiation length, which may have no value (Collimator.h 84). -/
structure Coll where
  len : ℝ
  xr : Option ℝ

/-- The three constructors of `Collimator` (Collimator.cpp 14-30); material and momentum are given as the radiation
length `matXr` of the material. -/
inductive CollArgs where
  | plain (len : ℝ)
  | radLength (len xr : ℝ)
  | material (len matXr : ℝ)

/-- The constructors of `Collimator` (Collimator.cpp 14-30). -/
def makeColl : CollArgs → Coll
  | .plain l => ⟨l, some 0⟩
  | .radLength l x => ⟨l, some x⟩
  | .material l _ => ⟨l, none⟩

/-- `Collimator::GetMaterialRadiationLength` (Collimator.h 45-48). -/
def Coll.radiationLength (c : Coll) : Outcome Unit ℝ :=
  match c.xr with
  | none => .ub
  | some x => .ok x

/-- `Collimator::GetNumRadLengths` (Collimator.h 36-39). -/
def Coll.numRadLengths (c : Coll) : Outcome Unit ℝ :=
  c.radiationLength.bind fun x => if x = 0 then .ub else .ok (c.len / x)

/-- `RectMultipole`: the number `np` (RectMultipole.h 95), which neither constructor sets (RectMultipole.cpp 13-23). -/
structure Mult where
  np : Option ℤ

/-- The constructors of `RectMultipole` (RectMultipole.cpp 13-23): the parameter goes to the field only. -/
def makeMult (_npole : ℤ) : Mult := ⟨none⟩

/-- `RectMultipole::GetPrimaryPoleNo` (RectMultipole.h 108-111). -/
def Mult.primaryPoleNo (m : Mult) : Outcome Unit ℤ :=
  match m.np with
  | none => .ub
  | some n => .ok n

end

end Verif.Components
