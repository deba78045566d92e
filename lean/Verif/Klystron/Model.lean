import Mathlib.Analysis.SpecialFunctions.Complex.Arg
import Verif.Common.Outcome

/-!
# Model of `Klystron` and the voltage interface of `RFStructure`

Sources: `Merlin++/Klystron.cpp`, `Merlin++/Klystron.h`, `Merlin++/RFStructure.cpp`.

Simplifications: doubles are real numbers, `abs` and `arg` of complex numbers are the exact
functions; the cavities of a klystron are distinct objects.  A division by zero that makes the
settings of the cavities not-a-number is the exception `nan`.
-/

namespace Verif.Klystron
open Verif Complex

noncomputable section

/-- What `RFStructure` keeps in its geometry and field: length, amplitude and phase. -/
structure Cavity where
  len : ℝ
  amp : ℝ
  phase : ℝ

/-- `RFStructure::GetVoltagePhasor` (RFStructure.cpp 84-88) with `GetVoltage` (74-77). -/
def Cavity.phasor (c : Cavity) : ℂ :=
  ((c.amp * c.len : ℝ) : ℂ) * (Real.cos c.phase + Real.sin c.phase * I)

/-- `RFStructure::SetVoltage` (RFStructure.cpp 79-82). -/
def Cavity.setVoltage (c : Cavity) (v : ℝ) : Cavity := { c with amp := v / c.len }

/-- `RFStructure::SetPhase` (RFStructure.cpp 47-50). -/
def Cavity.setPhase (c : Cavity) (p : ℝ) : Cavity := { c with phase := p }

/-- `RFStructure::SetVoltagePhasor` (RFStructure.cpp 90-94). -/
def Cavity.setPhasor (c : Cavity) (z : ℂ) : Cavity := (c.setVoltage ‖z‖).setPhase (arg z)

/-- `Klystron::Mode` (Klystron.h 44-49). -/
inductive Mode where
  | vectorSum | balanced
  deriving DecidableEq

/-- Members of `Klystron` (Klystron.h 86-89). -/
structure Kly where
  cavs : List Cavity
  mode : Mode
  v : ℝ
  phi : ℝ

/-- Settings became not-a-number. -/
inductive Exn where
  | nan

/-- `accumulate_vector_sum` (Klystron.cpp 18-30). -/
def vectorSum (cavs : List Cavity) : ℂ := cavs.foldl (fun z c => z + c.phasor) 0

/-- `set_cavity` (Klystron.cpp 32-48) on all cavities. -/
def setCavities (cavs : List Cavity) (v phi : ℝ) : List Cavity :=
  cavs.map (fun c => (c.setVoltage v).setPhase phi)

/-- `Complex(V cos φ, V sin φ)`. -/
def polar (v phi : ℝ) : ℂ := ((v * Real.cos phi : ℝ) : ℂ) + ((v * Real.sin phi : ℝ) : ℂ) * I

/-- `Klystron::Klystron` (Klystron.cpp 67-78). -/
def Kly.make (cavs : List Cavity) (m : Mode) : Kly :=
  let z0 := vectorSum cavs
  let v := ‖z0‖
  let phi := arg z0
  match m with
  | .balanced => ⟨setCavities cavs (v / cavs.length) phi, m, v, phi⟩
  | .vectorSum => ⟨cavs, m, v, phi⟩

/-- `Klystron::AdjustVectorSum` (Klystron.cpp 131-137): the scale is the ratio of the requested
phasor and that of the members `V_k`, `phi_k`. -/
def Kly.adjustVectorSum (k : Kly) (v phi : ℝ) : Outcome Exn Kly :=
  open Classical in
  if polar k.v k.phi = 0 then .throw .nan
  else
    let zs := polar v phi / polar k.v k.phi
    .ok { k with cavs := k.cavs.map (fun c => c.setPhasor (zs * c.phasor)), v := v, phi := phi }

/-- `Klystron::AdjustCavities` (Klystron.cpp 99-110). -/
def Kly.adjust (k : Kly) : Outcome Exn Kly :=
  match k.mode with
  | .balanced => .ok { k with cavs := setCavities k.cavs (k.v / k.cavs.length) k.phi }
  | .vectorSum => k.adjustVectorSum k.v k.phi

/-- `Klystron::SetVoltage` (Klystron.cpp 80-84). -/
def Kly.setVoltage (k : Kly) (v : ℝ) : Outcome Exn Kly := { k with v := v }.adjust

/-- `Klystron::SetPhase` (Klystron.cpp 86-90). -/
def Kly.setPhase (k : Kly) (p : ℝ) : Outcome Exn Kly := { k with phi := p }.adjust

/-- `Klystron::SetVoltagePhasor` (Klystron.cpp 92-97). -/
def Kly.setPhasor (k : Kly) (z : ℂ) : Outcome Exn Kly :=
  { k with v := ‖z‖, phi := arg z }.adjust

/-- `Klystron::GetVoltagePhasor` (Klystron.h 114-117). -/
def Kly.phasor (k : Kly) : ℂ := polar k.v k.phi

/-- The setters. -/
inductive Op where
  | voltage (v : ℝ)
  | phase (p : ℝ)
  | phasor (z : ℂ)

/-- Effect of a setter. -/
def Kly.step (k : Kly) : Op → Outcome Exn Kly
  | .voltage v => k.setVoltage v
  | .phase p => k.setPhase p
  | .phasor z => k.setPhasor z

/-- A sequence of settings. -/
def Kly.run (k : Kly) : List Op → Outcome Exn Kly
  | [] => .ok k
  | o :: os => do
    let k ← k.step o
    k.run os

end

end Verif.Klystron
