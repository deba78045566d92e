import Mathlib.Analysis.SpecialFunctions.Complex.Arg
import Mathlib.Analysis.SpecialFunctions.Sqrt
import Mathlib.Analysis.SpecialFunctions.Log.Basic
import Verif.LinMap.Model

/-!
# Model of beam parameters and beam matrices

Merlin++/BeamData.h, Merlin++/NormalTransform.cpp and the scaling of Merlin++/ParticleBunch.cpp 165-220.  Doubles are real
numbers.
-/

namespace Verif.Beam
open Verif Real

/-- `RealMatrix` of dimension six. -/
abbrev Mat := Nat → Nat → ℝ

/-- `BeamData` (BeamData.h 18-87). -/
structure BeamData where
  beta_x : ℝ
  beta_y : ℝ
  alpha_x : ℝ
  alpha_y : ℝ
  emit_x : ℝ
  emit_y : ℝ
  sig_dp : ℝ
  sig_z : ℝ
  x0 : ℝ
  xp0 : ℝ
  y0 : ℝ
  yp0 : ℝ
  ct0 : ℝ
  p0 : ℝ
  c_xy : ℝ
  c_xyp : ℝ
  c_xpy : ℝ
  c_xpyp : ℝ
  Dx : ℝ
  Dxp : ℝ
  Dy : ℝ
  Dyp : ℝ

/-- `gamma_x`, `gamma_y` (BeamData.h 43-50). -/
noncomputable def gamma (alpha beta : ℝ) : ℝ := (1 + alpha * alpha) / beta

/-- `IdentityMatrix(6)`. -/
def identity : Mat := fun i j => if i = j then 1 else 0

/-- Assignment to an element. -/
def set (R : Mat) (i j : Nat) (v : ℝ) : Mat := fun a b => if a = i ∧ b = j then v else R a b

/-- Product of matrices of dimension six. -/
noncomputable def prod (A B : Mat) : Mat := fun i j => ((List.range 6).map fun k => A i k * B k j).sum

/-- Body of `CouplingMatrix` (NormalTransform.cpp 48-69), with the factors computed before. -/
def couplingBody (h zeta a b c d : ℝ) : Mat :=
  let a := a * zeta
  let b := b * zeta
  let c := c * zeta
  let d := d * zeta
  let C := set (set (set (set identity 0 0 h) 1 1 h) 2 2 h) 3 3 h
  let C := set (set (set (set C 0 2 a) 0 3 b) 1 2 (-c)) 1 3 (-d)
  set (set (set (set C 2 0 d) 2 1 b) 3 0 (-c)) 3 1 (-a)

open Classical in
/-- `CouplingMatrix` (NormalTransform.cpp 20-70). -/
noncomputable def couplingMatrix (a b c d : ℝ) : Mat :=
  let detB2 := b * c - a * d
  if detB2 = 0 then identity
  else if 0 < detB2 then
    let detB := √detB2
    couplingBody (cos detB) (sin detB / detB) a b c d
  else
    let detB := √(-detB2)
    couplingBody (cosh detB) (sinh detB / detB) a b c d

/-- `AlphaMatrix` (NormalTransform.cpp 72-78). -/
def alphaMatrix (ax ay : ℝ) : Mat := set (set identity 1 0 (-ax)) 3 2 (-ay)

/-- `BetaMatrix` (NormalTransform.cpp 80-90). -/
noncomputable def betaMatrix (bx cy : ℝ) : Mat :=
  set (set (set (set identity 0 0 (√bx)) 1 1 (1 / √bx)) 2 2 (√cy)) 3 3 (1 / √cy)

/-- `DispersionMatrix` (NormalTransform.cpp 92-101). -/
def dispersionMatrix (Dx Dxp Dy Dyp : ℝ) : Mat := set (set (set (set identity 0 5 Dx) 1 5 Dxp) 2 5 Dy) 3 5 Dyp

/-- `InverseBetaTransform` (NormalTransform.cpp 103-118). -/
noncomputable def inverseBeta (bx cy ax ay : ℝ) : Mat :=
  let R := set (set (set identity 0 0 (1 / √bx)) 1 0 (ax / √bx)) 1 1 (√bx)
  set (set (set R 2 2 (1 / √cy)) 3 2 (ay / √cy)) 3 3 (√cy)

/-- `NormalTransform` (NormalTransform.cpp 120-128). -/
noncomputable def normalTransform (t : BeamData) : Mat :=
  let D := dispersionMatrix t.Dx t.Dxp t.Dy t.Dyp
  let B := betaMatrix t.beta_x t.beta_y
  let A := alphaMatrix t.alpha_x t.alpha_y
  let C := couplingMatrix t.c_xy t.c_xyp t.c_xpy t.c_xpyp
  prod (prod (prod D B) A) C

/-- `PSmoments`: first and second moments. -/
structure Moments where
  mean : Nat → ℝ
  cov : LinMap.Cov ℝ

open Classical in
/-- `RMap(R).Apply` on second moments (RMap.cpp 86-98, RMap.h 131-143). -/
noncomputable def applyMat (R : Mat) (S : LinMap.Cov ℝ) : LinMap.Cov ℝ := LinMap.applyCov 6 (LinMap.ofMatrix 6 6 R) S

/-- Second moments before the transformation (NormalTransform.cpp 133-139). -/
noncomputable def sigma0 (t : BeamData) : LinMap.Cov ℝ :=
  let S : LinMap.Cov ℝ := fun _ => 0
  let S := LinMap.setSig (LinMap.setSig S 0 0 t.emit_x) 1 1 t.emit_x
  let S := LinMap.setSig (LinMap.setSig S 2 2 t.emit_y) 3 3 t.emit_y
  LinMap.setSig (LinMap.setSig S 4 4 (t.sig_z ^ 2)) 5 5 (t.sig_dp ^ 2)

/-- `BeamDataToSigmaMtrx` (NormalTransform.cpp 130-149).  The first moments are zero before, so that the map leaves
them. -/
noncomputable def toSigma (t : BeamData) : Moments where
  mean := fun i => match i with | 0 => t.x0 | 1 => t.xp0 | 2 => t.y0 | 3 => t.yp0 | _ => 0
  cov := applyMat (normalTransform t) (sigma0 t)

/-- The element `S(i, j)`. -/
noncomputable def el (S : LinMap.Cov ℝ) (i j : Nat) : ℝ := LinMap.sig 6 S i j

/-- One pass of the loop of `DecoupleSigma` (NormalTransform.cpp 160-167): the coupling parameters.  If the emittances
are equal the divisions give no numbers, and the values of the rest are undefined here. -/
noncomputable def decoupleStep (S : LinMap.Cov ℝ) : Option (ℝ × ℝ × ℝ × ℝ) :=
  let d := el S 2 2 * el S 3 3 - el S 2 3 * el S 2 3 - (el S 0 0 * el S 1 1 - el S 0 1 * el S 0 1)
  open Classical in
  if d = 0 then none
  else some
    ((-el S 0 1 * el S 0 3 + el S 0 0 * el S 1 3 - el S 0 3 * el S 2 3 + el S 0 2 * el S 3 3) / d,
      (el S 0 1 * el S 0 2 - el S 0 0 * el S 1 2 + el S 0 3 * el S 2 2 - el S 0 2 * el S 2 3) / d,
      (el S 0 3 * el S 1 1 - el S 0 1 * el S 1 3 + el S 1 3 * el S 2 3 - el S 1 2 * el S 3 3) / d,
      (-el S 0 2 * el S 1 1 + el S 0 1 * el S 1 2 - el S 1 3 * el S 2 2 + el S 1 2 * el S 2 3) / d)

open Classical in
/-- `DecoupleSigma` (NormalTransform.cpp 151-173): the matrix and the second moments afterwards.  `ub` when no numbers are
computed or the number of passes does not suffice. -/
noncomputable def decouple : Nat → LinMap.Cov ℝ → Mat → Outcome Unit (Mat × LinMap.Cov ℝ)
  | 0, _, _ => .ub
  | fuel + 1, S, R =>
    match decoupleStep S with
    | none => .ub
    | some (a, b, c, d) =>
      let R1 := couplingMatrix (-a) (-b) (-c) (-d)
      let S := applyMat R1 S
      let R := prod R1 R
      if 1 / 10 ^ 10 ≤ a * a + b * b + c * c + d * d then decouple fuel S R else .ok (R, S)

/-- `atan2`. -/
noncomputable def atan2 (y x : ℝ) : ℝ := Complex.arg ⟨x, y⟩

open Classical in
/-- The factor with which the coupling parameters are computed (NormalTransform.cpp 196-207). -/
noncomputable def couplingFactor (c00 : ℝ) : ℝ :=
  if 1 < c00 then
    let x := √(c00 * c00 - 1)
    if x ≠ 0 then log (c00 + x) / x else 0
  else
    let sinPhi := √(1 - c00)
    let phi := atan2 sinPhi c00
    if sinPhi ≠ 0 then phi / sinPhi else 0

/-- `ProjectedEmittance` (NormalTransform.cpp 15-18). -/
noncomputable def projectedEmittance (S : LinMap.Cov ℝ) (i j : Nat) : ℝ := √(el S i i * el S j j - el S i j ^ 2)

open Classical in
/-- Dispersion and second moments without it (NormalTransform.cpp 180-192). -/
noncomputable def removeDispersion (S : LinMap.Cov ℝ) : (ℝ × ℝ × ℝ × ℝ) × LinMap.Cov ℝ :=
  let d2 := el S 5 5
  if d2 ≠ 0 then
    let Dx := el S 0 5 / d2
    let Dxp := el S 1 5 / d2
    let Dy := el S 2 5 / d2
    let Dyp := el S 3 5 / d2
    ((Dx, Dxp, Dy, Dyp), applyMat (dispersionMatrix (-Dx) (-Dxp) (-Dy) (-Dyp)) S)
  else ((0, 0, 0, 0), S)

/-- `SigmaMatrixToBeamData` (NormalTransform.cpp 175-234) with a bound for the passes of `DecoupleSigma`. -/
noncomputable def toBeam (fuel : Nat) (m : Moments) : Outcome Unit BeamData :=
  let r := removeDispersion m.cov
  (decouple fuel r.2 identity).bind fun q =>
    let C := q.1
    let S := q.2
    let z := couplingFactor (C 0 0)
    let emit_x := projectedEmittance S 0 1
    let emit_y := projectedEmittance S 2 3
    .ok {
      c_xy := C 0 2 * z, c_xyp := C 0 3 * z, c_xpy := C 1 2 * z, c_xpyp := C 1 3 * z
      emit_x := emit_x, emit_y := emit_y
      beta_x := el S 0 0 / emit_x, beta_y := el S 2 2 / emit_y
      alpha_x := -el S 0 1 / emit_x, alpha_y := -el S 2 3 / emit_y
      sig_z := √(el m.cov 4 4), sig_dp := √(el m.cov 5 5)
      x0 := m.mean 0, xp0 := m.mean 1, y0 := m.mean 2, yp0 := m.mean 3, ct0 := m.mean 4, p0 := m.mean 5
      Dx := r.1.1, Dxp := r.1.2.1, Dy := r.1.2.2.1, Dyp := r.1.2.2.2 }

/-- Factors for the coordinates of a generated particle (ParticleBunch.cpp 189-194). -/
noncomputable def scale (t : BeamData) (i : Nat) : ℝ :=
  match i with
  | 0 => √t.emit_x | 1 => √t.emit_x | 2 => √t.emit_y | 3 => √t.emit_y
  | 4 => √t.sig_z | 5 => √t.sig_dp | _ => 1

/-- The centroid (ParticleBunch.cpp 174-180). -/
def centroid (t : BeamData) (i : Nat) : ℝ :=
  match i with | 0 => t.x0 | 1 => t.xp0 | 2 => t.y0 | 3 => t.yp0 | 4 => t.ct0 | _ => 0

/-- A generated particle from the vector `u` of the generator (ParticleBunch.cpp 186-200). -/
noncomputable def particle (t : BeamData) (u : Nat → ℝ) (i : Nat) : ℝ :=
  ((List.range 6).map fun j => normalTransform t i j * (scale t j * u j)).sum + centroid t i

end Verif.Beam
