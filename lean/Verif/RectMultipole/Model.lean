import Mathlib.Analysis.SpecialFunctions.Complex.Arg
import Verif.MatrixMap.Model
import Verif.TransportMaps.Model

/-!
# Model of the rectangular multipoles of the three integrator sets

`RectMultipoleCI::TrackStep` of Merlin++/StdIntegrators.cpp (set THIN_LENS), Merlin++/TransportIntegrators.cpp (set
TRANSPORT) and Merlin++/SymplecticIntegrators.cpp (set SYMPLECTIC), with the functors they use.  Doubles are real
numbers, `eps` is the tolerance of `fequal` (utils.h 16-19) and `ec` the product of `eV` and `SpeedOfLight`.  Every
step is modelled for one particle and has the field after the step as second result, since it is changed and put back.
-/

namespace Verif.RectMultipole
open Verif Verif.Multipole Verif.Symplectic Verif.Transport Verif.TransportMaps Real

noncomputable section

/-- `RectMultipole`: length and field (RectMultipole.h 22-75). -/
structure Mag where
  len : ℝ
  field : MField ℝ

/-- The complex number of the standard library as one of Mathlib, for `abs` and `arg`. -/
def toC (c : Cx ℝ) : ℂ := ⟨c.re, c.im⟩

/-- `psdrift` and `ApplyDrift` (StdIntegrators.cpp 28-49). -/
def thinDrift (z : ℝ) (v : PS) : PS := if z ≠ 0 then { v with x := v.x + v.px * z, y := v.y + v.py * z } else v

/-- `MultipoleKick` (StdIntegrators.cpp 51-71): constructor and operator. -/
def thinKick (eps ec : ℝ) (m : MField ℝ) (len : ℝ) (b : Bunch) (v : PS) : Outcome Unit PS :=
  if b.p0 = 0 ∨ 1 + v.dp = 0 then .ub
  else
    let scale := b.q * len * ec / b.p0
    (getField2D eps m v.x v.y (-1)).bind fun B =>
      let F := Cx.smul scale B
      .ok { v with px := v.px + -(F.re / (1 + v.dp)), py := v.py + F.im / (1 + v.dp) }

/-- The product of two matrices with four rows (TLAS: `operator*`). -/
def mmul (A B : Mat) : Mat := fun i j => MatrixMap.loopSum 4 fun k => A i k * B k j

/-- `Transpose`. -/
def transp (A : Mat) : Mat := fun i j => A j i

/-- `RdpMtrx M(2)`: the two matrices, whose elements are zero at first. -/
abbrev Rdp := Mat × Mat

/-- The matrices of the quadrupole term (StdIntegrators.cpp 296-315, SymplecticIntegrators.cpp 990-1009). -/
def quadMatrices (len : ℝ) (k : Cx ℝ) : Rdp :=
  let K1 := if k.im = 0 then k.re else ‖toC k‖
  let R := quadrupoleR 4 len K1
  let T := quadrupoleT len K1
  if k.im ≠ 0 then
    let a := Complex.arg (toC k) / 2
    let Rr := srotAngle a fun _ _ => 0
    (mmul (mmul Rr R) (transp Rr), mmul (mmul Rr T) (transp Rr))
  else (R, T)

/-- `RdpMtrx::Apply(PSvector&)` (MatrixMaps.cpp 164-183) for two degrees of freedom. -/
def applyRdp (M : Rdp) (v : PS) : PS := ofVec (MatrixMap.applyRdp 4 M.1 M.2 (toVec v))

open Classical in
/-- `THIN_LENS::RectMultipoleCI::TrackStep` (StdIntegrators.cpp 276-327). -/
def thinStep (eps ec : ℝ) (c : Mag) (b : Bunch) (ds : ℝ) (v : PS) : Outcome Unit (PS × MField ℝ) :=
  if ds = 0 then .ok (v, c.field)
  else
    (getKn c.field 1 (b.p0 / ec)).bind fun k =>
    let cK1 := Cx.smul b.q k
    let g0 := getCoefficient c.field 0 1
    let m := g0.2
    let split := g0.1 ≠ 0 ∨ highest m > 1
    let len := if split then ds / 2 else ds
    let M : Rdp := if cK1 ≠ 0 then quadMatrices len cK1 else (fun _ _ => 0, fun _ _ => 0)
    let v1 := if cK1 ≠ 0 then applyRdp M v else thinDrift len v
    if split then
      let g1 := getCoefficient m 1 1
      let m1 := setCoefficient g1.2 1 0 1
      (thinKick eps ec m1 ds b v1).bind fun v2 =>
      let v3 := if g1.1 ≠ 0 then applyRdp M v2 else thinDrift len v2
      .ok (v3, setCoefficient m1 1 g1.1 1)
    else .ok (v1, m)

/-- `ApplyDrift` (TransportIntegrators.cpp 115-131). -/
def trDrift (s : ℝ) (v : PS) : PS :=
  { v with x := v.x + s * v.px, y := v.y + s * v.py, ct := v.ct - s * (v.px * v.px + v.py * v.py) / 2 }

/-- The map of a quadrupole or sextupole term about the kick of the other terms (TransportIntegrators.cpp 392-414,
431-453): `n` the order of the term, `M` its map, `phi` the angle of its rotation. -/
def trBody (eps ec : ℝ) (m : MField ℝ) (n : Nat) (M : RT) (phi : ℝ) (split : Bool) (ds : ℝ) (b : Bunch) (v : PS) :
    Outcome Unit (PS × MField ℝ) :=
  let turned := ¬ |phi - 0| ≤ eps
  open Classical in
  let v0 := if turned then rotateZ eps (-phi) v else v
  (applyMap M v0).bind fun v1 =>
  (if split then
    let g := getCoefficient m n 1
    let m1 := setCoefficient g.2 n 0 1
    (kick eps ec m1 ds b (-phi) v1).bind fun v2 =>
    (applyMap M v2).bind fun v3 => .ok (v3, setCoefficient m1 n g.1 1)
  else .ok (v1, m)).bind fun r =>
  open Classical in
  .ok (if turned then rotateZ eps phi r.1 else r.1, r.2)

/-- Strength and angle of a term of order `n` (TransportIntegrators.cpp 378-390, 418-429). -/
def strength (k : Cx ℝ) (n : Nat) : ℝ × ℝ :=
  if k.im = 0 then (k.re, 0) else (‖toC k‖, Complex.arg (toC k) / (n + 1 : Nat))

open Classical in
/-- `TRANSPORT::RectMultipoleCI::TrackStep` (TransportIntegrators.cpp 337-473). -/
def trStep (eps ec : ℝ) (c : Mag) (b : Bunch) (ds : ℝ) (v : PS) : Outcome Unit (PS × MField ℝ) :=
  if c.len = 0 ∧ ds = 0 ∧ isNull eps c.field = false then
    (kick eps ec c.field 1 b 0 v).bind fun w => .ok (w, c.field)
  else if ds = 0 then .ok (v, c.field)
  else
    (getKn c.field 0 (b.p0 / ec)).bind fun k0 =>
    (getKn c.field 1 (b.p0 / ec)).bind fun k1 =>
    (getKn c.field 2 (b.p0 / ec)).bind fun k2 =>
    let ch := Cx.smul b.q k0
    let cK1 := Cx.smul b.q k1
    let cK2 := Cx.smul b.q k2
    let np := highest c.field
    let split : Bool := decide (‖toC ch‖ ≠ 0 ∨ (cK1 ≠ 0 ∧ np > 1) ∨ np > 2)
    let len := if split then ds / 2 else ds
    if cK1 ≠ 0 then
      let K := strength cK1 1
      (quadrupoleTM len K.1).bind fun M => trBody eps ec c.field 1 M K.2 split ds b v
    else if cK2 ≠ 0 then
      let K := strength cK2 2
      trBody eps ec c.field 2 (sextupoleTM len K.1) K.2 split ds b v
    else
      let v1 := trDrift len v
      if split then (kick eps ec c.field ds b 0 v1).bind fun v2 => .ok (trDrift len v2, c.field)
      else .ok (v1, c.field)

/-- The bunch as the functors of the symplectic set see it. -/
def beam (b : Bunch) : Beam := ⟨b.p0, b.q⟩

open Classical in
/-- `SYMPLECTIC::RectMultipoleCI::TrackStep` (SymplecticIntegrators.cpp 957-1039).  Within the branch for a quadrupole
term the test `cK1 != 0.0` is repeated (1016), so that its other branch is dead. -/
def syStep (eps ec : ℝ) (c : Mag) (b : Bunch) (ds : ℝ) (v : PS) : Outcome Unit (PS × MField ℝ) :=
  if c.len = 0 ∧ ds = 0 ∧ isNull eps c.field = false then
    (multipoleKick eps ec c.field 1 (beam b) 0 v).bind fun w => .ok (w, c.field)
  else if ds = 0 then .ok (v, c.field)
  else
    (getKn c.field 1 (b.p0 / ec)).bind fun k =>
    let cK1 := Cx.smul b.q k
    let g0 := getCoefficient c.field 0 1
    let m := g0.2
    let split := g0.1 ≠ 0 ∨ highest m > 1
    let len := if split then ds / 2 else ds
    (if cK1 ≠ 0 then
      let M := quadMatrices len cK1
      let v1 := applyRdp M v
      if split then
        let g1 := getCoefficient m 1 1
        let m1 := setCoefficient g1.2 1 0 1
        let phi := Complex.arg (toC cK1) / 2
        (multipoleKick eps ec m1 ds (beam b) (-phi) v1).bind fun v2 =>
        .ok (applyRdp M v2, setCoefficient m1 1 g1.1 1)
      else .ok (v1, m)
    else (whenLong driftMap len v).bind fun v1 => .ok (v1, m)).bind fun r =>
    if split then
      let g1 := getCoefficient r.2 1 1
      let m1 := setCoefficient g1.2 1 0 1
      (multipoleKick eps ec m1 ds (beam b) 0 r.1).bind fun v2 =>
      (whenLong driftMap len v2).bind fun v3 =>
      .ok (v3, setCoefficient m1 1 g1.1 1)
    else .ok r

end

end Verif.RectMultipole
