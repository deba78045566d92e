import Mathlib.Analysis.SpecialFunctions.Trigonometric.Basic
import Mathlib.Analysis.SpecialFunctions.Trigonometric.Inverse
import Mathlib.Analysis.SpecialFunctions.Log.Basic
import Verif.Multipole.Model

/-!
# Model of the symplectic integrators

Merlin++/SymplecticIntegrators.cpp without `RectMultipoleCI`.  Doubles are real numbers.  `for_each` treats the
particles of a bunch one by one, so that every map and every step is modelled for one particle.  An infinite
coordinate or one that is not a number is outcome `ub`; a particle which moves exactly at right angles to the
reference orbit (radicand zero) is counted among these.
-/

namespace Verif.Symplectic
open Verif Verif.Multipole Real

noncomputable section

/-- `PSvector`: the six coordinates (PSTypes.h). -/
@[ext] structure PS where
  x : ℝ
  px : ℝ
  y : ℝ
  py : ℝ
  ct : ℝ
  dp : ℝ

/-- `DriftMap::operator()` (SymplecticIntegrators.cpp 63-75). -/
def driftMap (ds : ℝ) (v : PS) : Outcome Unit PS :=
  let d1 := 1 + v.dp
  let r := d1 * d1 - v.px * v.px - v.py * v.py
  if 0 < r then
    let k := √r
    .ok { v with x := v.x + v.px * ds / k, y := v.y + v.py * ds / k, ct := v.ct + (ds - d1 * ds / k) }
  else .ub

/-- `SectorBend::PoleFace` (SectorBend.cpp 17-20). -/
structure PoleFace where
  rot : ℝ
  fint : ℝ
  hgap : ℝ

/-- `PoleFaceRotation` (SymplecticIntegrators.cpp 80-105): constructor and operator. -/
def poleFace (h : ℝ) (pf : PoleFace) (v : PS) : Outcome Unit PS :=
  let phi := 2 * pf.fint * pf.hgap * h * (1 + sin pf.rot * sin pf.rot) / cos pf.rot
  if cos pf.rot = 0 ∨ cos (pf.rot - phi) = 0 then .ub
  else .ok { v with px := v.px + h * tan pf.rot * v.x, py := v.py + -h * tan (pf.rot - phi) * v.y }

/-- `SectorBendMap::operator()` (SymplecticIntegrators.cpp 120-165). -/
def sectorMap (h ds : ℝ) (v : PS) : Outcome Unit PS :=
  let d1 := 1 + v.dp
  if 0 < d1 ∧ h ≠ 0 then
    let wx := √(h * h / d1)
    let xs := sin (wx * ds)
    let xc := cos (wx * ds)
    let xs2 := sin (2 * wx * ds)
    let xc2 := cos (2 * wx * ds)
    let j2 := h * v.x - v.dp
    let c0 := -v.dp
    let c1 := -j2
    let c2 := -v.px / h
    let c3 := -v.px * v.px / d1 / d1 / 2
    let c4 := v.px * j2 / h / d1
    let c5 := -j2 * j2 / d1 / 2
    let c6 := -v.py * v.py / d1 / d1 / 2
    .ok { x := v.x * xc + v.px * xs * wx / h / h + v.dp * (1 - xc) / h
          px := -h * h * v.x * xs / wx + v.px * xc + v.dp * h * xs / wx
          y := v.y + v.py * ds / d1
          py := v.py
          ct := v.ct + (2 * c0 + c3 + c5 + 2 * c6) * ds / 2 + c1 * xs / wx + (c3 - c5) * xs2 / wx / 4
            + c2 * (1 - xc) + c4 * (1 - xc2) / 4
          dp := v.dp }
  else .ub

/-- `SectorBendMapEF::operator()` (SymplecticIntegrators.cpp 182-213). -/
def sectorMapEF (h ds : ℝ) (v : PS) : Outcome Unit PS :=
  let d1 := 1 + v.dp
  let r := 1 / h
  let r0 := d1 * d1 - v.px * v.px - v.py * v.py
  let w := √r0 - h * (r + v.x)
  let rdpxds := -v.px * sin (ds / r) + w * cos (ds / r)
  let px1 := v.px * cos (ds / r) + w * sin (ds / r)
  let r1 := d1 * d1 - px1 * px1 - v.py * v.py
  if h ≠ 0 ∧ 0 < r0 ∧ 0 < r1 then
    let u := arcsin (v.px / √(d1 * d1 - v.py * v.py)) - arcsin (px1 / √(d1 * d1 - v.py * v.py))
    .ok { x := √r1 / h - rdpxds / h - r
          px := px1
          y := v.y + v.py * ds / h / r + v.py * u / h
          py := v.py
          ct := v.ct + ds - d1 * ds / h / r - d1 * u / h
          dp := v.dp }
  else .ub

/-- `CombinedFunctionSectorBendMap::operator()` (SymplecticIntegrators.cpp 230-318).  Without any focusing in
the horizontal plane (`h * h + k1` zero) x and px are found, but c0, c1, c2, c4 and c5 divide by zero, so that ct
is not a number; the same for `k1` zero. -/
def combinedMap (h k1 ds : ℝ) (v : PS) : Outcome Unit PS :=
  let dp1 := 1 + v.dp
  if 0 < dp1 ∧ h * h + k1 ≠ 0 ∧ k1 ≠ 0 then
    let wx := √(|h * h + k1| / dp1)
    let wy := √(|k1| / dp1)
    let xs := if h * h + k1 > 0 then sin (wx * ds) else sinh (wx * ds)
    let xc := if h * h + k1 > 0 then cos (wx * ds) else cosh (wx * ds)
    let xs2 := if h * h + k1 > 0 then sin (2 * wx * ds) else sinh (2 * wx * ds)
    let xc2 := if h * h + k1 > 0 then cos (2 * wx * ds) else cosh (2 * wx * ds)
    let ys := if k1 > 0 then sinh (wy * ds) else sin (wy * ds)
    let yc := if k1 > 0 then cosh (wy * ds) else cos (wy * ds)
    let ys2 := if k1 > 0 then sinh (2 * wy * ds) else sin (2 * wy * ds)
    let yc2 := if k1 > 0 then cosh (2 * wy * ds) else cos (2 * wy * ds)
    let j1 := k1 + h * h
    let j2 := j1 * v.x - h * v.dp
    let c0 := -h * h * v.dp / j1
    let c1 := h * h * v.dp / j1 - h * v.x
    let c2 := -h * v.px / j1
    let c3 := -v.px * v.px / dp1 / dp1 / 2
    let c4 := v.px * j2 / j1 / dp1
    let c5 := -j2 * j2 / j1 / dp1 / 2
    let c6 := -v.py * v.py / dp1 / dp1 / 2
    let c7 := -v.y * v.py / dp1
    let c8 := -v.y * v.y * k1 / dp1 / 2
    .ok { x := v.x * xc + v.px * xs * wx / |k1 + h * h| + v.dp * h * (1 - xc) / (k1 + h * h)
          px := -(k1 + h * h) * v.x * xs / wx + v.px * xc + v.dp * h * xs / wx
          y := v.y * yc + v.py * ys * wy / |k1|
          py := k1 * v.y * ys / wy + v.py * yc
          ct := v.ct + (2 * c0 + c3 + c5 + c6 - c8) * ds / 2 + c1 * xs / wx + (c3 - c5) * xs2 / wx / 4
            + c2 * (1 - xc) + c4 * (1 - xc2) / 4 + (c6 + c8) * ys2 / wy / 4 - c7 * (1 - yc2) / 4
          dp := v.dp }
  else .ub

/-- `QuadrupoleMap::operator()` (SymplecticIntegrators.cpp 335-397). -/
def quadMap (k1 ds : ℝ) (v : PS) : Outcome Unit PS :=
  let dp1 := 1 + v.dp
  if 0 < dp1 ∧ k1 ≠ 0 then
    let w := √(|k1| / dp1)
    let xs := if k1 ≥ 0 then sin (w * ds) else sinh (w * ds)
    let xc := if k1 ≥ 0 then cos (w * ds) else cosh (w * ds)
    let ys := if k1 ≥ 0 then sinh (w * ds) else sin (w * ds)
    let yc := if k1 ≥ 0 then cosh (w * ds) else cos (w * ds)
    let xs2 := if k1 ≥ 0 then sin (2 * w * ds) else sinh (2 * w * ds)
    let xc2 := if k1 ≥ 0 then cos (2 * w * ds) else cosh (2 * w * ds)
    let ys2 := if k1 ≥ 0 then sinh (2 * w * ds) else sin (2 * w * ds)
    let yc2 := if k1 ≥ 0 then cosh (2 * w * ds) else cos (2 * w * ds)
    let c3 := -v.px * v.px / dp1 / dp1 / 2
    let c4 := v.x * v.px / dp1
    let c5 := -v.x * v.x * k1 / dp1 / 2
    let c6 := -v.py * v.py / dp1 / dp1 / 2
    let c7 := -v.y * v.py / dp1
    let c8 := -v.y * v.y * k1 / dp1 / 2
    .ok { x := v.x * xc + v.px * xs * w / |k1|
          px := -k1 * v.x * xs / w + v.px * xc
          y := v.y * yc + v.py * ys * w / |k1|
          py := k1 * v.y * ys / w + v.py * yc
          ct := v.ct + (c3 + c5 + c6 - c8) * ds / 2 + (c3 - c5) * xs2 / w / 4 + c4 * (1 - xc2) / 4
            + (c6 + c8) * ys2 / w / 4 - c7 * (1 - yc2) / 4
          dp := v.dp }
  else .ub

/-- The bunch as far as the steps use it: reference momentum and sign of the charge. -/
structure Beam where
  p0 : ℝ
  q : ℝ

/-- `MultipoleKick` (SymplecticIntegrators.cpp 402-424): constructor and operator, `ec` being the product of `eV`
and `SpeedOfLight`, `eps` the tolerance of `fequal` in `IsNullField`. -/
def multipoleKick (eps ec : ℝ) (m : MField ℝ) (ds : ℝ) (b : Beam) (phi : ℝ) (v : PS) : Outcome Unit PS :=
  if b.p0 = 0 then .ub
  else
    let scale : Cx ℝ := Cx.smul (b.q * ds * ec / b.p0) ⟨cos phi, sin phi⟩
    (getField2D eps m v.x v.y (-1)).bind fun B =>
      let F := scale * B
      .ok { v with px := v.px + -F.re, py := v.py + F.im }

/-- `RFStructureMap::operator()` (SymplecticIntegrators.cpp 441-458) without full acceleration, as it is used; the
matrix applied before is that of a drift of length zero, the identity. -/
def rfKick (vn ve k phi dphi : ℝ) (v : PS) : PS :=
  { v with dp := v.dp + vn * (1 + ve) * cos (phi + dphi - k * v.ct) }

/-- The matrix of `RSRFStructureMap` (SymplecticIntegrators.cpp 512-531) for relative gain `vn`, phase and length:
m11, m12, m21, m22. -/
def rsMatrix (vn phi len : ℝ) : ℝ × ℝ × ℝ × ℝ :=
  let rt2 := √2
  let rt8 := 2 * rt2
  let cosphi := cos phi
  let sinphi := sin phi
  let vncos := vn * cosphi
  let d0 := 1 + vncos
  let alpha := log d0 / cosphi / rt8
  (cos alpha - rt2 * cosphi * sin alpha,
    rt8 * len * cosphi * sin alpha / vncos,
    -(1 - 1 / d0) * (sinphi / rt2 + 1 / cosphi / rt8) * sin alpha / len,
    (cos alpha + rt2 * cosphi * sin alpha) / d0)

/-- `RSRFStructureMap::operator()` (SymplecticIntegrators.cpp 543-568) with the matrix of the constructor. -/
def rsMap (vn ve k phi dphi len : ℝ) (v : PS) : Outcome Unit PS :=
  let vncos := vn * cos phi
  let r0 := (1 + v.dp) * (1 + v.dp) - v.px * v.px - v.py * v.py
  if vncos = 0 ∨ 1 + vncos ≤ 0 ∨ len = 0 ∨ r0 ≤ 0 then .ub
  else
    let M := rsMatrix vn phi len
    let k0 := √r0
    let xp0 := v.px / k0
    let yp0 := v.py / k0
    let x1 := M.1 * v.x + M.2.1 * xp0
    let xp1 := M.2.2.1 * v.x + M.2.2.2 * xp0
    let y1 := M.1 * v.y + M.2.1 * yp0
    let yp1 := M.2.2.1 * v.y + M.2.2.2 * yp0
    let dp := (v.dp + vn * (1 + ve) * cos (phi + dphi - k * v.ct) - vncos) / (1 + vncos)
    let r1 := (1 + dp) * (1 + dp) - xp1 * xp1 - yp1 * yp1
    if r1 ≤ 0 then .ub
    else .ok { v with x := x1, px := xp1 * √r1, y := y1, py := yp1 * √r1, dp := dp }

/-- A map is applied only to a step of non-zero length (SymplecticIntegrators.cpp 633-698). -/
def whenLong (f : ℝ → PS → Outcome Unit PS) (ds : ℝ) (v : PS) : Outcome Unit PS := if ds ≠ 0 then f ds v else .ok v

/-- `DriftCI::TrackStep` (SymplecticIntegrators.cpp 720-723). -/
def trackDrift (ds : ℝ) (v : PS) : Outcome Unit PS := whenLong driftMap ds v

/-- The choice of the map of a bend (SymplecticIntegrators.cpp 780-798, 813-831 and 895-913, 928-946; `ef` for
`SectorBendCI_ef`), with `ApplySectorBendMap` and its companions (654-698). -/
def bendMap (ef : Bool) (h k1 len : ℝ) (v : PS) : Outcome Unit PS :=
  if h = 0 then
    if k1 = 0 then whenLong driftMap len v else whenLong (quadMap k1) len v
  else
    if k1 = 0 then whenLong (if ef then sectorMapEF h else sectorMap h) len v else whenLong (combinedMap h k1) len v

/-- `TransportMatrix::Srot` into a new matrix of six rows and its application (SymplecticIntegrators.cpp 752-757,
836-841): below the tolerance of `fequal` nothing is written to the matrix (TransportMatrix.h 81-84), whose
elements are zero (a `valarray`, TMatrixLib.h 1066-1070). -/
def rotate (eps t : ℝ) (v : PS) : PS :=
  if |t - 0| ≤ eps then ⟨0, 0, 0, 0, 0, 0⟩
  else ⟨cos t * v.x + -sin t * v.y, cos t * v.px + -sin t * v.py, sin t * v.x + cos t * v.y,
    sin t * v.px + cos t * v.py, v.ct, v.dp⟩

/-- `SectorBend`: curvature, tilt, field, pole faces (SectorBend.h, ArcGeometry.h). -/
structure Bend where
  h : ℝ
  tilt : ℝ
  field : MField ℝ
  entrance : Option PoleFace
  exit : Option PoleFace

/-- The test `GetMatchedMomentum(q) > 0` (SectorBend.cpp 87-94 and the assertion SymplecticIntegrators.cpp 767); for
curvature zero the quotient is infinite with the sign of the field, or not a number. -/
def matched (h q by' : ℝ) : Prop := if h = 0 then 0 < by' / q else 0 < by' / h / q

open Classical in
/-- `SectorBendCI::TrackStep` and `SectorBendCI_ef::TrackStep` (SymplecticIntegrators.cpp 745-842, 862-957), with the
field after the step.  `GetCoefficient` and `SetCoefficient` enlarge the expansion of the field. -/
def trackBend (ef : Bool) (eps ec : ℝ) (c : Bend) (b : Beam) (ds : ℝ) (v : PS) : Outcome Unit (PS × MField ℝ) :=
  let v0 := if c.tilt ≠ 0 then rotate eps c.tilt v else v
  let g0 := getCoefficient c.field 0 1
  let m := g0.2
  let b0 := g0.1
  if ¬ matched c.h b.q (b0.re * m.b0) then .ub
  else
    (if highest m > 0 then (getKn m 1 (b.p0 / ec)).bind fun k => .ok (Cx.smul b.q k) else .ok 0).bind fun K1 =>
    let split := b0.im ≠ 0 ∨ K1.im ≠ 0 ∨ highest m > 1
    let len := if split then ds / 2 else ds
    (bendMap ef c.h K1.re len v0).bind fun v1 =>
    (if split then
      let g1 := getCoefficient m 1 1
      let b1 := g1.1
      let m1 := setCoefficient g1.2 0 ⟨0, b0.im⟩ 1
      let m2 := setCoefficient m1 1 ⟨0, b1.im⟩ 1
      (whenLong (fun s => multipoleKick eps ec m2 s b 0) ds v1).bind fun v2 =>
      (bendMap ef c.h K1.re len v2).bind fun v3 =>
      .ok (v3, setCoefficient (setCoefficient m2 0 b0 1) 1 b1 1)
    else .ok (v1, m)).bind fun r =>
    .ok (if c.tilt ≠ 0 then rotate eps (-c.tilt) r.1 else r.1, r.2)

/-- `SectorBendCI::TrackEntrance` and `TrackExit` (SymplecticIntegrators.cpp 725-743). -/
def trackFace (h : ℝ) (pf : Option PoleFace) (v : PS) : Outcome Unit PS :=
  match pf with
  | none => .ok v
  | some p => poleFace h p v

/-- The passage of a bend in one step: entrance, step, exit (the field after the step is not shown). -/
def trackThrough (ef : Bool) (eps ec : ℝ) (c : Bend) (b : Beam) (ds : ℝ) (v : PS) : Outcome Unit PS :=
  (trackFace c.h c.entrance v).bind fun v1 =>
  (trackBend ef eps ec c b ds v1).bind fun r => trackFace c.h c.exit r.1

/-- `TWRFStructureCI::TrackStep` (SymplecticIntegrators.cpp 1041-1064). -/
def trackTW (g k phi p0 ds : ℝ) (v : PS) : Outcome Unit PS :=
  if g = 0 then whenLong driftMap ds v
  else (whenLong driftMap (ds / 2) v).bind fun v1 =>
    (if p0 = 0 then (.ub : Outcome Unit PS) else .ok (rfKick (g * ds / p0) 0 k phi 0 v1)).bind fun v2 =>
    whenLong driftMap (ds / 2) v2

/-- `static_cast<int>` of a double. -/
def trunc (r : ℝ) : ℤ := if 0 ≤ r then ⌊r⌋ else ⌈r⌉

/-- `SWRFStructureCI::TrackStep` (SymplecticIntegrators.cpp 1066-1092) with the reference momentum after the step. -/
def trackSW (c g f phi p0 ds : ℝ) (v : PS) : Outcome Unit (PS × ℝ) :=
  if g = 0 then (whenLong driftMap ds v).bind fun w => .ok (w, p0)
  else if f = 0 ∨ p0 = 0 then .ub
  else
    let k := 2 * π * f / c
    let half := c / f / 2
    if (trunc (ds / half) : ℝ) * half ≠ ds then .ub
    else (rsMap (g * ds / p0) 0 k phi 0 ds v).bind fun w => .ok (w, p0 + g * ds * cos phi)

end

end Verif.Symplectic
