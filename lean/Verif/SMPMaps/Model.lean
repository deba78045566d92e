import Mathlib.Analysis.SpecialFunctions.Complex.Arg
import Verif.Multipole.Model
import Verif.Slices.Model
import Verif.Transport.Model

/-!
# Model of the integrators for slices

Merlin++/SMPStdIntegrators.cpp, with the templates of Merlin++/RMap.h that it uses.  The maps themselves are those of
`Verif.Transport` (TransportRMaps.cpp), their application to moments that of `Verif.LinMap`.  The file defines
`_USE_2x2_`, so that of the two versions of `ThickLens` and `ApplyTWRF` the one with `R2Map` is meant.  Doubles are real
numbers; a division by zero has outcome `ub`.
-/

namespace Verif.SMPMaps
open Verif Real Verif.Multipole Verif.LinMap Verif.Slices Verif.Transport

noncomputable section

/-- `RMap::Apply(TPSMoments<N>&)` (RMap.h 148-161) for a slice: means and second moments start from zero. -/
def applyR (m : Map ℝ) (s : Slice ℝ) : Outcome Unit (Slice ℝ) :=
  (applyVec m s.x).bind fun y => .ok ⟨y, applyCov 4 m s.c, s.q⟩

/-- The three calls of `ApplyR2Map` for a slice (SMPStdIntegrators.cpp 52-54, 65-67, 162-164). -/
def applyR2 (rx ry : R2 ℝ) (s : Slice ℝ) : Slice ℝ :=
  ⟨applyR2Vec ry (applyR2Vec rx s.x 0) 1, applyPlanes rx ry s.c, s.q⟩

/-- `ThickLens` (SMPStdIntegrators.cpp 29-42, 76-81). -/
structure Thick where
  len : ℝ
  k1 : ℝ
  thetaX : ℝ
  thetaY : ℝ
  kick : Bool

open Classical in
/-- `ThickLens::ThickLens` (SMPStdIntegrators.cpp 32-42). -/
def Thick.new (l : ℝ) (k0 : Cx ℝ) (K : ℝ) : Thick :=
  if k0 ≠ 0 then ⟨l / 2, K, -k0.re * l, k0.im * l, true⟩ else ⟨l, K, 0, 0, false⟩

open Classical in
/-- `ThickLens::Apply` (SMPStdIntegrators.cpp 44-74). -/
def Thick.apply (t : Thick) (s : Slice ℝ) : Outcome Unit (Slice ℝ) :=
  let ct := s.x 4
  let dp := s.x 5
  if 1 + dp = 0 then .ub
  else
    let mx := quad2 t.len (t.k1 / (1 + dp))
    let my := quad2 t.len (-t.k1 / (1 + dp))
    let s1 := applyR2 mx my s
    let s2 := if t.kick then
        let x := upd s1.x 1 (s1.x 1 + t.thetaX / (1 + dp))
        let x := upd x 3 (x 3 + t.thetaY / (1 + dp))
        applyR2 mx my { s1 with x := x }
      else s1
    .ok { s2 with x := upd (upd s2.x 4 ct) 5 dp }

open Classical in
/-- `ThinLensKick::Apply` (SMPStdIntegrators.cpp 85-111). -/
def thinApply (k0 : Cx ℝ) (k1 : ℝ) (s : Slice ℝ) : Outcome Unit (Slice ℝ) :=
  if 1 + s.x 5 = 0 then .ub
  else
    let dpp := 1 / (1 + s.x 5)
    let x := upd s.x 1 (s.x 1 - dpp * k0.re)
    let x := upd x 3 (x 3 + dpp * k0.im)
    let s := { s with x := x }
    if k1 ≠ 0 then
      let k := dpp * k1
      applyR (idMap ++ [term 2 1 k, term 4 3 (-k)]) s
    else .ok s

open Classical in
/-- `ApplySolenoid::Apply` (SMPStdIntegrators.cpp 113-131). -/
def solApply (ds k : ℝ) (s : Slice ℝ) : Outcome Unit (Slice ℝ) :=
  if 1 + s.x 5 = 0 then .ub
  else applyR (solMap ds (k / (1 + s.x 5))) s

/-- `ApplyTWRF::ApplyTWRF` (SMPStdIntegrators.cpp 146-150): the reference momentum at the end. -/
def twE1 (p0 g ds phi : ℝ) : ℝ := p0 + g * ds * cos phi

open Classical in
/-- `ApplyTWRF::Apply` (SMPStdIntegrators.cpp 152-172); `k` is `twoPi * f / SpeedOfLight`. -/
def twApply (p0 ds g k phi0 : ℝ) (entr exit : Bool) (s : Slice ℝ) : Outcome Unit (Slice ℝ) :=
  let ct := s.x 4
  let ein := p0 * (1 + s.x 5)
  let phi := phi0 - k * ct
  let eout := ein + g * ds * cos phi
  let e1 := twE1 p0 g ds phi0
  if ein = 0 ∨ eout = 0 ∨ e1 = 0 then .ub
  else
    let m := twrf2 ds g phi ein entr exit
    let s1 := applyR2 m m s
    .ok { s1 with x := upd (upd s1.x 4 ct) 5 (eout / e1 - 1) }

/-- `ApplySimpleDrift::Apply` (RMap.h 366-385) for a slice. -/
def driftApply (z : ℝ) (s : Slice ℝ) : Slice ℝ := ⟨driftVec z s.x, driftCov4 4 z s.c, s.q⟩

/-- `RotateBunchAboutZ` (SMPStdIntegrators.cpp 200-205) for one slice. -/
def rotateZ (phi : ℝ) (s : Slice ℝ) : Outcome Unit (Slice ℝ) := applyR (srotMap (cos phi) (sin phi)) s

/-- `map_applicator_dp::operator()` (RMap.h 455-461) for a sparse map and a slice. -/
def applyRdp (m : Map ℝ) (ratio : ℝ) (s : Slice ℝ) : Outcome Unit (Slice ℝ) :=
  let dp := s.x 5
  (applyR m { s with x := upd s.x 5 (ratio * (1 + dp) - 1) }).bind fun s1 => .ok { s1 with x := upd s1.x 5 dp }

/-- The loop of `ApplyMap` (RMap.h 465-475) over the slices. -/
def forEach (f : Slice ℝ → Outcome Unit (Slice ℝ)) : List (Slice ℝ) → Outcome Unit (List (Slice ℝ))
  | [] => .ok []
  | s :: l => (f s).bind fun s' => (forEach f l).bind fun l' => .ok (s' :: l')

/-- `ApplyMap` on a bunch. -/
def onBunch (f : Slice ℝ → Outcome Unit (Slice ℝ)) (b : SBunch ℝ) : Outcome Unit (SBunch ℝ) :=
  (forEach f b.slices).bind fun l => .ok { b with slices := l }

/-- `ApplyDrift` (SMPStdIntegrators.cpp 207-210). -/
def drift (z : ℝ) (b : SBunch ℝ) : Outcome Unit (SBunch ℝ) := onBunch (fun s => .ok (driftApply z s)) b

open Classical in
/-- `DriftCI::TrackStep` (SMPStdIntegrators.cpp 222-229). -/
def driftStep (ds : ℝ) (b : SBunch ℝ) : Outcome Unit (SBunch ℝ) := if ds ≠ 0 then drift ds b else .ok b

/-- A bend with its curvature, tilt and field. -/
structure Bend where
  h : ℝ
  tilt : ℝ
  field : MField ℝ

/-- `SectorBend::GetMatchedMomentum` (SectorBend.cpp 86-93), `cl` being `1.0e-09 * SpeedOfLight`. -/
def matched (cl h q : ℝ) (m : MField ℝ) : ℝ := cl * ((m.terms.getD 0 0).re * m.b0) / h / q

/-- The strength of order `n` (SMPStdIntegrators.cpp 260, 334-335), `ec` being `eV * SpeedOfLight`. -/
def strength (ec q p0 : ℝ) (m : MField ℝ) (n : Nat) : Outcome Unit (Cx ℝ) :=
  (getKn m n (p0 / ec)).bind fun k => .ok (Cx.smul q k)

open Classical in
/-- One slice in `SectorBendCI::TrackStep` (SMPStdIntegrators.cpp 231-279) with the gradient `K1` and the matched
momentum known. -/
def bendSlice (tol : ℝ) (c : Bend) (ds K1 p0 pref : ℝ) (s : Slice ℝ) : Outcome Unit (Slice ℝ) :=
  let m := bendMap ds c.h K1
  let s1 : Outcome Unit (Slice ℝ) := if c.tilt ≠ 0 then rotateZ c.tilt s else .ok s
  s1.bind fun s1 =>
  let s2 : Outcome Unit (Slice ℝ) := if ¬ |pref - p0| ≤ tol then applyRdp m (p0 / pref) s1 else applyR m s1
  s2.bind fun s2 => if c.tilt ≠ 0 then rotateZ (-c.tilt) s2 else .ok s2

open Classical in
/-- `SectorBendCI::TrackStep` (SMPStdIntegrators.cpp 231-279); `q` is the sign of the charge.  The loops over the
slices that turn, bend and turn back are put together, each slice being independent of the others.  The warning about
higher multipoles has no effect. -/
def bendStep (tol ec cl q : ℝ) (c : Bend) (ds : ℝ) (b : SBunch ℝ) : Outcome Unit (SBunch ℝ) :=
  if ds = 0 then .ok b
  else if c.h = 0 ∨ q = 0 then .ub
  else
    let pref := matched cl c.h q c.field
    if ¬ 0 < pref then .ub
    else
      let K1 : Outcome Unit (Cx ℝ) := if highest c.field > 0 then strength ec q b.p0 c.field 1 else .ok 0
      K1.bind fun K1 => onBunch (bendSlice tol c ds K1.re b.p0 pref) b

/-- `SectorBendCI::ApplyPoleFaceRotation` (SMPStdIntegrators.cpp 281-306). -/
def faceStep (h rot fint hgap : ℝ) (b : SBunch ℝ) : Outcome Unit (SBunch ℝ) := onBunch (applyR (poleMap h rot fint hgap)) b

/-- The number as a complex number of Mathlib, for `abs` and `arg`. -/
def toC (k : Cx ℝ) : ℂ := ⟨k.re, k.im⟩

open Classical in
/-- One slice in `RectMultipoleCI::TrackStep` (SMPStdIntegrators.cpp 337-374) with the strengths known; `len` is the
length of the magnet. -/
def rectSlice (len ds : ℝ) (cK0 cK1 : Cx ℝ) (s : Slice ℝ) : Outcome Unit (Slice ℝ) :=
  let K1 := if cK1.im = 0 then cK1.re else ‖toC cK1‖
  let phi := if cK1.im = 0 then 0 else Complex.arg (toC cK1) / 2
  let tilt := -phi
  let s1 : Outcome Unit (Slice ℝ) := if tilt ≠ 0 then rotateZ tilt s else .ok s
  let cK0 := if phi ≠ 0 then cK0 * -(Cx.smul (1 / ‖toC cK1‖) cK1) else cK0
  s1.bind fun s1 =>
  let s2 : Outcome Unit (Slice ℝ) := if len = 0 ∧ ds = 0 then thinApply cK0 K1 s1 else (Thick.new ds cK0 K1).apply s1
  s2.bind fun s2 => if tilt ≠ 0 then rotateZ (-tilt) s2 else .ok s2

open Classical in
/-- `RectMultipoleCI::TrackStep` (SMPStdIntegrators.cpp 308-377); `eps` is the tolerance of `IsNullField`. -/
def rectStep (eps ec q len : ℝ) (m : MField ℝ) (ds : ℝ) (b : SBunch ℝ) : Outcome Unit (SBunch ℝ) :=
  if isNull eps m then drift ds b
  else (lowest m).bind fun low =>
    if low > 1 then drift ds b
    else (strength ec q b.p0 m 0).bind fun cK0 => (strength ec q b.p0 m 1).bind fun cK1 =>
      onBunch (rectSlice len ds cK0 cK1) b

open Classical in
/-- `SolenoidCI::TrackStep` (SMPStdIntegrators.cpp 379-396). -/
def solStep (eps ec q bz ds : ℝ) (b : SBunch ℝ) : Outcome Unit (SBunch ℝ) :=
  if |bz - 0| ≤ eps then drift ds b
  else if b.p0 / ec = 0 then .ub
  else onBunch (solApply ds (q * bz / (b.p0 / ec))) b

open Classical in
/-- `TWRFStructureCI::TrackStep` (SMPStdIntegrators.cpp 422-448): amplitude, `k`, phase, and whether the step begins at
the entrance and ends at the exit. -/
def twStep (g k phi : ℝ) (entr exit : Bool) (ds : ℝ) (b : SBunch ℝ) : Outcome Unit (SBunch ℝ) :=
  if ds = 0 then .ok b
  else if g = 0 then drift ds b
  else (onBunch (twApply b.p0 ds g k phi entr exit) b).bind fun b' => .ok { b' with p0 := twE1 b.p0 g ds phi }

end

end Verif.SMPMaps
