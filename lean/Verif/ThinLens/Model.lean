import Verif.RectMultipole.Model

/-!
# Model of the standard integrators other than rectangular multipoles, and of the integrator sets

Merlin++/StdIntegrators.cpp: `SectorBendCI` and `SWRFStructureCI` of the set THIN_LENS, `MonitorCI` and `SolenoidCI`,
which the other sets of particle tracking use too; and the choice of an integrator for a component in the sets of
StdIntegrators.cpp, TransportIntegrators.cpp, SymplecticIntegrators.cpp and SMPComponentTracker.cpp.

Doubles are real numbers; a number that is infinite or not a number, and a failing assertion, are outcome `ub`.  `eps`
is the tolerance of `fequal` (utils.h 16-19), `ec` the product of `eV` and `SpeedOfLight`, `cl` the factor
`1.0e-09 * SpeedOfLight` of the matched momentum and `c` the speed of light.
-/

namespace Verif.ThinLens
open Verif Verif.Multipole Verif.Symplectic Verif.Transport Verif.TransportMaps Verif.RectMultipole Real

noncomputable section

/-! ## Sector bends -/

/-- `RMtrx::Apply(PSvectorArray&, double)` (MatrixMaps.cpp 75-98) of the matrix of a bend with six rows and the
reference momentum `pref`. -/
def applyBend6 (R : Mat) (pref p0 : ℝ) (v : PS) : PS :=
  ofVec (MatrixMap.withMomentum (MatrixMap.applyVec 6 R) pref p0 (toVec v))

open Classical in
/-- The rotation for the tilt (StdIntegrators.cpp 187-192, 235-240). -/
def tiltBy (eps t : ℝ) (v : PS) : PS := if t ≠ 0 then Symplectic.rotate eps t v else v

open Classical in
/-- `THIN_LENS::SectorBendCI::TrackStep` (StdIntegrators.cpp 178-243) with the field after the step. -/
def thinBend (eps ec cl : ℝ) (c : TransportMaps.Bend) (b : Bunch) (ds : ℝ) (v : PS) : Outcome Unit (PS × MField ℝ) :=
  if ds = 0 then .ok (v, c.field)
  else
  let v0 := tiltBy eps c.tilt v
  let g0 := getCoefficient c.field 0 1
  let m := g0.2
  let b0 := g0.1
  if c.h = 0 ∨ b.q = 0 then .ub
  else
  let pref := matchedMomentum cl c.h b.q (b0.re * m.b0)
  if ¬ 0 < pref then .ub
  else
    (if highest m > 0 then (getKn m 1 (b.p0 / ec)).bind fun k => .ok (Cx.smul b.q k) else .ok 0).bind fun K1 =>
    let split := b0.im ≠ 0 ∨ K1.im ≠ 0 ∨ highest m > 1
    let len := if split then ds / 2 else ds
    let M := sectorBend 6 len c.h K1.re
    let v1 := applyBend6 M pref b.p0 v0
    (if split then
      let g1 := getCoefficient m 1 1
      let b1 := g1.1
      let m1 := setCoefficient g1.2 0 ⟨0, b0.im⟩ 1
      let m2 := setCoefficient m1 1 ⟨0, b1.im⟩ 1
      (thinKick eps ec m2 ds b v1).bind fun v2 =>
      .ok (applyBend6 M pref b.p0 v2, setCoefficient (setCoefficient m2 0 b0 1) 1 b1 1)
    else .ok (v1, m)).bind fun r => .ok (tiltBy eps (-c.tilt) r.1, r.2)

/-- `THIN_LENS::SectorBendCI::ApplyPoleFaceRotation` (StdIntegrators.cpp 266-271) with `TrackEntrance` and `TrackExit`
(245-264). -/
def thinFace (h : ℝ) (pf : Option Face) (v : PS) : Outcome Unit PS :=
  match pf with
  | none => .ok v
  | some f =>
    let phi := 2 * f.fint * f.hgap * h * (1 + sin f.rot * sin f.rot) / cos f.rot
    if cos f.rot = 0 ∨ cos (f.rot - phi) = 0 then .ub
    else .ok (ofVec (MatrixMap.applyVec 4 (poleFaceRot h f.rot f.fint f.hgap) (toVec v)))

/-- The passage of a bend in one step. -/
def thinThrough (eps ec cl : ℝ) (c : TransportMaps.Bend) (b : Bunch) (ds : ℝ) (v : PS) : Outcome Unit PS :=
  (thinFace c.h c.faces.entrance v).bind fun v1 =>
  (thinBend eps ec cl c b ds v1).bind fun r => thinFace c.h c.faces.exit r.1

/-! ## Standing wave structures -/

/-- `ApplyRFdp` (StdIntegrators.cpp 74-104) with full acceleration: constructor and operator. -/
def applyRFdp (vn k phi : ℝ) (R : Mat) (v : PS) : Outcome Unit PS :=
  let d0 := 1 + vn * cos phi
  let w := ofVec (MatrixMap.applyVec 4 R (toVec v))
  if d0 = 0 then .ub else .ok { w with dp := (w.dp + vn * (cos (phi - k * w.ct) - cos phi)) / d0 }

/-- `static_cast<int>` of a double within the range of integers: towards zero. -/
def toInt (x : ℝ) : ℤ := if 0 ≤ x then ⌊x⌋ else ⌈x⌉

/-- The functor on all particles. -/
def forEach (f : PS → Outcome Unit PS) : List PS → Outcome Unit (List PS)
  | [] => .ok []
  | v :: l => (f v).bind fun w => (forEach f l).bind fun l => .ok (w :: l)

open Classical in
/-- `THIN_LENS::SWRFStructureCI::TrackStep` (StdIntegrators.cpp 340-372): the particles and the reference momentum
after the step.  The matrix is computed in any case; if it has an infinite element, or one that is no number, this
matters if there is a voltage only.  `phi` with cosine zero and a structure that would stop the beam make it so. -/
def swStep (c g f phi : ℝ) (ds p0 : ℝ) (l : List PS) : Outcome Unit (List PS × ℝ) :=
  if ds = 0 then .ok (l, p0)
  else if f = 0 then .ub
  else
  let half := c / f / 2
  let ncells := toInt (ds / half)
  if (ncells : ℝ) * half ≠ ds then .ub
  else if g = 0 then .ok (l.map (thinDrift ds), p0 + g * ds * cos phi)
  else if p0 = 0 ∨ cos phi = 0 ∨ (p0 + g * ds * cos phi) / p0 ≤ 0 then .ub
  else
    (forEach (applyRFdp (g * ds / p0) (2 * π * f / c) phi (swrf 4 ncells g half phi p0)) l).bind fun l =>
    .ok (l, p0 + g * ds * cos phi)

/-! ## Monitors -/

open Classical in
/-- `MonitorCI::TrackStep` (StdIntegrators.cpp 378-401): the bunch after the step and the bunch that was measured.
`mp` is the measurement point of the monitor and `s` the integrated length before the step. -/
def monStep (len mp s ds : ℝ) (l : List PS) : Outcome Unit (List PS × Option (List PS)) :=
  if len = 0 then
    if ds = 0 then .ok (l, some l) else .ub
  else
    let mpt := mp + len / 2
    if s + ds > mpt then
      let s1 := mpt - s
      let l1 := l.map (thinDrift s1)
      .ok (l1.map (thinDrift (ds - s1)), some l1)
    else .ok (l.map (thinDrift ds), none)

/-- Steps one after the other (ComponentIntegrator.h 169-186): the bunch and all measurements. -/
def monRun (len mp : ℝ) : ℝ → List ℝ → List PS → Outcome Unit (List PS × List (List PS))
  | _, [], l => .ok (l, [])
  | s, ds :: rest, l =>
    (monStep len mp s ds l).bind fun r =>
    (monRun len mp (s + ds) rest r.1).bind fun q => .ok (q.1, r.2.toList ++ q.2)

/-! ## Solenoids -/

open Classical in
/-- `SolenoidCI::TrackStep` (StdIntegrators.cpp 404-440) of one particle. -/
def solStep (eps ec bz : ℝ) (b : Bunch) (ds : ℝ) (v : PS) : Outcome Unit PS :=
  if ds = 0 then .ok v
  else if |bz - 0| ≤ eps then .ok (thinDrift ds v)
  else if b.p0 = 0 ∨ 1 + v.dp = 0 then .ub
  else
    let brho := b.p0 / ec
    .ok (ofVec (MatrixMap.applyVec 4 (solenoid ds (b.q * bz / brho / (1 + v.dp)) 0 true true) (toVec v)))

/-! ## Integrator sets -/

/-- The classes of components. -/
inductive Cls where
  | drift | collimator | crabMarker | hollowLens | monitor | bpm | profile | marker | rectMultipole
  | quadrupole | skewQuadrupole | sextupole | skewSextupole | octupole | decapole | xcor | ycor
  | sectorBend | solenoid | travelling | standing | transverse | particleMap
  deriving DecidableEq

/-- The classes of integrators. -/
inductive Intg where
  | driftCI | sectorBendCI | rectMultipoleCI | lcav | transRF | travellingCI | standingCI | monitorCI | solenoidCI
  | markerCI | particleMapCI
  deriving DecidableEq

/-- The class whose `PrepareTracker` is called if none of its own has been found (`_PREPTRACK` in BPM.cpp 75,
Collimator.cpp 44, CorrectorDipoles.cpp 31, 51, CrabMarker.cpp 37, Drift.cpp 30, HollowElectronLens.cpp 58, Marker.cpp 15,
Monitor.cpp 56, ParticleMapComponent.cpp 49, RMSProfileMonitor.cpp 85, RectMultipole.cpp 32, SWRFStructure.cpp 47,
SectorBend.cpp 68, Solenoid.cpp 43, StandardMultipoles.cpp 15, TWRFStructure.cpp 36, TransverseRFStructure.cpp 37); none
for `AcceleratorComponent`, for which no set has an integrator. -/
def next : Cls → Option Cls
  | .collimator | .crabMarker | .hollowLens => some .drift
  | .bpm | .profile => some .monitor
  | .quadrupole | .skewQuadrupole | .sextupole | .skewSextupole | .octupole | .decapole | .xcor | .ycor =>
    some .rectMultipole
  | _ => none

/-- The component class of an integrator, to which it casts the component (StdIntegrators.h 24-64,
SymplecticIntegrators.h 21-45, LCAVintegrator.h 17, TransRFIntegrator.h 17, ParticleMapPI.h 18, SMPStdIntegrators.h
28-82) and under whose index it is registered. -/
def ofIntg : Intg → Cls
  | .driftCI => .drift
  | .sectorBendCI => .sectorBend
  | .rectMultipoleCI => .rectMultipole
  | .lcav | .travellingCI => .travelling
  | .transRF => .transverse
  | .standingCI => .standing
  | .monitorCI => .monitor
  | .solenoidCI => .solenoid
  | .markerCI => .marker
  | .particleMapCI => .particleMap

/-- The integrator sets. -/
inductive ISet where
  | thinLens | transport | symplectic | smp
  deriving DecidableEq

/-- The integrators of a set (StdIntegrators.cpp 116-126, TransportIntegrators.cpp 28-38, SymplecticIntegrators.cpp
33-43, SMPComponentTracker.cpp 14-22). -/
def integrators : ISet → List Intg
  | .thinLens => [.driftCI, .sectorBendCI, .rectMultipoleCI, .lcav, .transRF, .monitorCI, .solenoidCI, .markerCI,
      .particleMapCI]
  | .transport => [.driftCI, .sectorBendCI, .rectMultipoleCI, .lcav, .transRF, .solenoidCI, .standingCI, .markerCI,
      .monitorCI]
  | .symplectic => [.driftCI, .travellingCI, .standingCI, .rectMultipoleCI, .sectorBendCI, .markerCI, .monitorCI,
      .solenoidCI]
  | .smp => [.driftCI, .sectorBendCI, .rectMultipoleCI, .travellingCI, .monitorCI, .solenoidCI, .markerCI]

/-- `SelectIntegrator` (ComponentTracker.cpp 129-141): the integrator registered for the class; the last one, if
several are (ComponentTracker.cpp 44-57). -/
def registered (s : ISet) (c : Cls) : Option Intg := (integrators s).reverse.find? fun i => ofIntg i = c

/-- `PrepareTracker`: the class itself, then the next one (`_PREPTRACK`, ComponentTracker.h 353); without an integrator
the exception `UnknownComponent` (AcceleratorComponent.cpp 38-44).  No chain is longer than two. -/
def select (s : ISet) (c : Cls) : Outcome Unit Intg :=
  match registered s c with
  | some i => .ok i
  | none =>
    match next c with
    | none => .throw ()
    | some d =>
      match registered s d with
      | some i => .ok i
      | none => .throw ()

end

end Verif.ThinLens
