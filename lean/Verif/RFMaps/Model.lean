import Mathlib.Algebra.Field.Basic

/-!
# Model of the integrators of accelerating and deflecting structures

Merlin++/LCAVintegrator.cpp and Merlin++/TransRFIntegrator.cpp.  Doubles are elements of a field, `cs` and `sn` are the
functions `cos` and `sin`.  A division by zero gives zero here; the theorems ask for divisors other than zero.
-/

namespace Verif.RFMaps

variable {K : Type} [Field K] [DecidableEq K]

/-- The coordinates of a particle (PSTypes.h). -/
structure Part (K : Type) where
  x : K
  xp : K
  y : K
  yp : K
  ct : K
  dp : K
  deriving DecidableEq

/-- The field of a structure (`RFAcceleratingField`, `TransverseRFfield`): amplitude, wave number and phase. -/
structure RF (K : Type) where
  g : K
  k : K
  phi : K

/-- `EntranceFieldMap::Apply` (LCAVintegrator.cpp 20-39). -/
def endMap (cs : K → K) (g k phi0 p : K) (x : Part K) : Part K :=
  let ez := g / p
  let a := - (1 / 2) * ez * cs (phi0 - k * x.ct) / (1 + x.dp)
  { x with xp := x.xp + a * x.x, yp := x.yp + a * x.y }

/-- `DriftMap::Apply` (LCAVintegrator.cpp 41-55). -/
def driftMap (s : K) (x : Part K) : Part K := { x with x := x.x + x.xp * s, y := x.y + x.yp * s }

/-- `E1` (LCAVintegrator.cpp 69-72), which is also `Eav()`. -/
def lcavE1 (cs : K → K) (g ds phi p0 : K) : K := p0 + g * ds * cs phi

/-- `LCAVMap::Apply` (LCAVintegrator.cpp 74-94). -/
def lcavMap (cs : K → K) (g ds k phi0 p0 : K) (x : Part K) : Part K :=
  let cosphi := cs (phi0 - k * x.ct)
  let dE := g * ds * cosphi
  let ein := p0 * (1 + x.dp)
  let eout := ein + dE
  let fact := ein / eout
  let r12 := ds * (1 - 1 / 2 * dE / ein)
  ⟨x.x + r12 * x.xp, x.xp * fact, x.y + r12 * x.yp, x.yp * fact, x.ct, eout / lcavE1 cs g ds phi0 p0 - 1⟩

/-- `ApplyRFMap::Apply` (LCAVintegrator.cpp 104-122). -/
def rfMap (cs : K → K) (vn k phi0 ds : K) (p : Part K) : Part K :=
  { p with dp := p.dp + vn * cs (phi0 - k * p.ct), x := p.x + ds * p.xp, y := p.y + ds * p.yp }

/-- `ApplyEndField` (LCAVintegrator.cpp 134-145) of a bunch with the reference momentum `p0`. -/
def applyEnd (cs : K → K) (f : RF K) (gsgn p0 : K) (l : List (Part K)) : List (Part K) :=
  if f.g ≠ 0 then l.map (endMap cs (gsgn * f.g) f.k f.phi p0) else l

/-- `TrackStep` (LCAVintegrator.cpp 147-178): the reference momentum and the particles. -/
def lcavStep (cs : K → K) (f : RF K) (full : Bool) (ds : K) (b : K × List (Part K)) : K × List (Part K) :=
  if ds = 0 then b
  else if f.g = 0 then (b.1, b.2.map (driftMap ds))
  else if full then (lcavE1 cs f.g ds f.phi b.1, b.2.map (lcavMap cs f.g ds f.k f.phi b.1))
  else (b.1, b.2.map (rfMap cs (f.g * ds / b.1) f.k f.phi ds))

/-- `TRFMap::Apply` (TransRFIntegrator.cpp 30-43). -/
def trfMap (cs sn : K → K) (g ds k phi theta p0 : K) (x : Part K) : Part K :=
  let dA := g / p0 * ds * cs (phi - k * x.ct) / (1 + x.dp)
  let cx1 := cs theta * dA
  let cy1 := sn theta * dA
  let cx2 := 1 / 2 * cx1 * ds
  let cy2 := 1 / 2 * cy1 * ds
  let xp := x.xp + cx1
  let yp := x.yp + cy1
  { x with xp := xp, x := x.x + (cx2 + ds * xp), yp := yp, y := x.y + (cy2 + ds * yp) }

/-- `ApplyDriftWithPathLength::Apply` (RMap.h 419-437). -/
def pathDrift (s : K) (v : Part K) : Part K :=
  { v with x := v.x + s * v.xp, y := v.y + s * v.yp, ct := v.ct - s * (v.xp * v.xp + v.yp * v.yp) / 2 }

/-- `TransRFIntegrator::TrackStep` (TransRFIntegrator.cpp 57-79). -/
def trfStep (cs sn : K → K) (f : RF K) (theta ds p0 : K) (l : List (Part K)) : List (Part K) :=
  if ds = 0 then l
  else if f.g = 0 then l.map (pathDrift ds)
  else l.map (trfMap cs sn f.g ds f.k f.phi theta p0)

end Verif.RFMaps
