import Mathlib.Algebra.Order.Field.Basic
import Mathlib.Algebra.Order.Floor.Ring
import Mathlib.Data.List.Sort
import Mathlib.Data.List.Dedup
import Verif.LinMap.Model
import Verif.Transform.Model

/-!
# Model of bunches of slices

Merlin++/SliceMacroParticle.h and .cpp, Merlin++/SMPBunch.h and .cpp, Merlin++/SMPTransform3D.cpp,
Merlin++/PSvectorTransform3D.cpp, Merlin++/SMPBunchConstructor.cpp, Merlin++/ParticleBunchConverter.cpp and
Merlin++/SMPBunchConverter.cpp.  Doubles are elements of an ordered field.  Indices of coordinates are
`x, x', y, y', ct, dp` from zero (PSTypes.h).
-/

namespace Verif.Slices
open Verif Verif.LinMap Verif.Rotation Verif.Transform

variable {K : Type} [Field K] [LinearOrder K] [IsStrictOrderedRing K]

/-- `SliceMacroParticle` (SliceMacroParticle.h 20-71): six means (`PSvector`), the covariances of the first four
coordinates (`TCovMtrx<double, 4>`) and the charge. -/
structure Slice (K : Type) where
  x : Nat → K
  c : Cov K
  q : K

/-- `PSmoments` (PSmoments.h 29-58, 96): six means and the covariances of six coordinates. -/
structure Moments (K : Type) where
  x : Nat → K
  c : Cov K

/-- `SMPBunch` (SMPBunch.h 30-165) with the reference momentum and time of its base class. -/
structure SBunch (K : Type) where
  p0 : K
  ct0 : K
  qt : K
  slices : List (Slice K)

/-- The constructor of an empty bunch (SMPBunch.cpp 19-22).  The charge `q` is only used for its sign. -/
def SBunch.empty (p : K) : SBunch K := ⟨p, 0, 0, []⟩

/-- The indices of a double loop `for i < n, for j <= i`. -/
def pairs (n : Nat) : List (Nat × Nat) := (List.range n).flatMap fun i => (List.range (i + 1)).map fun j => (i, j)

/-- The default constructor (SliceMacroParticle.cpp 17-20). -/
def Slice.new (q : K) : Slice K := ⟨fun _ => 0, fun _ => 0, q⟩

/-- The constructor from six-dimensional moments (SliceMacroParticle.cpp 22-35). -/
def Slice.ofMoments (s : Moments K) (z dp q : K) : Slice K :=
  let x1 := (List.range 4).foldl (fun x i => upd x i (s.x i)) (fun _ => 0)
  let c1 := (pairs 4).foldl (fun c p => setSig c p.1 p.2 (sig 6 s.c p.1 p.2)) (fun _ => 0)
  ⟨upd (upd x1 4 z) 5 dp, c1, q⟩

/-- `GetTotalCharge` (SMPBunch.cpp 74-77). -/
def SBunch.totalCharge (b : SBunch K) : K := b.qt

/-- One slice in `GetMoments` (SMPBunch.cpp 85-94). -/
def momentStep (qt : K) (s : Moments K) (p : Slice K) : Moments K :=
  let w := p.q / qt
  ⟨(List.range 6).foldl (fun x i => upd x i (x i + w * p.x i)) s.x,
   (pairs 6).foldl (fun c ij => setSig c ij.1 ij.2
     (sig 6 c ij.1 ij.2 + w * (p.x ij.1 * p.x ij.2 + sig 4 p.c ij.1 ij.2))) s.c⟩

/-- `GetMoments(PSmoments& sigma)` (SMPBunch.cpp 79-103).  `sigma.zero()` is `PSvector::zero` (PSvector.h 141-144),
which clears the means and leaves the covariances (TCovMtrx.h 105-108 has the name `Zero`). -/
def SBunch.getMoments (b : SBunch K) (sigma : Moments K) : Moments K :=
  let s := b.slices.foldl (momentStep b.qt) ⟨fun _ => 0, sigma.c⟩
  ⟨s.x, (pairs 6).foldl (fun c ij => setSig c ij.1 ij.2 (sig 6 c ij.1 ij.2 - s.x ij.1 * s.x ij.2)) s.c⟩

/-- `GetMoments()` (Bunch.h 51-55): of a new `PSmoments`, which is zero. -/
def SBunch.getMoments0 (b : SBunch K) : Moments K := b.getMoments ⟨fun _ => 0, fun _ => 0⟩

/-- `PSmoments2D` (PSmoments.h 64-93): two means and three second moments. -/
structure Moments2 (K : Type) where
  m0 : K
  m1 : K
  s00 : K
  s01 : K
  s11 : K
  deriving DecidableEq

/-- `GetProjectedMoments` (SMPBunch.cpp 105-125).  `x(u, v)` is zero for coordinates beyond the fourth. -/
def SBunch.getProjectedMoments (b : SBunch K) (u v : Nat) (sigma : Moments2 K) : Moments2 K :=
  let s := b.slices.foldl (fun s p =>
    let w := p.q / b.qt
    ⟨s.m0 + w * p.x u, s.m1 + w * p.x v, s.s00 + w * (sig 4 p.c u u + p.x u * p.x u),
     s.s01 + w * (sig 4 p.c u v + p.x u * p.x v), s.s11 + w * (sig 4 p.c v v + p.x v * p.x v)⟩) sigma
  ⟨s.m0, s.m1, s.s00 - s.m0 * s.m0, s.s01 - s.m0 * s.m1, s.s11 - s.m1 * s.m1⟩

/-- `GetChargeWeightedCentroid(PScoord)` (SliceMacroParticle.h 36-39) and the others (40-49). -/
def Slice.weighted (s : Slice K) (i : Nat) : K := s.q * s.x i

/-- `GetCentroid` (SMPBunch.cpp 127-136). -/
def SBunch.getCentroid (b : SBunch K) : Nat → K :=
  let s := b.slices.foldl (fun x p => fun i => x i + p.weighted i) (fun _ => 0)
  fun i => s i / b.qt

/-- `GetProjectedCentroid` (SMPBunch.cpp 138-147). -/
def SBunch.getProjectedCentroid (b : SBunch K) (u v : Nat) : K × K :=
  let s := b.slices.foldl (fun x p => (x.1 + p.weighted u, x.2 + p.weighted v)) (0, 0)
  (s.1 / b.qt, s.2 / b.qt)

/-- `AdjustRefMomentumToMean` (SMPBunch.cpp 149-163). -/
def SBunch.adjustRefMomentumToMean (b : SBunch K) : SBunch K :=
  let dp0 := b.slices.foldl (fun a p => a + p.x 5 * p.q) 0
  let ddp := dp0 / b.qt + 1
  { b with slices := b.slices.map (fun p => { p with x := upd p.x 5 (p.x 5 / ddp) }), p0 := b.p0 * ddp }

/-- `AdjustRefTimeToMean` (SMPBunch.cpp 165-174). -/
def SBunch.adjustRefTimeToMean (b : SBunch K) : SBunch K :=
  let ct := b.slices.foldl (fun a p => a + p.x 4 * p.q) 0
  { b with ct0 := b.ct0 + ct / b.qt }

/-- `std::sort(begin(), end())` by `operator<` (SliceMacroParticle.h 64-67).  Slices of the same `ct` keep their
order here, which the library does not promise. -/
def sortCT (l : List (Slice K)) : List (Slice K) := l.insertionSort (fun a b => a.x 4 ≤ b.x 4)

/-- `SortByCT` (SMPBunch.cpp 218-221). -/
def SBunch.sortByCT (b : SBunch K) : SBunch K := { b with slices := sortCT b.slices }

/-- `AddParticle` (SMPBunch.cpp 208-216). -/
def SBunch.addParticle (b : SBunch K) (p : Slice K) (doSort : Bool) : SBunch K :=
  let l := b.slices ++ [p]
  { b with slices := if doSort then sortCT l else l, qt := b.qt + p.q }

/-- `AdjustCentroid` (SMPBunch.cpp 223-234). -/
def SBunch.adjustCentroid (b : SBunch K) (s : Nat → K) : SBunch K :=
  { b with slices := b.slices.map fun p => 
      ⟨upd (upd (upd (upd (upd (upd p.x 0 (p.x 0 + s 0)) 1 (p.x 1 + s 1)) 2 (p.x 2 + s 2)) 3 (p.x 3 + s 3))
        4 (p.x 4 + s 4)) 5 (p.x 5 + s 5), p.c, p.q⟩ }

/-! ## Coordinate transformations -/

/-- `SMPTransform3D` (SMPTransform3D.h 36-39): a 2×2 matrix, offsets, angles and two flags. -/
structure STransform (K : Type) where
  r11 : K
  r12 : K
  r21 : K
  r22 : K
  dx : K
  dy : K
  tx : K
  ty : K
  noRot : Bool
  nullRot : Bool

/-- `R2Map::IsIdentity` (RMap.h 240-243): only the diagonal is compared. -/
def r2IsIdentity (r11 r22 : K) : Bool := fequal (1 / 1000000) r11 1 && fequal (1 / 1000000) r22 1

/-- The constructor (SMPTransform3D.cpp 64-84).  The angles, which are not used without a rotation, are zero then
(they have no value in the program). -/
def STransform.ofT3 (t : T3 K) : STransform K :=
  if t.r.isIdentity then ⟨0, 0, 0, 0, t.x0.x, t.x0.y, 0, 0, true, false⟩
  else
    let m := t.r.getMatrix
    ⟨m.m00, m.m01, m.m10, m.m11, t.x0.x, t.x0.y, m.m02, m.m12, false, r2IsIdentity m.m00 m.m11⟩

/-- `RotateMoments` (SMPTransform3D.cpp 24-58). -/
def rotateMoments (r : STransform K) (p : Slice K) : Slice K :=
  let r11 := r.r11; let r12 := r.r12; let r21 := r.r21; let r22 := r.r22
  let s := fun i j => sig 4 p.c i j
  let x := r11 * p.x 0 + r12 * p.x 2
  let xp := r11 * p.x 1 + r12 * p.x 3
  let y := r21 * p.x 0 + r22 * p.x 2
  let yp := r21 * p.x 1 + r22 * p.x 3
  let s00 := r11 * (r11 * s 0 0 + r12 * s 2 0) + r12 * (r11 * s 2 0 + r12 * s 2 2)
  let s10 := r11 * (r11 * s 1 0 + r12 * s 3 0) + r12 * (r11 * s 2 1 + r12 * s 3 2)
  let s11 := r11 * (r11 * s 1 1 + r12 * s 3 1) + r12 * (r11 * s 3 1 + r12 * s 3 3)
  let s20 := r11 * (r21 * s 0 0 + r22 * s 2 0) + r12 * (r21 * s 2 0 + r22 * s 2 2)
  let s21 := r11 * (r21 * s 1 0 + r22 * s 2 1) + r12 * (r21 * s 3 0 + r22 * s 3 2)
  let s22 := r21 * (r21 * s 0 0 + r22 * s 2 0) + r22 * (r21 * s 2 0 + r22 * s 2 2)
  let s30 := r11 * (r21 * s 1 0 + r22 * s 3 0) + r12 * (r21 * s 2 1 + r22 * s 3 2)
  let s31 := r11 * (r21 * s 1 1 + r22 * s 3 1) + r12 * (r21 * s 3 1 + r22 * s 3 3)
  let s32 := r21 * (r21 * s 1 0 + r22 * s 3 0) + r22 * (r21 * s 2 1 + r22 * s 3 2)
  let s33 := r21 * (r21 * s 1 1 + r22 * s 3 1) + r22 * (r21 * s 3 1 + r22 * s 3 3)
  { p with
    x := upd (upd (upd (upd p.x 0 x) 1 xp) 2 y) 3 yp
    c := setSig (setSig (setSig (setSig (setSig (setSig (setSig (setSig (setSig (setSig p.c
      0 0 s00) 1 0 s10) 1 1 s11) 2 0 s20) 2 1 s21) 2 2 s22) 3 0 s30) 3 1 s31) 3 2 s32) 3 3 s33 }

/-- `SMPTransform3D::Apply` (SMPTransform3D.cpp 87-103). -/
def STransform.apply (t : STransform K) (p : Slice K) : Slice K :=
  let p1 := { p with x := upd (upd p.x 0 (p.x 0 - t.dx)) 2 (p.x 2 - t.dy) }
  if t.noRot then p1
  else
    let p2 := if t.nullRot then p1 else rotateMoments t p1
    { p2 with x := upd (upd p2.x 1 (p2.x 1 + t.tx)) 3 (p2.x 3 + t.ty) }

/-- `ApplyTransformation` (SMPBunch.cpp 192-206) with the value it returns.  `eps` is the tolerance of
`Transform3D::isIdentity` (Transform3D.h, Space3D.h). -/
def SBunch.applyTransformation (eps : K) (b : SBunch K) (t : T3 K) : SBunch K × Bool :=
  if t.isIdentity eps then (b, true)
  else ({ b with slices := b.slices.map (STransform.ofT3 t).apply }, false)

/-- `PSvectorTransform3D::Apply` (PSvectorTransform3D.cpp 16-46) on the six coordinates of a particle. -/
def particleApply (t : T3 K) (p : Nat → K) : Nat → K :=
  if t.r.isIdentity then
    upd (upd p 0 (p 0 + (t.x0.z * p 1 - t.x0.x))) 2 (p 2 + (t.x0.z * p 3 - t.x0.y))
  else
    let X := t.point ⟨p 0, p 2, 0⟩
    let V := t.vector ⟨p 1, p 3, 1⟩
    let vx := V.x / V.z
    let vy := V.y / V.z
    upd (upd (upd (upd p 0 (X.x - X.z * vx)) 2 (X.y - X.z * vy)) 1 vx) 3 vy

/-! ## Files -/

/-- `SliceMacroParticle::Write` (SliceMacroParticle.cpp 46-69): the numbers of the row.  Rounding to seven digits is
not modelled; `sqrt` is the square root of the library. -/
def Slice.write (sqrt : K → K) (p : Slice K) : List K :=
  [p.q, p.x 4, p.x 5] ++ (List.range 4).map p.x ++ (List.range 4).map (fun i => sqrt (var 4 p.c i)) ++
    (([1, 2, 3] : List Nat).flatMap fun i => (List.range i).map fun j => sig 4 p.c i j)

/-- `SliceMacroParticle::Read` (SliceMacroParticle.cpp 71-106) from the numbers left in the stream; `none` when
the stream fails. -/
def Slice.read (ts : List K) : Option (Slice K × List K) :=
  match ts with
  | q :: ct :: dp :: m0 :: m1 :: m2 :: m3 :: d0 :: d1 :: d2 :: d3 :: s10 :: s20 :: s21 :: s30 :: s31 :: s32 :: rest =>
    some (⟨upd (upd (upd (upd (upd (upd (fun _ => 0) 4 ct) 5 dp) 0 m0) 1 m1) 2 m2) 3 m3,
      setSig (setSig (setSig (setSig (setSig (setSig (setVar (setVar (setVar (setVar (fun _ => 0) 0 (d0 * d0))
        1 (d1 * d1)) 2 (d2 * d2)) 3 (d3 * d3)) 1 0 s10) 2 0 s20) 2 1 s21) 3 0 s30) 3 1 s31) 3 2 s32, q⟩, rest)
  | _ => none

/-- A file: the header of three numbers, if it is complete, and the numbers after it. -/
structure File (K : Type) where
  header : Option (K × K × Nat)
  rest : List K

/-- `Output` (SMPBunch.cpp 176-184). -/
def SBunch.output (sqrt : K → K) (b : SBunch K) : File K :=
  ⟨some (b.p0, b.ct0, b.slices.length), b.slices.flatMap (·.write sqrt)⟩

omit [LinearOrder K] [IsStrictOrderedRing K] in
theorem Slice.read_shorter {ts r : List K} {p : Slice K} (h : Slice.read ts = some (p, r)) : r.length < ts.length := by
  unfold Slice.read at h
  split at h
  · injection h with h
    injection h with _ h
    subst h
    simp only [List.length_cons]
    omega
  · exact absurd h (by simp)

/-- The loop `while(ifs)` (SMPBunch.cpp 47-57). -/
def readSlices (ts : List K) : List (Slice K) :=
  match _h : Slice.read ts with
  | none => []
  | some (p, rest) => p :: readSlices rest
termination_by ts.length
decreasing_by exact Slice.read_shorter _h

/-- Why the program stops (SMPBunch.cpp 28-32, 42-46, 59-63). -/
inductive Err where
  | notFound
  | badFormat
  deriving DecidableEq

/-- The constructor from a file (SMPBunch.cpp 24-67); `none` is a file that cannot be opened. -/
def SBunch.ofFile (f : Option (File K)) : Outcome Err (SBunch K) :=
  match f with
  | none => .throw .notFound
  | some f =>
    match f.header with
    | none => .throw .badFormat
    | some (p0, ct0, nmp) =>
      let l := readSlices f.rest
      if l.length = nmp then .ok ⟨p0, ct0, l.foldl (fun a p => a + p.q) 0, sortCT l⟩ else .throw .badFormat

/-! ## Construction from beam parameters -/

/-- `NormalBin` (erfcc.cpp 13-17), with `root2` and `erfc` of the library. -/
def normalBin (erfc : K → K) (root2 x1 x2 : K) : K := 1 / 2 * (erfc (x1 / root2) - erfc (x2 / root2))

/-- `MakeDistribution` (SMPBunchConstructor.cpp 17-25) of `n` bins; `x += dx` accumulates. -/
def makeDistribution (erfc : K → K) (root2 ns : K) (n : Nat) : List K :=
  let dx := 2 * ns / n
  (List.range n).map fun k : Nat => normalBin erfc root2 (-ns + k * dx) (-ns + k * dx + dx)

/-- The numbers of `BeamData` that the construction uses besides the moments without dispersion (BeamData.h). -/
structure BeamPars (K : Type) where
  p0 : K
  charge : K
  sigZ : K
  sigDp : K
  dx : K
  dxp : K
  dy : K
  dyp : K

/-- `ConstructBunch` (SMPBunchConstructor.cpp 41-91): `s` is `BeamDataToSigmaMtrx` without dispersion (lines 47-53),
`ns` by `np` the numbers of slices and of macro-particles in each, `nSig` the ranges `nSigZ` and `nSigDP`
(lines 32-35, both 3). -/
def constructBunch (erfc : K → K) (root2 : K) (bp : BeamPars K) (s : Moments K) (ns np : Nat) (nSig : K × K) :
    SBunch K :=
  let zdist := makeDistribution erfc root2 nSig.1 ns
  let dpdist := makeDistribution erfc root2 nSig.2 np
  let dz := 2 * nSig.1 * bp.sigZ / ns
  let ddp := 2 * nSig.2 * bp.sigDp / np
  let z0 := -nSig.1 * bp.sigZ + dz / 2
  let dp0 := -nSig.2 * bp.sigDp + ddp / 2
  (List.range ns).foldl (fun b (k : Nat) =>
    (List.range np).foldl (fun b (l : Nat) =>
      let z := z0 + (k : K) * dz
      let dp := dp0 + (l : K) * ddp
      let m := Slice.ofMoments s z dp (bp.charge * zdist.getD k 0 * dpdist.getD l 0)
      let m := { m with x := upd (upd (upd (upd m.x 0 (m.x 0 + bp.dx * dp)) 1 (m.x 1 + bp.dxp * dp))
        2 (m.x 2 + bp.dy * dp)) 3 (m.x 3 + bp.dyp * dp) }
      b.addParticle m false) b) (SBunch.empty bp.p0)

/-! ## Conversion from and to particles -/

/-- A bunch of particles: `ParticleBunch` with the charge of each particle. -/
structure PBunch (K : Type) where
  p0 : K
  ct0 : K
  qPer : K
  ps : List (Nat → K)

/-- `ParticleBunch::GetTotalCharge` (ParticleBunch.cpp 222-225). -/
def PBunch.totalCharge (b : PBunch K) : K := b.qPer * b.ps.length

/-- The conversion of a double to `int`: towards zero. -/
def toInt [FloorRing K] (x : K) : Int := if 0 ≤ x then ⌊x⌋ else -⌊-x⌋

/-- The scan for the extreme values of a coordinate, which starts from zero (ParticleBunchConverter.cpp 38-61). -/
def scan (i : Nat) (ps : List (Nat → K)) : K × K :=
  ps.foldl (fun a p => (if p i < a.1 then p i else a.1, if p i > a.2 then p i else a.2)) (0, 0)

/-- The range of a coordinate (ParticleBunchConverter.cpp 37-71): `nSig = 0` takes the extreme values, otherwise
`nSig` times the standard deviation on either side of zero.  (The scan is made when either of the two is zero,
and its result used only for that one.) -/
def range (nSig std : K) (i : Nat) (ps : List (Nat → K)) : K × K :=
  if nSig = 0 then scan i ps else (-(nSig * std), nSig * std)

/-- The bin of a coordinate (ParticleBunchConverter.cpp 78-83). -/
def binOf [FloorRing K] (n : Nat) (r : K × K) (u : K) : Int := toInt ((u - r.1) * (((n : K) - 1) / (r.2 - r.1)))

/-- `ParticleBunchConverter` (ParticleBunchConverter.cpp 26-109).  `m` is what `GetMoments` returns, `sz` and `sdp`
its `std(4)` and `std(5)`.  An empty range divides by zero, and the conversion of what results to `int` is
undefined (as long as there are particles).  The argument `adjust` is not used by the program.  The counts of the histogram (lines 77-89) are
taken by counting for each of its cells. -/
def fromParticles [FloorRing K] (b : PBunch K) (m : Moments K) (sz sdp : K) (nct ndp : Nat) (nSigZ nSigDP : K)
    (_adjust : Bool) : Outcome Unit (SBunch K) :=
  let rct := range nSigZ sz 4 b.ps
  let rdp := range nSigDP sdp 5 b.ps
  if b.ps ≠ [] ∧ (rct.1 = rct.2 ∨ rdp.1 = rdp.2) then .ub else
  let dct := (rct.2 - rct.1) / nct
  let ddp := (rdp.2 - rdp.1) / ndp
  let h := fun i j : Nat => b.ps.countP fun p => decide (binOf nct rct (p 4) = i) && decide (binOf ndp rdp (p 5) = j)
  let q0 := b.totalCharge / b.ps.length
  .ok ((List.range nct).foldl (fun s (i : Nat) =>
    (List.range ndp).foldl (fun s (j : Nat) =>
      s.addParticle (Slice.ofMoments m (rct.1 + dct / 2 + (i : K) * dct) (rdp.1 + ddp / 2 + (j : K) * ddp)
        (q0 * h i j)) false) s) (SBunch.empty b.p0))

/-- The width with which a coordinate is smeared (SMPBunchConverter.cpp 73-109) before it is squared:
half of the distance to the next of the values in the set; for the last value the program
decrements `rbegin()`, which is not a position of the set. -/
def smear (vals : List K) (u : K) : Outcome Unit K :=
  if vals.dedup.length > 1 then
    match (vals.insertionSort (· ≤ ·)).find? (fun v => decide (u < v)) with
    | some v => .ok (|v - u| / 2)
    | none => .ub
  else .ok 0

/-- The particles of all slices (SMPBunchConverter.cpp 58-123).  `draw k i v` is the `i`th vector drawn for slice
`k` with the widths `v` — its random numbers; covariances that the decomposition rejects are not modelled. -/
def drawAll [FloorRing K] (cts dps : List K) (n : Nat) (qtot : K) (draw : Nat → Nat → K × K → Nat → K) :
    Nat → List (Slice K) → Outcome Unit (List (Nat → K))
  | _, [] => .ok []
  | k, s :: l =>
    (smear cts (s.x 4)).bind fun sct =>
    (smear dps (s.x 5)).bind fun sdp =>
    let cnt := toInt ((n : K) * (s.q / qtot) + 1 / 2)
    (drawAll cts dps n qtot draw (k + 1) l).bind fun rest =>
    .ok ((List.range cnt.toNat).map (fun i => draw k i (sct * sct, sdp * sdp)) ++ rest)

/-- `SMPBunchConverter` (SMPBunchConverter.cpp 32-140). -/
def toParticles [FloorRing K] (b : SBunch K) (n : Nat) (adjust : Bool)
    (draw : Nat → Nat → K × K → Nat → K) : Outcome Unit (PBunch K) :=
  (drawAll (b.slices.map (·.x 4)) (b.slices.map (·.x 5)) n b.totalCharge draw 0 b.slices).bind fun ps =>
  let mean := fun i => (ps.map (· i)).sum / ps.length
  let c := b.getCentroid
  let ps := if adjust then ps.map (fun p => fun i => p i + (c i - mean i)) else ps
  .ok ⟨b.p0, b.ct0, b.totalCharge / ps.length, ps⟩

end Verif.Slices
