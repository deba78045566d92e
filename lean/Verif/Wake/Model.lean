import Mathlib.Algebra.Order.Field.Basic
import Verif.Common.Outcome

/-!
# Model of the wake field process for bunches of particles

Merlin++/ParticleBunchUtilities.cpp (slicing) and Merlin++/WakeFieldProcess.cpp.  Doubles are elements of an ordered
field; the counts of the histogram, which are doubles in the code, are natural numbers.  A division by zero, whose result
is no number, is `ub`.  Iterators are indices.
-/

namespace Verif.Wake
open Verif

variable {K : Type} [Field K] [LinearOrder K] [IsStrictOrderedRing K]

/-- The coordinates of a particle (PSTypes.h). -/
structure Part (K : Type) where
  x : K
  xp : K
  y : K
  yp : K
  ct : K
  dp : K
  deriving DecidableEq

/-! ## Slicing -/

/-- `TruncateZ` (ParticleBunchUtilities.cpp 26-44): the remaining particles and the number of lost ones. -/
def truncateZ (zmin zmax : K) : List (Part K) → List (Part K) × Nat
  | [] => ([], 0)
  | p :: l =>
    let r := truncateZ zmin zmax l
    if p.ct < zmin ∨ p.ct ≥ zmax then (r.1, r.2 + 1) else (p :: r.1, r.2)

/-- The inner loop of the slicing (ParticleBunchUtilities.cpp 85-90), on the rest of the bunch: the number of particles
counted and what is left. -/
def slice (z : K) : List (Part K) → Nat × List (Part K)
  | [] => (0, [])
  | p :: l => if p.ct < z then ((slice z l).1 + 1, (slice z l).2) else (0, p :: l)

/-- What the loop over the bins (ParticleBunchUtilities.cpp 82-92) leaves: the counts, the upper boundaries and the
rest of the bunch. -/
structure Filled (K : Type) where
  counts : List Nat
  bounds : List Nat
  rest : List (Part K)

/-- The loop over the bins; `rnd` is the rounding of the sum `z += dz`. -/
def fill (rnd : K → K) (dz : K) : Nat → K → Nat → List (Part K) → Filled K
  | 0, _, _, l => ⟨[], [], l⟩
  | n + 1, z, pos, l =>
    let z := rnd (z + dz)
    let s := slice z l
    let f := fill rnd dz n z (pos + s.1) s.2
    ⟨s.1 :: f.counts, (pos + s.1) :: f.bounds, f.rest⟩

/-- One term of the filter (ParticleBunchUtilities.cpp 139-142): `(*c)[m - n + w]` and `hbins[m]` may be out of range. -/
def term (h : List Nat) (c : List K) (w : Nat) (a : K) (n m : Nat) : Outcome Unit K :=
  match h[m]?, c[m + w - n]? with
  | some k, some v => .ok ((k : K) * v * a)
  | _, _ => .ub

/-- The sum over `m` (ParticleBunchUtilities.cpp 139-142), `count` terms from `m` on. -/
def terms (h : List Nat) (c : List K) (w : Nat) (a : K) (n : Nat) : Nat → Nat → K → Outcome Unit K
  | 0, _, s => .ok s
  | count + 1, m, s => (term h c w a n m).bind fun v => terms h c w a n count (m + 1) (s + v)

/-- The derivative in bin `n` (ParticleBunchUtilities.cpp 137-142). -/
def derivative (h : List Nat) (c : List K) (a : K) (nbins n : Nat) : Outcome Unit K :=
  let w := (c.length - 1) / 2
  terms h c w a n (max nbins (n + w) - (n - w)) (n - w) 0

/-- The derivatives of the first `n` bins (ParticleBunchUtilities.cpp 134-143). -/
def derivatives (h : List Nat) (c : List K) (a : K) (nbins : Nat) : Nat → Outcome Unit (List K)
  | 0 => .ok []
  | n + 1 => (derivatives h c a nbins n).bind fun l => (derivative h c a nbins n).bind fun v => .ok (l ++ [v])

/-- What `ParticleBinList` changes and returns. -/
structure Binned (K : Type) where
  bunch : List (Part K)
  lost : Nat
  bins : List Nat
  hd : List K
  hdp : List K
  deriving DecidableEq

/-- `ParticleBinList` (ParticleBunchUtilities.cpp 61-150); `sort` is `SortByCT` (ParticleBunch.cpp 317-320),
of which the order of equal elements is not known; "bad slicing" is the exception. -/
def binList (sort : List (Part K) → List (Part K)) (rnd : K → K) (l : List (Part K)) (zmin zmax : K) (nbins : Nat)
    (c : Option (List K)) : Outcome Unit (Binned K) :=
  let dz := (zmax - zmin) / nbins
  let t := truncateZ zmin zmax (sort l)
  let f := fill rnd dz nbins zmin 0 t.1
  if f.rest ≠ [] then .throw ()
  else if f.counts.sum = 0 ∨ dz = 0 then .ub
  else
    let a := 1 / (f.counts.sum : K) / dz
    let hd := f.counts.map fun k : Nat => (k : K) * a
    match c with
    | none => .ok ⟨t.1, t.2, 0 :: f.bounds, hd, List.replicate nbins 0⟩
    | some c => (derivatives f.counts c a nbins nbins).bind fun hdp => .ok ⟨t.1, t.2, 0 :: f.bounds, hd, hdp⟩

/-! ## The wakes -/

/-- The wake potentials of a component (WakePotentials.h 20-71). -/
structure Potentials (K : Type) where
  long : K → K
  trans : K → K
  csr : Bool

/-- `CalculateWakeL` (WakeFieldProcess.cpp 332-379) at boundary `i` of `nb + 1`: `q` is
`fabs(GetTotalCharge()) * ElectronCharge * Volt`.  The subtraction `j - i` is one of `size_t`, modulo `2 ^ 64`. -/
def wakeL (w : Potentials K) (q dz : K) (nb : Nat) (Qd Qdp : Nat → K) (i : Nat) : K :=
  let a0 := dz * q
  if w.csr then
    ((List.range' 1 (i - 1)).foldl (fun s (j : Nat) =>
      s + Qdp j * w.long ((((j + 2 ^ 64 - i) % 2 ^ 64 : Nat) + 1 / 2) * dz) / dz) 0) * a0
  else
    ((List.range' i (nb - i)).foldl (fun s (j : Nat) => s + Qd j * w.long (((j - i : Nat) + 1 / 2) * dz)) 0) * a0

/-- `GetSliceCentroid` (WakeFieldProcess.cpp 48-60) for one coordinate. -/
def centroid (u : Part K → K) (l : List (Part K)) : K :=
  let s := (l.map u).sum
  if l.length > 1 then s / l.length else s

/-- The particles between two boundaries. -/
def part (ps : List (Part K)) (bins : List Nat) (n : Nat) : List (Part K) :=
  (ps.drop (bins.getD n 0)).take (bins.getD (n + 1) 0 - bins.getD n 0)

/-- `CalculateWakeT` (WakeFieldProcess.cpp 381-413) at boundary `i` for one coordinate. -/
def wakeT (w : Potentials K) (q dz : K) (nb : Nat) (Qd xyc : Nat → K) (i : Nat) : K :=
  let a0 := dz * q
  ((List.range' i (nb - i)).foldl (fun s (j : Nat) =>
    let wxy := Qd j * w.trans (((j - i : Nat) + 1 / 2) * dz)
    s + wxy * xyc j) 0) * a0

/-- The wakes at the slice boundaries. -/
structure Wakes (K : Type) where
  z : Nat → K
  x : Nat → K
  y : Nat → K

/-- The kick of one particle in slice `n` that begins at `z` (WakeFieldProcess.cpp 280-295): the particle and `ddp`. -/
def kick (ds p0 dz : K) (inc : Bool) (w : Wakes K) (n : Nat) (z : K) (p : Part K) : Part K × K :=
  let gz := (w.z (n + 1) - w.z n) / dz
  let gx := (w.x (n + 1) - w.x n) / dz
  let gy := (w.y (n + 1) - w.y n) / dz
  let zz := p.ct - z
  let ddp := -ds * (w.z n + gz * zz) / p0
  let dxp := if inc then ds * (w.x n + gx * zz) / p0 else 0
  let dyp := if inc then ds * (w.y n + gy * zz) / p0 else 0
  (⟨p.x, (p.xp + dxp) / (1 + ddp), p.y, (p.yp + dyp) / (1 + ddp), p.ct, p.dp + ddp⟩, ddp)

/-- The state of the loop over the slices: the particles, the load and the position. -/
structure Loop (K : Type) where
  ps : List (Part K)
  bload : K
  z : K

/-- One turn of the loop over the slices (WakeFieldProcess.cpp 277-298). -/
def turn (ds p0 dz : K) (inc : Bool) (w : Wakes K) (bins : List Nat) (s : Loop K) (n : Nat) : Loop K :=
  let a := bins.getD n 0
  let b := bins.getD (n + 1) 0
  let ks := ((s.ps.drop a).take (b - a)).map (kick ds p0 dz inc w n s.z)
  ⟨s.ps.take a ++ ks.map Prod.fst ++ s.ps.drop b, s.bload + (ks.map Prod.snd).sum, s.z + dz⟩

/-- `AdjustRefMomentum` (ParticleBunch.cpp 275-287): the particles and the reference momentum. -/
def adjustRef (dpp p0 : K) (ps : List (Part K)) : List (Part K) × K :=
  (ps.map fun p => { p with dp := (p.dp - dpp) / (1 + dpp) }, (1 + dpp) * p0)

/-- The members of the process that the kick uses (WakeFieldProcess.h 55-94) and the bunch. -/
structure Proc (K : Type) where
  nbins : Nat
  nsig : K
  filter : Option (List K)
  inc : Bool
  recalc : Bool
  oldLen : Nat
  zmin : K
  dz : K
  bins : List Nat
  Qd : List K
  Qdp : List K
  wz : Nat → K
  ps : List (Part K)
  p0 : K
  qPer : K

/-- `GetTotalCharge` (ParticleBunch.cpp 222-225). -/
def Proc.charge (s : Proc K) : K := s.qPer * s.ps.length

/-- What the process takes from elsewhere: `GetMoments(ps_CT)` (mean and deviation, ParticleBunch.cpp 251-264), `SortByCT`,
the rounding and the product of `ElectronCharge` and `Volt`. -/
structure Env (K : Type) where
  mom : List (Part K) → K × K
  sort : List (Part K) → List (Part K)
  rnd : K → K
  unit : K

/-- `CalculateQdist` (WakeFieldProcess.cpp 108-132) and `Init` (310-330). -/
def Proc.init (e : Env K) (w : Potentials K) (s : Proc K) : Outcome Unit (Proc K) :=
  let Qt := s.charge
  let v := e.mom s.ps
  let zmin := -s.nsig * v.2 + v.1
  let zmax := s.nsig * v.2 + v.1
  (binList e.sort e.rnd s.ps zmin zmax s.nbins s.filter).bind fun b =>
    let dz := (zmax - zmin) / s.nbins
    let qPer := if b.lost ≠ 0 then Qt / b.bunch.length else s.qPer
    let q := |qPer * b.bunch.length| * e.unit
    .ok { s with
      oldLen := s.ps.length, zmin := zmin, dz := dz, bins := b.bins, Qd := b.hd, Qdp := b.hdp,
      wz := wakeL w q dz s.nbins (fun j => b.hd.getD j 0) (fun j => b.hdp.getD j 0),
      ps := b.bunch, qPer := qPer, recalc := false }

/-- The rest of `ApplyWakefield` (WakeFieldProcess.cpp 260-302) after the slices are up to date. -/
def Proc.kicks (e : Env K) (w : Potentials K) (ds : K) (s : Proc K) : Proc K :=
  let q := |s.charge| * e.unit
  let W : Wakes K :=
    if s.inc then
      ⟨s.wz, wakeT w q s.dz s.nbins (fun j => s.Qd.getD j 0) (fun j => centroid Part.x (part s.ps s.bins j)),
        wakeT w q s.dz s.nbins (fun j => s.Qd.getD j 0) (fun j => centroid Part.y (part s.ps s.bins j))⟩
    else ⟨s.wz, fun _ => 0, fun _ => 0⟩
  let l := (List.range s.nbins).foldl (turn ds s.p0 s.dz s.inc W s.bins) ⟨s.ps, 0, s.zmin⟩
  if w.csr then { s with ps := l.ps }
  else
    let r := adjustRef (l.bload / l.ps.length) s.p0 l.ps
    { s with ps := r.1, p0 := r.2 }

/-- `ApplyWakefield` (WakeFieldProcess.cpp 237-303).  The comparison of `typeid(WakePotentials*)` with the type of the
pointer (242-245) always finds them equal. -/
def Proc.apply (e : Env K) (w : Potentials K) (ds : K) (s : Proc K) : Outcome Unit (Proc K) :=
  (if s.recalc ∨ s.oldLen ≠ s.ps.length then s.init e w else .ok s).bind fun s => .ok (s.kicks e w ds)

/-- `DoProcess` at the position of the impulse (WakeFieldProcess.cpp 206-218). -/
def Proc.impulse (e : Env K) (w : Potentials K) (clen : K) (s : Proc K) : Outcome Unit (Proc K) :=
  (Proc.init e w { s with ps := e.sort s.ps }).bind fun s => s.apply e w clen

end Verif.Wake
