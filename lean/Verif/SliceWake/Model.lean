import Verif.Slices.Model

/-!
# Model of the wake field process for bunches of slices

Merlin++/SMPWakeFieldProcess.cpp.  Doubles are elements of an ordered field; a division by zero gives zero here, the
theorems ask for divisors other than zero.  A pair of neighbouring entries of `sliceBoundaries` is the list of the
macro-particles between them.
-/

namespace Verif.SliceWake
open Verif Verif.LinMap Verif.Slices

variable {K : Type} [Field K] [LinearOrder K] [IsStrictOrderedRing K]

/-- One entry of `slice_z` and `slice_q` with the macro-particles from `sliceBoundaries[i]` to `sliceBoundaries[i + 1]`
(SMPWakeFieldProcess.h 80-83). -/
structure Bin (K : Type) where
  z : K
  q : K
  mem : List (Slice K)

/-- The loop of `PrepSlices` (SMPWakeFieldProcess.cpp 254-270) with the last entries (272-274): the local variables `z`,
`zavg` and `qt`, and the macro-particles since the last boundary. -/
def prepLoop (dz : K) : List (Slice K) → K → K → K → List (Slice K) → List (Bin K)
  | [], _, zavg, qt, cur => [⟨zavg / qt, qt, cur⟩]
  | p :: l, z, zavg, qt, cur =>
    if p.x 4 ≥ z then ⟨zavg / qt, qt, cur⟩ :: prepLoop dz l (p.x 4 + dz) (p.x 4 * p.q) p.q [p]
    else prepLoop dz l z (zavg + p.x 4 * p.q) (qt + p.q) (cur ++ [p])

/-- `PrepSlices` (SMPWakeFieldProcess.cpp 239-281); the first macro-particle of an empty bunch is read. -/
def prepSlices (dz : K) (l : List (Slice K)) : Outcome Unit (List (Bin K)) :=
  match l with
  | [] => .ub
  | p :: _ => .ok (prepLoop dz l (p.x 4 + dz) (p.x 4 * p.q) p.q [])

/-- `slice_z[i]`. -/
def zAt (bs : List (Bin K)) (i : Nat) : K := ((bs[i]?).map Bin.z).getD 0

/-- `slice_q[i]`. -/
def qAt (bs : List (Bin K)) (i : Nat) : K := ((bs[i]?).map Bin.q).getD 0

/-- The macro-particles of slice `i`. -/
def memAt (bs : List (Bin K)) (i : Nat) : List (Slice K) := ((bs[i]?).map Bin.mem).getD []

/-- `wake_z[i]` of `PrepLWake` (SMPWakeFieldProcess.cpp 216-224). -/
def wakeZ (wlong : K → K) (wconv : K) (bs : List (Bin K)) (i : Nat) : K :=
  (List.range' i (bs.length - i)).foldl (fun a j =>
    a + (if i = j then 1 / 2 else 1) * wlong (zAt bs j - zAt bs i) * qAt bs j * wconv) 0

/-- `bload` of `PrepLWake` (SMPWakeFieldProcess.cpp 214-229). -/
def bload (wlong : K → K) (wconv : K) (bs : List (Bin K)) : K :=
  let s := (List.range bs.length).foldl (fun (s : K × K) i =>
    (s.1 + qAt bs i * wakeZ wlong wconv bs i, s.2 + qAt bs i)) (0, 0)
  s.1 / s.2

/-- `GetSliceCentroid` (SMPWakeFieldProcess.cpp 30-45). -/
def sliceCentroid (l : List (Slice K)) : K × K :=
  let s := l.foldl (fun (s : K × K × K) p => (s.1 + p.x 0 * p.q, s.2.1 + p.x 2 * p.q, s.2.2 + p.q)) (0, 0, 0)
  (s.1 / s.2.2, s.2.1 / s.2.2)

/-- `AWK::operator()` (SMPWakeFieldProcess.cpp 62-81). -/
def awk (e0 de dPx dPy dPz : K) (p : Slice K) : Slice K :=
  let ei := e0 * (1 + p.x 5)
  let ef := ei + dPz
  let er := ei / ef
  let er2 := er * er
  let x1 := upd p.x 1 ((ei * p.x 1 + dPx) / ef)
  let x2 := upd x1 3 ((ei * x1 3 + dPy) / ef)
  let x3 := upd x2 5 (ef / (e0 + de) - 1)
  let c := p.c
  let c := setSig c 0 1 (sig 4 c 0 1 * er)
  let c := setSig c 0 3 (sig 4 c 0 3 * er)
  let c := setSig c 1 1 (sig 4 c 1 1 * er2)
  let c := setSig c 1 3 (sig 4 c 1 3 * er2)
  let c := setSig c 2 3 (sig 4 c 2 3 * er)
  let c := setSig c 3 3 (sig 4 c 3 3 * er2)
  ⟨x3, c, p.q⟩

/-- The sums `kick_x` and `kick_y` for slice `i` (SMPWakeFieldProcess.cpp 172-184). -/
def kick (wtrans : K → K) (incTw : Bool) (bs : List (Bin K)) (i : Nat) : K × K :=
  if incTw then
    (List.range' (i + 1) (bs.length - (i + 1))).foldl (fun (s : K × K) j =>
      let w := wtrans (zAt bs j - zAt bs i) * qAt bs j
      let c := sliceCentroid (memAt bs j)
      (s.1 + w * c.1, s.2 + w * c.2)) (0, 0)
  else (0, 0)

/-- `ApplyWakefield` (SMPWakeFieldProcess.cpp 152-194) of a process whose slices `bs` are those of the bunch: the new
macro-particles and the new reference momentum.  The loop changes slice `i` only after the centroids of the slices ahead
were taken, and no position is changed, so the slices can be treated one by one. -/
def applyWake (wlong wtrans : K → K) (wconv : K) (incTw : Bool) (p0 ds : K) (bs : List (Bin K)) : List (Slice K) × K :=
  let dE := - bload wlong wconv bs * ds
  ((List.range bs.length).flatMap (fun i =>
      let k := kick wtrans incTw bs i
      (memAt bs i).map (awk p0 dE (ds * wconv * k.1) (ds * wconv * k.2) (- ds * wakeZ wlong wconv bs i))),
   p0 + dE)

end Verif.SliceWake
