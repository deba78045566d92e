import Verif.Beam.Lemmas

/-!
# Model of matrix maps

Merlin++/MatrixMaps.h and MatrixMaps.cpp.  Doubles are real numbers and `fequal` is equality.  Matrices are functions of
their indices, of which those below the dimension `n` are used; phase space vectors are functions of the index
(PSvector.h), of which those below 6 are used; moments are stored as in C49.
-/

namespace Verif.MatrixMap
open Verif Verif.Beam Verif.LinMap

/-- The sum of a loop. -/
noncomputable def loopSum : Nat → (Nat → ℝ) → ℝ
  | 0, _ => 0
  | n + 1, f => loopSum n f + f n

/-- The row `i` of the result, columns below `m` (MatrixMaps.cpp 22-32). -/
noncomputable def setRow (i : Nat) (v : Nat → ℝ) : Nat → Cov ℝ → Cov ℝ
  | 0, c => c
  | m + 1, c => setSig (setRow i v m c) i m (v m)

/-- The second moments, rows below `m` (MatrixMaps.cpp 20-32).  The two inner loops are written as two sums. -/
noncomputable def covLoop (n : Nat) (R : Mat) (S : Cov ℝ) : Nat → Cov ℝ
  | 0 => fun _ => 0
  | i + 1 => setRow i (fun j => loopSum n fun k => loopSum n fun l => R i k * R j l * sig 6 S k l) (i + 1) (covLoop n R S i)

/-- `TransformMoments` (MatrixMaps.cpp 14-44). -/
noncomputable def transformMoments (n : Nat) (R : Mat) (S : Moments) : Moments where
  mean := fun i => if i < n then loopSum n fun j => R i j * S.mean j else 0
  cov := covLoop n R S.cov n

/-- The loop of `RescaleMoments` over the correlations (MatrixMaps.cpp 53-56). -/
noncomputable def scaleCorr (ratio : ℝ) : Nat → Cov ℝ → Cov ℝ
  | 0, c => c
  | m + 1, c => let c := scaleCorr ratio m c; setSig c m 5 (sig 6 c m 5 * ratio)

/-- `RescaleMoments` (MatrixMaps.cpp 46-60). -/
noncomputable def rescaleMoments (P0 P1 : ℝ) (S : Moments) : Moments :=
  let ratio := P0 / P1
  let c := scaleCorr ratio 4 S.cov
  { mean := upd S.mean 5 (ratio * (1 + S.mean 5) - 1)
    cov := setSig c 5 5 (sig 6 c 5 5 * (ratio * ratio)) }

/-- `RMtrx::Apply(PSvector&)` (MatrixMaps.cpp 64-73, tblas.h 57-96). -/
noncomputable def applyVec (n : Nat) (R : Mat) (x : Nat → ℝ) : Nat → ℝ :=
  fun i => if i < n then loopSum n fun j => R i j * x j else x i

/-- `scaledp` (MatrixMaps.h 241-244). -/
noncomputable def scaledp (pref P dp : ℝ) : ℝ := P * (1 + dp) / pref - 1

open Classical in
/-- `Apply(PSvector&, double)` around the map without momentum (MatrixMaps.cpp 75-87, 176-188). -/
noncomputable def withMomentum (f : (Nat → ℝ) → Nat → ℝ) (pref p0 : ℝ) (x : Nat → ℝ) : Nat → ℝ :=
  if pref = 0 then f x
  else upd (f (upd x 5 (scaledp pref p0 (x 5)))) 5 (x 5)

open Classical in
/-- `Apply(PSmoments&, double)` around the map without momentum (MatrixMaps.cpp 117-128, 221-232). -/
noncomputable def momentsWithMomentum (f : Moments → Moments) (pref p0 : ℝ) (S : Moments) : Moments :=
  if pref = 0 then f S else rescaleMoments pref p0 (f (rescaleMoments p0 pref S))

/-- `RMtrx::operator*=` (MatrixMaps.cpp 158-162) for matrices of the same dimension: the matrix that results. -/
noncomputable def mulAssign (n : Nat) (R rhs : Mat) : Mat := fun i j => loopSum n fun k => rhs i k * R k j

/-- `RdpMtrx::Apply(PSvector&)` (MatrixMaps.cpp 164-183). -/
noncomputable def applyRdp (n : Nat) (R T : Mat) (x : Nat → ℝ) : Nat → ℝ :=
  fun i => if i < n then loopSum n fun j => (R i j + T i j * x 5) * x j else x i

/-- `RdpMtrx::Apply(PSmoments&)` (MatrixMaps.cpp 214-219). -/
noncomputable def rdpMoments (n : Nat) (R T : Mat) (S : Moments) : Moments :=
  transformMoments n (fun i j => R i j + T i j * S.mean 5) S

end Verif.MatrixMap
