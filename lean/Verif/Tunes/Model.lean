import Mathlib.Analysis.SpecialFunctions.Trigonometric.Inverse
import Mathlib.Analysis.SpecialFunctions.Trigonometric.Basic
import Mathlib.Analysis.SpecialFunctions.Sqrt
import Mathlib.Analysis.Real.Sqrt
import Verif.Common.Outcome

/-!
# Betatron tunes

Model of Merlin++/BetatronTunes.cpp over the real numbers.

The vector `data` is a function of the index together with its size; only indices below the size may be used, any other
access is undefined behaviour.  A quotient by zero, a root of a negative number and an arc sine outside of its range, which
give no numbers, are undefined behaviour too.  The numbers of turns are small enough for `int`.
-/

namespace Verif.Tunes

open Verif

abbrev Data := Nat → ℝ

/-! ## `FFT` -/

/-- `swap(data[a], data[b])`. -/
def swap (d : Data) (a b : Nat) : Data := fun k => if k = a then d b else if k = b then d a else d k

/-- The inner loop which finds the next `j` (BetatronTunes.cpp 162-168). -/
def carry (m j : Nat) : Nat := if 2 ≤ m ∧ m < j then carry (m / 2) (j - m) else j + m
termination_by m
decreasing_by omega

/-- The loop over `i` which exchanges elements (BetatronTunes.cpp 154-169); the first argument is the number of passes left. -/
def reorder (size nn : Nat) : Nat → Nat → Nat → Data → Outcome Unit Data
  | 0, _, _, d => .ok d
  | c + 1, i, j, d =>
    if i < j then
      if j < size then reorder size nn c (i + 2) (carry nn j) (swap (swap d (j - 1) (i - 1)) j i) else .ub
    else reorder size nn c (i + 2) (carry nn j) d

/-- One butterfly (BetatronTunes.cpp 186-192). -/
def butterfly (wr wi : ℝ) (i j : Nat) (d : Data) : Data :=
  let tempr := wr * d (j - 1) - wi * d j
  let tempi := wr * d j + wi * d (j - 1)
  fun k => if k = j - 1 then d (i - 1) - tempr else if k = j then d i - tempi
    else if k = i - 1 then d (i - 1) + tempr else if k = i then d i + tempi else d k

/-- `for(int i = m; i <= n; i += istep)` (BetatronTunes.cpp 184-193); the first argument bounds the number of passes. -/
noncomputable def inner (size n mmax : Nat) (wr wi : ℝ) : Nat → Nat → Data → Outcome Unit Data
  | 0, _, d => .ok d
  | f + 1, i, d =>
    if n < i then .ok d
    else if i + mmax < size then inner size n mmax wr wi f (i + 2 * mmax) (butterfly wr wi i (i + mmax) d) else .ub

/-- `for(int m = 1; m < mmax; m += 2)` (BetatronTunes.cpp 182-196); the first argument is the number of passes left. -/
noncomputable def middle (size n mmax : Nat) (wpr wpi : ℝ) : Nat → Nat → ℝ → ℝ → Data → Outcome Unit Data
  | 0, _, _, _, d => .ok d
  | c + 1, m, wr, wi, d => (inner size n mmax wr wi (n + 1) m d).bind fun d =>
    middle size n mmax wpr wpi c (m + 2) (wr * wpr - wi * wpi + wr) (wi * wpr + wr * wpi + wi) d

/-- `while(n > mmax)` (BetatronTunes.cpp 171-198); the first argument bounds the number of passes. -/
noncomputable def stages (size n : Nat) : Nat → Nat → Data → Outcome Unit Data
  | 0, _, d => .ok d
  | f + 1, mmax, d =>
    if mmax < n then
      let theta := 2 * Real.pi / mmax
      let wtemp := Real.sin (theta / 2)
      (middle size n mmax (-2 * wtemp * wtemp) (Real.sin theta) (mmax / 2) 1 1 0 d).bind (stages size n f (2 * mmax))
    else .ok d

/-- `FFT` (BetatronTunes.cpp 149-200). -/
noncomputable def fft (size : Nat) (d : Data) : Outcome Unit Data :=
  let nn := size / 2
  let n := 2 * nn
  (reorder size nn nn 1 1 d).bind (stages size n n 2)

/-! ## `FindTune` -/

/-- `amp` (BetatronTunes.cpp 202-208). -/
noncomputable def amp (a b c : ℝ) : Outcome Unit ℝ :=
  let r := c * c * (a + b) * (a + b) - 2 * a * b * (2 * c * c - c - 1)
  let c1 := a * a + b * b + 2 * a * b * c
  if r < 0 ∨ c1 = 0 then .ub else .ok ((-(a + b * c) * (a - b) + b * Real.sqrt r) / c1)

/-- `vamp` of bin `k` (BetatronTunes.cpp 127). -/
noncomputable def height (d : Data) (k : Nat) : ℝ := Real.sqrt (d (2 * k) * d (2 * k) + d (2 * k + 1) * d (2 * k + 1))

/-- The search for the highest of the bins 1 to `c` (BetatronTunes.cpp 121-134): `peak_height` and `peak_position`. -/
noncomputable def peak (v : Nat → ℝ) : Nat → ℝ × Nat
  | 0 => (0, 0)
  | c + 1 => if (peak v c).1 < v (c + 1) then (v (c + 1), c + 1) else peak v c

/-- `spectrum[k]`: the first element is that of bin 1 (BetatronTunes.cpp 128), the size is `nvals - 1`. -/
noncomputable def spectrum (d : Data) (nvals k : Nat) : Outcome Unit ℝ := if k < nvals - 1 then .ok (height d (k + 1)) else .ub

/-- `FindTune` (BetatronTunes.cpp 112-147). -/
noncomputable def findTune (size : Nat) (d : Data) : Outcome Unit ℝ :=
  let nvals := size / 2
  (fft size d).bind fun d =>
    let pos := (peak (height d) (nvals - 1)).2
    (spectrum d nvals pos).bind fun s1 => (spectrum d nvals (pos + 1)).bind fun s2 =>
      let norm := Real.sqrt nvals
      (amp (s1 / norm) (s2 / norm) (Real.cos (2 * Real.pi / nvals))).bind fun a =>
        let x := a * Real.sin (2 * Real.pi / nvals)
        if x < -1 ∨ 1 < x then .ub
        else .ok ((pos + nvals * Real.arcsin x / (2 * Real.pi)) / nvals)

/-! ## `FindTunes` -/

/-- The particle behind a turn: x, x', y, y'. -/
structure P where
  x : ℝ
  xp : ℝ
  y : ℝ
  yp : ℝ

/-- The results. -/
structure Out where
  qx : ℝ
  qy : ℝ
  dqx : ℝ
  dqy : ℝ

/-- The test of one turn (BetatronTunes.cpp 62-80). -/
noncomputable def good : Option P → Bool
  | none => false
  | some p => !(decide (|p.x| > 10000000000) || decide (|p.y| > 10000000000))

/-- `hanningFilter` (BetatronTunes.cpp 82-83). -/
noncomputable def hanning (ntrack nturn : Nat) : ℝ := Real.sin (Real.pi * (nturn + 1) / ntrack) * Real.sin (Real.pi * (nturn + 1) / ntrack)

/-- The values pushed to the data of the turns from `t0` on (BetatronTunes.cpp 85-94). -/
noncomputable def collect (u v : P → ℝ) (track : Nat → Option P) (ntrack t0 : Nat) : Data := fun k =>
  match track (t0 + k / 2) with
  | none => 0
  | some p => (if k % 2 = 0 then u p else v p) * hanning ntrack (t0 + k / 2)

/-- `FindTunes` (BetatronTunes.cpp 27-110); `track` gives the particle behind turn `nturn`, or none if it was lost. -/
noncomputable def findTunes (track : Nat → Option P) (ntrack : Nat) (diffusion : Bool) : Outcome Unit Out :=
  let trackn := if diffusion then 2 * ntrack else ntrack
  if (List.range trackn).all fun t => good (track t) then
    (findTune (2 * ntrack) (collect P.x P.xp track ntrack 0)).bind fun qx =>
    (findTune (2 * ntrack) (collect P.y P.yp track ntrack 0)).bind fun qy =>
    if diffusion then
      (findTune (2 * ntrack) (collect P.x P.xp track ntrack ntrack)).bind fun qx2 =>
      (findTune (2 * ntrack) (collect P.y P.yp track ntrack ntrack)).bind fun qy2 => .ok ⟨qx, qy, qx2 - qx, qy2 - qy⟩
    else .ok ⟨qx, qy, 0 - qx, 0 - qy⟩
  else .ok ⟨0, 0, 0 - 0, 0 - 0⟩

end Verif.Tunes
