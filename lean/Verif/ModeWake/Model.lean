import Mathlib.Analysis.SpecialFunctions.Complex.Arg

/-!
# Model of the wake fields of collimators by modes

Merlin++/CollimatorWakeProcess.cpp.  Doubles are real numbers.  `atan2(y, x)` is the argument of `x + i y`, which is zero
for zero as in C++.  The slices of the bunch (`bunchSlices`) are lists of particles, `nbins` of them.  The arrays of 1000
values are lists, so that the model is for at most 1000 slices.  `wake[nslice + 1]`, of which the difference is replaced
by zero at once (CollimatorWakeProcess.cpp 198-203), is left out.
-/

namespace Verif.ModeWake

noncomputable section

/-- The coordinates of a particle (PSTypes.h). -/
structure P where
  x : ℝ
  xp : ℝ
  y : ℝ
  yp : ℝ
  ct : ℝ
  dp : ℝ

/-- `powd` (CollimatorWakeProcess.cpp 36-44). -/
def powd (x : ℝ) (y : Nat) : ℝ := (List.range y).foldl (fun a _ => a * x) 1

/-- `r` (CollimatorWakeProcess.cpp 101, 114, 207). -/
def radius (p : P) : ℝ := Real.sqrt (powd p.x 2 + powd p.y 2)

/-- `theta` (CollimatorWakeProcess.cpp 102, 115, 208). -/
def angle (p : P) : ℝ := Complex.arg ⟨p.x, p.y⟩

/-- `CalculateCm` (CollimatorWakeProcess.cpp 96-106). -/
def cm (m : Nat) (s : List P) : ℝ := s.foldl (fun a p => a + powd (radius p) m * Real.cos (m * angle p)) 0

/-- `CalculateSm` (CollimatorWakeProcess.cpp 109-119). -/
def sm (m : Nat) (s : List P) : ℝ := s.foldl (fun a p => a + powd (radius p) m * Real.sin (m * angle p)) 0

/-- `CalculateWakeT` and `CalculateWakeL` for slice `i` (CollimatorWakeProcess.cpp 122-162): `w` is the wake potential of
the mode at a multiple of `dz`, `c` the moments of the slices. -/
def conv (w : ℝ → ℝ) (dz : ℝ) (c : List ℝ) (i : Nat) : ℝ :=
  (List.range' i (c.length - i)).foldl (fun a j => a + w ((j - i : Nat) * dz) * c.getD j 0) 0

/-- The body of the loop over the particles (CollimatorWakeProcess.cpp 207-230) with the wakes `ct`, `st`, `cl` and `sl`
of the slice in mode `m`. -/
def kick (a0 p0 : ℝ) (incTw : Bool) (m : Nat) (ct st cl sl : ℝ) (p : P) : P :=
  let r := radius p
  let theta := angle p
  let wxc := Real.cos ((m - 1) * theta) * ct
  let wxs := Real.sin ((m - 1) * theta) * st
  let wys := Real.cos ((m - 1) * theta) * st
  let wyc := Real.sin ((m - 1) * theta) * ct
  let wakeX := m * powd r (m - 1) * (wxc + wxs) * a0
  let wakeY := m * powd r (m - 1) * (wys - wyc) * a0
  let wzc := Real.cos (m * theta) * cl
  let wzs := Real.sin (m * theta) * sl
  let wakeZ := powd r m * (wzc - wzs) * a0
  let ddp := - wakeZ / p0
  let dxp := if incTw then wakeX / p0 else 0
  let dyp := if incTw then wakeY / p0 else 0
  { p with dp := p.dp + ddp, xp := (p.xp + dxp) / (1 + ddp), yp := (p.yp + dyp) / (1 + ddp) }

/-- One mode (CollimatorWakeProcess.cpp 190-233): `c` and `s` are the moments `Cm[m]` and `Sm[m]` of the slices. -/
def applyMode (wtrans wlong : Nat → ℝ → ℝ) (a0 p0 dz : ℝ) (incTw : Bool) (m : Nat) (c s : List ℝ)
    (slices : List (List P)) : List (List P) :=
  slices.mapIdx fun i l => l.map
    (kick a0 p0 incTw m (conv (wtrans m) dz c i) (conv (wtrans m) dz s i) (conv (wlong m) dz c i) (conv (wlong m) dz s i))

/-- `ApplyWakefield` (CollimatorWakeProcess.cpp 165-235) for slices which need no new `Init`.  `a0` is the value of line
180, `k` the number of modes. -/
def applyWake (wtrans wlong : Nat → ℝ → ℝ) (a0 p0 dz : ℝ) (incTw : Bool) (k : Nat) (slices : List (List P)) :
    List (List P) :=
  (List.range' 1 k).foldl (fun s m =>
    applyMode wtrans wlong a0 p0 dz incTw m (slices.map (cm m)) (slices.map (sm m)) s) slices

end

end Verif.ModeWake
