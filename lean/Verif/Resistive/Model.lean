import Mathlib.Data.Rat.Floor
import Mathlib.Algebra.Order.Ring.Rat
import Mathlib.Analysis.SpecialFunctions.Pow.Real
import Mathlib.Analysis.SpecialFunctions.Trigonometric.Basic
import Verif.Common.Outcome

/-!
# Tables and potentials of collimator wakes

Merlin++/CollimatorTable.h, TaperedCollimatorPotentials.h and ResistiveWakePotentials.h.  Doubles of the tables are rational numbers, those of the
potentials real numbers.  Access outside an array, a loop that never ends and a table without a step are undefined.
-/

namespace Verif.Resistive

open Verif

/-! ## Reading -/

/-- What a file consists of: a number counts as one symbol, `other` is any other character. -/
inductive Sym where
  | opening | closing | comma | blank | other
  | num (q : ℚ)
deriving DecidableEq, Repr

/-- `while(f.get() != c);` (CollimatorTable.h 95-123): at the end of the file the loop never ends. -/
def skipTo (c : Sym) : List Sym → Outcome Empty (List Sym)
  | [] => .ub
  | a :: l => if a = c then .ok l else skipTo c l

/-- `f >> x`: blanks are left out; if there is no number the stream fails, and the loops that follow never end. -/
def readNum : List Sym → Outcome Empty (ℚ × List Sym)
  | .blank :: l => readNum l
  | .num q :: l => .ok (q, l)
  | _ => .ub

/-- Reading `n` items with `f` and the comma between them (CollimatorTable.h 97-122). -/
def readItems {α : Type} (f : List Sym → Outcome Empty (α × List Sym)) : Nat → List Sym → Outcome Empty (List α × List Sym)
  | 0, l => .ok ([], l)
  | n + 1, l => (f l).bind fun r =>
    if n = 0 then .ok ([r.1], r.2)
    else (skipTo .comma r.2).bind fun l' => (readItems f n l').bind fun s => .ok (r.1 :: s.1, s.2)

/-- Items in braces. -/
def readBraces {α : Type} (f : List Sym → Outcome Empty (α × List Sym)) (n : Nat) (l : List Sym) : Outcome Empty (List α × List Sym) :=
  (skipTo .opening l).bind fun l1 => (readItems f n l1).bind fun r => (skipTo .closing r.2).bind fun l2 => .ok (r.1, l2)

/-- The array (CollimatorTable.h 95-125). -/
def readArray (n1 n2 n3 : Nat) (l : List Sym) : Outcome Empty (List (List (List ℚ)) × List Sym) :=
  readBraces (readBraces (readBraces readNum n3) n2) n1 l

/-! ## Interpolation -/

/-- `parabolic` (CollimatorTable.h 32-35). -/
def parabolic (v1 v2 v3 d : ℚ) : ℚ := v2 + d * (v3 - v1) / 2 + d * d * (v3 + v1 - 2 * v2) / 2

/-- Conversion to `int`. -/
def trunc (x : ℚ) : Int := if 0 ≤ x then ⌊x⌋ else ⌈x⌉

/-- `index` (CollimatorTable.h 39-44, 137-141). -/
def nearest (x : ℚ) : Int := if trunc (1 / 2 + x) < 0 then 0 else trunc (1 / 2 + x)

/-- `i1` (CollimatorTable.h 45-58, 142-154). -/
def centre (n index : Int) : Int := if index = 0 then 1 else if index = n - 1 then n - 2 else index

/-- Reading an element. -/
def elem {α : Type} (l : List α) (i : Int) : Outcome Empty α :=
  if i < 0 then .ub else match l[i.toNat]? with
    | some a => .ok a
    | none => .ub

/-- Reading an element of the array. -/
def elem3 (a : List (List (List ℚ))) (i j k : Int) : Outcome Empty ℚ :=
  (elem a i).bind fun b => (elem b j).bind fun c => elem c k

/-- A `collimatortable` (CollimatorTable.h 16-19). -/
structure Table where
  coeff : List ℚ
  step : ℚ
  lo : ℚ
  hi : ℚ
deriving DecidableEq, Repr

/-- `inrange` (CollimatorTable.h 27-30). -/
def Table.inrange (t : Table) (x : ℚ) : Bool := decide (x ≥ t.lo) && decide (x ≤ t.hi)

/-- `interpolate` (CollimatorTable.h 37-61). -/
def Table.interpolate (t : Table) (s : ℚ) : Outcome Empty ℚ :=
  if t.step = 0 then .ub
  else
    let index := nearest (s / t.step)
    let i1 := centre t.coeff.length index
    if index ≥ t.coeff.length then .ok 0
    else (elem t.coeff (i1 - 1)).bind fun a => (elem t.coeff i1).bind fun b => (elem t.coeff (i1 + 1)).bind fun c =>
      .ok (parabolic a b c (s / t.step - i1))

/-- The head of a file: number of points, lower and upper end of the three axes (CollimatorTable.h 74-81). -/
structure Head where
  n3 : Nat
  lo3 : ℚ
  hi3 : ℚ
  n2 : Nat
  lo : ℚ
  hi : ℚ
  n1 : Nat
  lo1 : ℚ
  hi1 : ℚ
deriving DecidableEq, Repr

def Head.step (n : Nat) (lo hi : ℚ) : ℚ := (hi - lo) / ((n : ℚ) - 1)

/-- One coefficient with xi only (CollimatorTable.h 137-165). -/
def coeffXi (h : Head) (a : List (List (List ℚ))) (xi : ℚ) (i : Nat) : Outcome Empty ℚ :=
  let step1 := Head.step h.n1 h.lo1 h.hi1
  let index := nearest (xi / step1)
  let i1 := centre h.n1 index
  if step1 = 0 then .ub
  else if index ≥ h.n1 then .ok 0
  else (elem3 a 0 i (i1 - 1)).bind fun u => (elem3 a 0 i i1).bind fun v => (elem3 a 0 i (i1 + 1)).bind fun w =>
    .ok (parabolic u v w ((xi - i1 * step1) / step1))

/-- One coefficient with Gamma only (CollimatorTable.h 170-200). -/
def coeffGamma (h : Head) (a : List (List (List ℚ))) (gamma : ℚ) (i : Nat) : Outcome Empty ℚ :=
  let step3 := Head.step h.n3 h.lo3 h.hi3
  let index := nearest (gamma / step3)
  let i1 := centre h.n3 index
  if step3 = 0 then .ub
  else if index ≥ h.n1 then .ok 0
  else (elem3 a (i1 - 1) i 0).bind fun u => (elem3 a i1 i 0).bind fun v => (elem3 a (i1 + 1) i 0).bind fun w =>
    .ok (parabolic u v w ((gamma - i1 * step3) / step3))

/-- The polynomial of the interpolation in both (CollimatorTable.h 245-260): `v g c` are the nine elements around the middle one. -/
def both (v : Int → Int → ℚ) (dg dc : ℚ) : ℚ :=
  let f0 := v 0 0
  let fc := (v 0 1 - v 0 (-1)) / 2
  let fg := (v 1 0 - v (-1) 0) / 2
  let fcc := (v 0 1 + v 0 (-1)) / 2 - v 0 0
  let fgg := (v 1 0 + v (-1) 0) / 2 - v 0 0
  let apm := v 1 (-1) - (f0 + fg + fgg - fc + fcc)
  let app := v 1 1 - (f0 + fg + fgg + fc + fcc)
  let amm := v (-1) (-1) - (f0 - fg + fgg - fc + fcc)
  let amp := v (-1) 1 - (f0 - fgg + fc + fcc)
  let fgc := (app + amm - apm - amp) / 4
  let fggc := (app - amp + apm - amm) / 4
  let fgcc := (app + amp - apm - amm) / 4
  let fggcc := (apm + app + amp + amm) / 4
  f0 + dg * fg + dc * fc + dg * dg * fgg + dc * dc * fcc + dg * dc * fgc + dg * dg * dc * fggc + dg * dc * dc * fgcc + dg * dg * dc * dc * fggcc

/-- One coefficient with both (CollimatorTable.h 205-261). -/
def coeffBoth (h : Head) (a : List (List (List ℚ))) (gamma xi : ℚ) (i : Nat) : Outcome Empty ℚ :=
  let step1 := Head.step h.n1 h.lo1 h.hi1
  let step3 := Head.step h.n3 h.lo3 h.hi3
  let ig := centre h.n1 (nearest (gamma / step3))
  let ic := centre h.n3 (nearest (xi / step1))
  if step1 = 0 ∨ step3 = 0 then .ub
  else
    (elem3 a ig i ic).bind fun v00 => (elem3 a ig i (ic + 1)).bind fun v01 => (elem3 a ig i (ic - 1)).bind fun v0m =>
    (elem3 a (ig + 1) i ic).bind fun v10 => (elem3 a (ig - 1) i ic).bind fun vm0 => (elem3 a (ig + 1) i (ic - 1)).bind fun v1m =>
    (elem3 a (ig + 1) i (ic + 1)).bind fun v11 => (elem3 a (ig - 1) i (ic - 1)).bind fun vmm => (elem3 a (ig - 1) i (ic + 1)).bind fun vm1 =>
    .ok (both (fun g c => if g = 0 then (if c = 0 then v00 else if c = 1 then v01 else v0m)
        else if g = 1 then (if c = 0 then v10 else if c = 1 then v11 else v1m)
        else (if c = 0 then vm0 else if c = 1 then vm1 else vmm)) ((gamma - ig * step3) / step3) ((xi - ic * step1) / step1))

/-- The choice among them (CollimatorTable.h 127-262). -/
def coeffOf (h : Head) (a : List (List (List ℚ))) (gamma xi : ℚ) (i : Nat) : Outcome Empty ℚ :=
  if gamma = 0 ∧ xi = 0 then elem3 a 0 i 0
  else if gamma = 0 then coeffXi h a xi i
  else if xi = 0 then coeffGamma h a gamma i
  else coeffBoth h a gamma xi i

/-! ## Potentials -/

/-- `coeff` of the tapered collimator (TaperedCollimatorPotentials.h 22-26). -/
noncomputable def taperCoeff (a b : ℝ) (m : Nat) : ℝ := 2 * (1 / a ^ (2 * m) - 1 / b ^ (2 * m))

/-- `Wlong` of the tapered collimator (TaperedCollimatorPotentials.h 40-43). -/
noncomputable def taperLong (a b : ℝ) (m : Nat) (z : ℝ) : ℝ := if z > 0 then -((m : ℝ) / a) * taperCoeff a b m / Real.exp (m * z / a) else 0

/-- `Wtrans` of the tapered collimator (TaperedCollimatorPotentials.h 44-47). -/
noncomputable def taperTrans (a b : ℝ) (m : Nat) (z : ℝ) : ℝ := if z > 0 then taperCoeff a b m / Real.exp (m * z / a) else 0

/-- `coeff` of `ResistiveWakePotentials` (ResistiveWakePotentials.h 98-119): `modes` is the number given to the constructor; the check of the index is not in the code. -/
noncomputable def resistCoeff (modes : Nat) (rad : ℝ) (m : Nat) : Outcome Empty ℝ :=
  let delta : ℝ := if modes = 0 then 1 else 0
  if m ≤ modes then .ok (1 / (Real.pi * rad ^ (2 * m + 1) * (1 + delta))) else .ub

/-- `Wtrans` (ResistiveWakePotentials.h 123-127). -/
noncomputable def resistTrans (modes : Nat) (rad sigma length : ℝ) (m : Nat) (z : ℝ) : Outcome Empty ℝ :=
  if z > 0 then (resistCoeff modes rad m).bind fun c => .ok (c * √(37674 / 100 / (Real.pi * sigma)) * length / √z) else .ok 0

/-- `Wlong` (ResistiveWakePotentials.h 128-131). -/
noncomputable def resistLong (modes : Nat) (rad sigma length : ℝ) (m : Nat) (z : ℝ) : Outcome Empty ℝ :=
  if z > 0 then (resistCoeff modes rad m).bind fun c => .ok (-c * √(1 / sigma * (3766 / 10)) * √z * length) else .ok 0

/-- `scale` of `ResistivePotential` (ResistiveWakePotentials.h 40-41). -/
noncomputable def scaleOf (sigma b : ℝ) : ℝ := (2 * b * b / (377 * sigma)) ^ ((1 : ℝ) / 3)

/-- `Wtrans` of `ResistivePotential` (ResistiveWakePotentials.h 69-83).  The tables of the modes from one on are functions here, with the range of each;
the pointer of mode zero is not set.  Beyond the range the asymptotic value is used; at z = 0 it would be infinite. -/
noncomputable def tableTrans (modes : Nat) (sigma b leng : ℝ) (lo hi : Nat → ℝ) (tab : Nat → ℝ → ℝ) (m : Nat) (z : ℝ) : Outcome Empty ℝ :=
  let scale := scaleOf sigma b
  let s := z / scale
  let chao := -2 * (1 / √(2 * Real.pi)) * √(scale / z)
  if z < 0 then .ok 0
  else if m = 0 ∨ modes < m then .ub
  else if lo m ≤ s ∧ s ≤ hi m then .ok (scale * leng * tab m s / b ^ (2 * m + 2))
  else if z = 0 then .ub
  else .ok (scale * leng * chao / b ^ (2 * m + 2))

/-- `Wlong` of `ResistivePotential` (ResistiveWakePotentials.h 85-88); `tab` are the tables that were read for it. -/
noncomputable def tableLong (_tab : Nat → ℝ → ℝ) (_m : Nat) (z : ℝ) : ℝ := if z > 0 then 1 else 0

end Verif.Resistive
