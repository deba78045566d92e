import Mathlib.Analysis.SpecialFunctions.Complex.Arg
import Mathlib.Analysis.SpecialFunctions.Pow.Real
import Verif.Common.Outcome
import Verif.LinAlg.Model
import Verif.Orbit.Model

/-!
# Lattice functions and phase advance

Model of Merlin++/LatticeFunctions.cpp and Merlin++/PhaseAdvance.cpp over the real numbers.

A component is its length, its map of one particle and the reference momentum behind it; the particles used here do not act
on each other.  The eigenvectors, the inversion and the symplectification are those of Merlin++/LinearAlgebra.cpp
(`Verif.LinAlg`).  The files written on the way are left out.
-/

namespace Verif.Twiss

open Verif

/-- The exceptions: longitudinal functions of unstable motion, an index of `vector::at`, matrices of different sizes, a
singular matrix. -/
inductive Err
  | longitudinal
  | range
  | dimension
  | singular
  deriving DecidableEq, Repr

abbrev PS := Fin 6 → ℝ

/-- `atan2(y, x)`; signed zeros are not told apart. -/
noncomputable def atan2 (y x : ℝ) : ℝ := Complex.arg ⟨x, y⟩

/-! ## The matrix at the start -/

section Start

variable {d : Nat}

/-- The column (or row) of the real or imaginary part of plane `c`: `2 * col`, `2 * col + 1`. -/
def ix (c : Fin d) (b : Fin 2) : Fin (2 * d) := ⟨2 * c.val + b.val, by omega⟩

/-- The plane of a column. -/
def plane (r : Fin (2 * d)) : Fin d := ⟨r.val / 2, by omega⟩

/-- `N` from the eigenvectors (LatticeFunctions.cpp 384-393). -/
noncomputable def rawN (hd : 2 * d ≤ 6) (ev : Fin 3 → Fin 6 → ℂ) : Matrix (Fin (2 * d)) (Fin (2 * d)) ℝ := fun row col =>
  let v := ev ⟨col.val / 2, by omega⟩ (Fin.castLE hd row)
  if col.val % 2 = 0 then Real.sqrt 2 * v.re else Real.sqrt 2 * v.im

/-- `theta` (LatticeFunctions.cpp 400-402). -/
noncomputable def theta (n : Matrix (Fin (2 * d)) (Fin (2 * d)) ℝ) (c : Fin d) : ℝ := -atan2 (n (ix c 0) (ix c 1)) (n (ix c 0) (ix c 0))

/-- `R` (LatticeFunctions.cpp 389-391, 398-407). -/
noncomputable def rot (n : Matrix (Fin (2 * d)) (Fin (2 * d)) ℝ) : Matrix (Fin (2 * d)) (Fin (2 * d)) ℝ := fun r c =>
  if r.val / 2 ≠ c.val / 2 then 0
  else if r = c then Real.cos (theta n (plane r))
  else if r.val < c.val then Real.sin (theta n (plane r))
  else -Real.sin (theta n (plane r))

/-- `N = N * R` (LatticeFunctions.cpp 409). -/
noncomputable def startN (hd : 2 * d ≤ 6) (ev : Fin 3 → Fin 6 → ℂ) : Matrix (Fin (2 * d)) (Fin (2 * d)) ℝ :=
  rawN hd ev * rot (rawN hd ev)

end Start

/-! ## The values of one row -/

/-- An element of the matrix; outside of it the access is undefined. -/
def elem {n : Nat} (m : Matrix (Fin n) (Fin n) ℝ) (a b : Int) : Outcome Err ℝ :=
  if h : (0 ≤ a ∧ a < n) ∧ 0 ≤ b ∧ b < n then .ok (m ⟨a.toNat, by omega⟩ ⟨b.toNat, by omega⟩) else .ub

/-- A coordinate of the particle. -/
def coord (p : PS) (a : Int) : Outcome Err ℝ := if h : 0 ≤ a ∧ a < 6 then .ok (p ⟨a.toNat, by omega⟩) else .ub

/-- `i`, `j`, `k` of a lattice function. -/
abbrev Ix := Int × Int × Int

/-- `CalculateLatticeFunction::operator()` (LatticeFunctions.cpp 226-265). -/
noncomputable def value {n : Nat} (ok : Bool) (s : ℝ) (p : PS) (m : Matrix (Fin n) (Fin n) ℝ) : Ix → Outcome Err ℝ
  | (i, j, k) =>
    if k = 3 ∧ ok = false then .throw .longitudinal
    else if i = 0 ∧ j = 0 ∧ k > 0 then
      (elem m (2 * k - 2) (2 * k - 1)).bind fun y => (elem m (2 * k - 2) (2 * k - 2)).bind fun x =>
        let v := atan2 y x / (2 * Real.pi)
        .ok (if k ≠ 3 ∧ v < -(1 / 1000000000) then v + 1 else v)
    else if i = 0 ∧ j = 0 ∧ k = 0 then .ok s
    else if i > 0 ∧ j = 0 ∧ k = 0 then coord p (i - 1)
    else if i > 0 ∧ j > 0 ∧ k > 0 then
      (elem m (i - 1) (2 * k - 2)).bind fun a => (elem m (j - 1) (2 * k - 2)).bind fun b =>
        (elem m (i - 1) (2 * k - 1)).bind fun c => (elem m (j - 1) (2 * k - 1)).bind fun e => .ok (a * b + c * e)
    else .ok 0

/-- The row of the table: all functions in turn (LatticeFunctions.cpp 486). -/
noncomputable def row {n : Nat} (ok : Bool) (s : ℝ) (p : PS) (m : Matrix (Fin n) (Fin n) ℝ) : List Ix → Outcome Err (List ℝ)
  | [] => .ok []
  | c :: cs => (value ok s p m c).bind fun v => (row ok s p m cs).bind fun vs => .ok (v :: vs)

/-! ## Along the beamline -/

/-- A component: length, map, reference momentum behind it. -/
structure Comp where
  len : ℝ
  f : PS → PS
  e : ℝ

/-- What the loop keeps (LatticeFunctions.cpp 411-446): the particles, the momentum of the bunch and its last value `e0`,
`M1`, `N` and `s`. -/
structure St (n : Nat) where
  ref1 : PS
  ref2 : PS
  q : Fin n → PS
  e : ℝ
  e0 : ℝ
  m1 : Matrix (Fin n) (Fin n) ℝ
  nn : Matrix (Fin n) (Fin n) ℝ
  s : ℝ

/-- Multiplication of the first `n` coordinates by `sqrt(e1 / e0)` if the momentum has changed
(LatticeFunctions.cpp 457-461, 466-470). -/
noncomputable def scaled (n : Nat) (e e0 : ℝ) (p : PS) : PS := fun i =>
  if e ≠ e0 ∧ i.val < n then p i * Real.sqrt (e / e0) else p i

/-- `Symplectify` (LinearAlgebra.cpp 237-265), which adds a matrix of size six. -/
noncomputable def symp : (n : Nat) → Matrix (Fin n) (Fin n) ℝ → Outcome Err (Matrix (Fin n) (Fin n) ℝ)
  | 6, a => match LinAlg.symplectify (fun x : ℝ => |x|) a with
    | .ok b => .ok b
    | .throw _ => .throw .singular
    | .ub => .ub
  | _, _ => .throw .dimension

/-- `M2` (LatticeFunctions.cpp 472-475) from the particles as scaled. -/
noncomputable def quot {n : Nat} (hn : n ≤ 6) (delta : ℝ) (q : Fin n → PS) (ref2 : PS) : Matrix (Fin n) (Fin n) ℝ := fun r c =>
  (q c (Fin.castLE hn r) - ref2 (Fin.castLE hn r)) / delta

/-- One pass of the loop up to the new `N` (LatticeFunctions.cpp 448-484).  The particles of the columns are scaled in
place, the second reference particle is scaled as a copy. -/
noncomputable def node {n : Nat} (hn : n ≤ 6) (delta : ℝ) (sym : Bool) (t : St n) : Outcome Err (St n) :=
  let q := fun c => scaled n t.e t.e0 (t.q c)
  let m2 := quot hn delta q (scaled n t.e t.e0 t.ref2)
  let m21 := m2 * t.m1
  match LinAlg.inverse (fun x : ℝ => |x|) m2 with
  | .throw _ => .throw .singular
  | .ub => .ub
  | .ok inv => (if sym then symp n m21 else .ok m21).bind fun m21 =>
    .ok { t with q := q, e0 := t.e, m1 := inv.1, nn := m21 * t.nn }

/-- `s += GetLength()` and `StepComponent` (LatticeFunctions.cpp 489-490). -/
def step {n : Nat} (c : Comp) (t : St n) : St n :=
  { t with ref1 := c.f t.ref1, ref2 := c.f t.ref2, q := fun k => c.f (t.q k), e := c.e, s := t.s + c.len }

/-- The loop (LatticeFunctions.cpp 446-497): the matrix and the row at every place, also behind the last component. -/
noncomputable def loop {n : Nat} (hn : n ≤ 6) (delta : ℝ) (sym ok : Bool) (cols : List Ix) :
    St n → List Comp → Outcome Err (List (Matrix (Fin n) (Fin n) ℝ × List ℝ))
  | t, [] => (node hn delta sym t).bind fun t => (row ok t.s t.ref1 t.nn cols).bind fun r => .ok [(t.nn, r)]
  | t, c :: cs => (node hn delta sym t).bind fun t => (row ok t.s t.ref1 t.nn cols).bind fun r =>
    (loop hn delta sym ok cols (step c t) cs).bind fun l => .ok ((t.nn, r) :: l)

/-- The state before the loop (LatticeFunctions.cpp 415-445). -/
noncomputable def start {n : Nat} (delta p0 : ℝ) (p : PS) (nn : Matrix (Fin n) (Fin n) ℝ) : St n :=
  ⟨p, p, fun k => Orbit.shifted delta p k.val, p0, p0, 1, nn, 0⟩

/-- The loop of `DoCalculate` with the orbit and the matrix of the start given; without components `GetCurrentComponent` is
undefined, and so is the division by a step of zero. -/
noncomputable def calculate {n : Nat} (hn : n ≤ 6) (delta p0 : ℝ) (sym ok : Bool) (cols : List Ix) (p : PS)
    (nn : Matrix (Fin n) (Fin n) ℝ) (cs : List Comp) : Outcome Err (List (Matrix (Fin n) (Fin n) ℝ × List ℝ)) :=
  if delta = 0 ∨ cs = [] then .ub else loop hn delta sym ok cols (start delta p0 p nn) cs

/-- The loop of `DoCalculateOrbitOnly` (LatticeFunctions.cpp 538-554): it ends with the last component. -/
noncomputable def orbitRows (cols : List Ix) : ℝ → PS → List Comp → Outcome Err (List (List ℝ))
  | _, _, [] => .ub
  | s, p, [_] => (row true s p (0 : Matrix (Fin 6) (Fin 6) ℝ) cols).bind fun r => .ok [r]
  | s, p, c :: c' :: cs => (row true s p (0 : Matrix (Fin 6) (Fin 6) ℝ) cols).bind fun r =>
    (orbitRows cols (s + c.len) (c.f p) (c' :: cs)).bind fun l => .ok (r :: l)

/-! ## The table -/

/-- A column: indices and values. -/
structure Col where
  ix : Ix
  value : List ℝ

/-- The table: columns and `orbitonly`. -/
structure Tab where
  cols : List Col
  orbitonly : Bool

/-- `AddFunction` (LatticeFunctions.cpp 145-153). -/
def Tab.add (t : Tab) (c : Ix) : Tab := ⟨t.cols ++ [⟨c, []⟩], if c.2.2 ≠ 0 then false else t.orbitonly⟩

/-- `RemoveAllFunctions` (LatticeFunctions.cpp 190-196). -/
def Tab.removeAll (_ : Tab) : Tab := ⟨[⟨(0, 0, 0), []⟩], true⟩

/-- `UseOrbitFunctions` (LatticeFunctions.cpp 175-182). -/
def Tab.useOrbit (t : Tab) : Tab := [(1, 0, 0), (2, 0, 0), (3, 0, 0), (4, 0, 0)].foldl Tab.add t.removeAll

/-- `UseDefaultFunctions` (LatticeFunctions.cpp 155-173). -/
def Tab.useDefault (t : Tab) : Tab :=
  [(1, 0, 0), (2, 0, 0), (3, 0, 0), (4, 0, 0), (5, 0, 0), (6, 0, 0), (1, 1, 1), (1, 2, 1), (3, 3, 2), (3, 4, 2), (1, 6, 3), (2, 6, 3),
    (3, 6, 3), (4, 6, 3), (6, 6, 3)].foldl Tab.add t.removeAll

/-- The calls which change the list of functions. -/
inductive Op
  | add (c : Ix)
  | removeAll
  | useOrbit
  | useDefault

/-- One call. -/
def Tab.op (t : Tab) : Op → Tab
  | .add c => t.add c
  | .removeAll => t.removeAll
  | .useOrbit => t.useOrbit
  | .useDefault => t.useDefault

/-- The constructor (LatticeFunctions.cpp 100-104). -/
def Tab.new : Tab := Tab.useDefault ⟨[], true⟩

/-- `GetColumn` (LatticeFunctions.cpp 621-636); `none` is the end of the list. -/
def Tab.column (t : Tab) (c : Ix) : Option Col := t.cols.find? fun x => decide (x.ix = c)

/-- `GetValue` (LatticeFunctions.cpp 52-55): `vector::at`. -/
def Col.at (c : Col) (n : Int) : Outcome Err ℝ :=
  if n < 0 then .throw .range else
  match c.value[n.toNat]? with
  | some v => .ok v
  | none => .throw .range

/-- `Value` (LatticeFunctions.cpp 615-619): the end of the list is dereferenced if there is no such column. -/
def Tab.value (t : Tab) (c : Ix) (n : Int) : Outcome Err ℝ :=
  match t.column c with
  | none => .ub
  | some x => x.at n

/-- `GetSPosIndex` (LatticeFunctions.cpp 602-613) on the values of the first column. -/
noncomputable def sIndex (x : ℝ) : Nat → List ℝ → Int
  | _, [] => -1
  | n, s :: l => if s ≥ x then n else sIndex x (n + 1) l

/-- The limits of `Mean`, `RMS` and `PrintTable` (LatticeFunctions.cpp 584-593, 642-651): the rows `n1` to `n2`. -/
def limits (nrows n1 n2 : Int) : Int × Int :=
  let n1 := if n1 < 0 then 0 else n1
  (n1, if n2 ≥ nrows ∨ n2 < n1 then nrows - 1 else n2)

/-- The sums of `Mean` over rows `n1 ≤ row < n2` (LatticeFunctions.cpp 653-661); `g` is what is summed of the two ends. -/
noncomputable def sums (g : ℝ → ℝ → ℝ) : List (ℝ × ℝ) → ℝ × ℝ
  | a :: b :: l => let r := sums g (b :: l); ((b.1 - a.1) + r.1, 1 / 2 * (b.1 - a.1) * g a.2 b.2 + r.2)
  | _ => (0, 0)

/-- The rows `n1` to `n2` of the columns of places and values. -/
def cut (l : List (ℝ × ℝ)) (n1 n2 : Int) : List (ℝ × ℝ) :=
  let k := limits l.length n1 n2
  (l.take (k.2 + 1).toNat).drop k.1.toNat

/-- `Mean` (LatticeFunctions.cpp 638-664) of a column which exists and has as many values as there are places. -/
noncomputable def mean (l : List (ℝ × ℝ)) (n1 n2 : Int) : Outcome Err ℝ :=
  let r := sums (fun a b => b + a) (cut l n1 n2)
  if r.1 = 0 then .ub else .ok (r.2 / r.1)

/-- The square of `RMS` (LatticeFunctions.cpp 666-693). -/
noncomputable def meanSquare (l : List (ℝ × ℝ)) (n1 n2 : Int) : Outcome Err ℝ :=
  let r := sums (fun a b => a * a + b * b) (cut l n1 n2)
  if r.1 = 0 then .ub else .ok (r.2 / r.1)

/-- `Derivative` (LatticeFunctions.cpp 73-98) of one column. -/
noncomputable def derivative (c : Ix) (dp : ℝ) : List ℝ → List ℝ → Outcome Err (List ℝ)
  | _, [] => .ok []
  | [], _ :: _ => .ub
  | m :: ms, p :: ps =>
    if c = (0, 0, 0) then (derivative c dp ms ps).bind fun l => .ok (m :: l)
    else if dp = 0 then .ub else (derivative c dp ms ps).bind fun l => .ok ((p - m) / dp :: l)

/-- `CalculateEnergyDerivative` (LatticeFunctions.cpp 298-319) for a table with other functions than the orbit, for one
column: the closed orbits of both calculations are found from zero with `TransverseOnly(true)`
(LatticeFunctions.cpp 330-338), the results give the values, `dp` is the difference of the energies of the orbits. -/
noncomputable def energyDerivative (c : Ix) (orbitP orbitM : Outcome Orbit.Err (Orbit.State ℝ)) (valuesP valuesM : PS → List ℝ) :
    Outcome Err (List ℝ) :=
  match orbitP, orbitM with
  | .ok p, .ok m => derivative c (p.p 5 - m.p 5) (valuesM m.p) (valuesP p.p)
  | _, _ => .throw .singular

/-! ## Phase advance -/

/-- The test of `CalcIntegerPart` (PhaseAdvance.cpp 152-162, 163-173). -/
noncomputable def counts (x last : ℝ) : Bool := !(decide (x = last) || decide (x ≤ 0)) && decide (x < last) && decide (x / last < 9999 / 10000)

/-- The loop `for(i = 1; i < n; ++i)` (PhaseAdvance.cpp 150-176) for one plane; the argument is the number of passes. -/
noncomputable def turns (v : Nat → ℝ) : Nat → Nat × ℝ
  | 0 => (0, 0)
  | i + 1 => let r := turns v i; (r.1 + (if counts (v (i + 1)) r.2 then 1 else 0), v (i + 1))

/-- `CalcIntegerPart` (PhaseAdvance.cpp 140-184). -/
noncomputable def totalPhase (v : Nat → ℝ) (n : Nat) : ℝ := (turns v (n - 1)).1 + v n

/-- `PhaseAdvanceBetween` (PhaseAdvance.cpp 45-75). -/
noncomputable def between (v : Nat → ℝ) (n1 n2 : Nat) : ℝ := totalPhase v n2 - totalPhase v n1

end Verif.Twiss
