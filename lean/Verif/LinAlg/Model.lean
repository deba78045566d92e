import Mathlib.LinearAlgebra.Matrix.NonsingularInverse
import Mathlib.Analysis.Complex.Basic
import Verif.Common.Outcome

/-!
# Model of the inversion, the symplectification and the eigensystem of matrices

Merlin++/LinearAlgebra.cpp.  Numbers are elements of a field with a modulus; matrices are functions of two indices, so the
test for square matrices (LinearAlgebra.cpp 50-53) has no counterpart.
-/

namespace Verif.LinAlg
open Verif

/-- The exception of Merlin++/LinearAlgebra.h. -/
inductive Err
  | singular
  deriving DecidableEq

section Inverse

variable {n : Nat} {K R : Type} [Field K] [Field R] [LinearOrder R]

/-- The local variables of `Inverse` (LinearAlgebra.cpp 55-59). -/
structure St (n : Nat) (K R : Type) where
  a : Matrix (Fin n) (Fin n) K
  b : Matrix (Fin n) (Fin n) K
  done : Fin n → Bool
  minpiv : R

/-- The pairs of indices in the order of the loops (LinearAlgebra.cpp 64-66). -/
def pairs (n : Nat) : List (Fin n × Fin n) := (List.finRange n).flatMap fun j => (List.finRange n).map fun k => (j, k)

/-- The body of the search for the pivot (LinearAlgebra.cpp 65-76). -/
def look (ab : K → R) (a : Matrix (Fin n) (Fin n) K) (done : Fin n → Bool) (r : R × Option (Fin n × Fin n))
    (jk : Fin n × Fin n) : R × Option (Fin n × Fin n) :=
  if !done jk.1 && !done jk.2 && decide (ab (a jk.1 jk.2) ≥ r.1) then (ab (a jk.1 jk.2), some jk) else r

/-- The search for the pivot (LinearAlgebra.cpp 63-77).  The old values of `prow` and `pcol` are never used again, as there
always is a pivot (`inverse_spec`), so the search starts without one. -/
def search (ab : K → R) (a : Matrix (Fin n) (Fin n) K) (done : Fin n → Bool) : R × Option (Fin n × Fin n) :=
  (pairs n).foldl (look ab a done) (0, none)

/-- `swap` of the rows (LinearAlgebra.cpp 80-85). -/
def swapRows (i j : Fin n) (a : Matrix (Fin n) (Fin n) K) : Matrix (Fin n) (Fin n) K :=
  fun r c => if r = i then a j c else if r = j then a i c else a r c

/-- The division of the row of the pivot (LinearAlgebra.cpp 94-95). -/
def scaleA (p : Fin n) (f : K) (a : Matrix (Fin n) (Fin n) K) : Matrix (Fin n) (Fin n) K :=
  fun r c => if r = p then (if c = p then 1 else a r c) * f else a r c

/-- The division of the row of the pivot of `b` (LinearAlgebra.cpp 96). -/
def scaleB (p : Fin n) (f : K) (b : Matrix (Fin n) (Fin n) K) : Matrix (Fin n) (Fin n) K :=
  fun r c => if r = p then b r c * f else b r c

/-- The elimination (LinearAlgebra.cpp 98-105): every row but that of the pivot only reads itself and the latter, so the
rows can be done at once. -/
def elimA (p : Fin n) (a : Matrix (Fin n) (Fin n) K) : Matrix (Fin n) (Fin n) K :=
  fun r c => if r = p then a r c else (if c = p then 0 else a r c) - a r p * a p c

/-- The elimination in `b` (LinearAlgebra.cpp 98-105). -/
def elimB (p : Fin n) (a b : Matrix (Fin n) (Fin n) K) : Matrix (Fin n) (Fin n) K :=
  fun r c => if r = p then b r c else b r c - a r p * b p c

/-- One round of the loop (LinearAlgebra.cpp 61-106). -/
def round (ab : K → R) (s : St n K R) : Outcome Err (St n K R) :=
  match (search ab s.a s.done).2 with
  | none => .ub
  | some (prow, pcol) =>
    let done := Function.update s.done pcol true
    let a := if prow ≠ pcol then swapRows prow pcol s.a else s.a
    let b := if prow ≠ pcol then swapRows prow pcol s.b else s.b
    let minpiv := min s.minpiv (ab (a pcol pcol))
    if minpiv = 0 then .throw .singular
    else
      let pivinv := 1 / a pcol pcol
      let a := scaleA pcol pivinv a
      let b := scaleB pcol pivinv b
      .ok ⟨elimA pcol a, elimB pcol a b, done, minpiv⟩

/-- The loop (LinearAlgebra.cpp 61). -/
def rounds (ab : K → R) : Nat → St n K R → Outcome Err (St n K R)
  | 0, s => .ok s
  | i + 1, s =>
    match round ab s with
    | .ok s' => rounds ab i s'
    | .throw e => .throw e
    | .ub => .ub

/-- `Inverse` (LinearAlgebra.cpp 47-109): the inverse and the smallest pivot. -/
def inverse (ab : K → R) (a : Matrix (Fin n) (Fin n) K) : Outcome Err (Matrix (Fin n) (Fin n) K × R) :=
  match rounds ab n ⟨a, 1, fun _ => false, 1000000000⟩ with
  | .ok s => .ok (s.b, s.minpiv)
  | .throw e => .throw e
  | .ub => .ub

end Inverse

section Symplectify

variable {K R : Type} [Field K] [Field R] [LinearOrder R]

/-- The matrix `s` (LinearAlgebra.cpp 241-249 and 124-127). -/
def sMat : Matrix (Fin 6) (Fin 6) K := fun i j =>
  if i.val % 2 = 0 ∧ j.val = i.val + 1 then 1 else if i.val % 2 = 1 ∧ j.val + 1 = i.val then -1 else 0

/-- `w` (LinearAlgebra.cpp 258-263). -/
def symPart (v : Matrix (Fin 6) (Fin 6) K) : Matrix (Fin 6) (Fin 6) K := fun r c => (v r c + v c r) / 2

/-- `Symplectify` (LinearAlgebra.cpp 237-269). -/
def symplectify (ab : K → R) (a : Matrix (Fin 6) (Fin 6) K) : Outcome Err (Matrix (Fin 6) (Fin 6) K) :=
  match inverse ab (1 + a) with
  | .ok ipa =>
    let v := sMat * (1 - a) * ipa.1
    let w := symPart v
    let sw := sMat * w
    match inverse ab (1 - sw) with
    | .ok r => .ok (r.1 * (1 + sw))
    | .throw e => .throw e
    | .ub => .ub
  | .throw e => .throw e
  | .ub => .ub

end Symplectify

noncomputable section Eigen

/-- Six complex numbers. -/
abbrev Vec := Fin 6 → ℂ

/-- `ComplexMatrix m(t)` (LinearAlgebra.cpp 123). -/
def cplx (t : Matrix (Fin 6) (Fin 6) ℝ) : Matrix (Fin 6) (Fin 6) ℂ := Matrix.of fun i j => (t i j : ℂ)

/-- The first guess of a vector (LinearAlgebra.cpp 140-142). -/
def guessVec (pln : Nat) : Vec := fun i => if i.val = 2 * pln ∨ i.val = 2 * pln + 1 then ((1 / Real.sqrt 2 : ℝ) : ℂ) else 0

/-- The first guess of an eigenvalue (LinearAlgebra.cpp 135-137); `sq` is the complex square root. -/
def guessVal (sq : ℂ → ℂ) (t00 t11 : ℝ) : ℂ :=
  let cosmu : ℂ := ((t00 + t11) / 2 : ℝ)
  cosmu + sq (cosmu * cosmu - 1)

/-- `test` (LinearAlgebra.cpp 145-151). -/
def testGuess (m : Matrix (Fin 6) (Fin 6) ℂ) (b : Vec) : ℝ :=
  ∑ i, ‖(∑ j, m i j * b j) - b i‖ ^ 2

/-- One iteration (LinearAlgebra.cpp 165-194): the new vector, the new eigenvalue and `prox`.  A division by zero is
`ub`. -/
def iterStep (sq : ℂ → ℂ) (m : Matrix (Fin 6) (Fin 6) ℂ) (b : Vec) (lam : ℂ) : Outcome Err (Vec × ℂ × ℝ) :=
  let mp : Matrix (Fin 6) (Fin 6) ℂ := Matrix.of fun i j => if i = j then m i j - lam else m i j
  match inverse (fun z : ℂ => ‖z‖) mp with
  | .ok minv =>
    let y : Vec := fun row => ∑ col, minv.1 row col * b col
    let ynorm := ∑ k, y k * y k
    let ydotb := ∑ k, y k * b k
    if sq ynorm = 0 ∨ ydotb = 0 then .ub
    else .ok (fun i => y i / sq ynorm, lam + 1 / ydotb, minv.2)
  | .throw e => .throw e
  | .ub => .ub

/-- `while(prox > 1.0e-16 && iter < maxiter)` (LinearAlgebra.cpp 163-195). -/
def iterate (sq : ℂ → ℂ) (m : Matrix (Fin 6) (Fin 6) ℂ) : Nat → Vec → ℂ → ℝ → Outcome Err (Vec × ℂ)
  | 0, b, lam, _ => .ok (b, lam)
  | k + 1, b, lam, prox =>
    if prox > 1 / 10 ^ 16 then
      match iterStep sq m b lam with
      | .ok r => iterate sq m k r.1 r.2.1 r.2.2
      | .throw e => .throw e
      | .ub => .ub
    else .ok (b, lam)

/-- `bnorm` (LinearAlgebra.cpp 203-211). -/
def bnorm (b : Vec) : ℂ := ∑ row, ∑ col, (starRingEnd ℂ) (b row) * sMat row col * b col

/-- The normalisation (LinearAlgebra.cpp 202-227): the eigenvalue and the vector.  Without norm the division gives no
numbers: `ub`. -/
def finish (b : Vec) (lam : ℂ) : Outcome Err (ℂ × Vec) :=
  let nb := bnorm b
  if nb = 0 then .ub
  else
    let b : Vec := fun i => b i * (Real.sqrt (1 / ‖nb‖) : ℝ)
    if nb.im < 0 then .ok ((starRingEnd ℂ) lam, fun i => (starRingEnd ℂ) (b i)) else .ok (lam, b)

/-- The guess of the eigenvalue of a plane (LinearAlgebra.cpp 135). -/
def firstVal (sq : ℂ → ℂ) (t : Matrix (Fin 6) (Fin 6) ℝ) (pln : Fin 3) : ℂ :=
  guessVal sq (t ⟨2 * pln.val, by omega⟩ ⟨2 * pln.val, by omega⟩) (t ⟨2 * pln.val + 1, by omega⟩ ⟨2 * pln.val + 1, by omega⟩)

/-- The eigenvalue and the vector of one plane (LinearAlgebra.cpp 134-227). -/
def plane (sq : ℂ → ℂ) (t : Matrix (Fin 6) (Fin 6) ℝ) (pln : Fin 3) : Outcome Err (ℂ × Vec) :=
  if testGuess (cplx t) (guessVec pln.val) > 1 / 10 ^ 15 then
    match iterate sq (cplx t) 50 (guessVec pln.val) (firstVal sq t pln) 1 with
    | .ok r => finish r.1 r.2
    | .throw e => .throw e
    | .ub => .ub
  else finish (guessVec pln.val) (firstVal sq t pln)

end Eigen

end Verif.LinAlg
