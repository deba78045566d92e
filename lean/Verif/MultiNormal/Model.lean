import Mathlib.Algebra.Order.Field.Basic
import Verif.Common.Outcome
import Verif.LinMap.Model

/-!
# Model of the generator of correlated normal numbers

Merlin++/MultiNormal.h.  Doubles are elements of an ordered field, `sqrt` is the square root of the library.
Matrices and vectors are functions of their indices.
-/

namespace Verif.MultiNormal
open Verif Verif.LinMap

variable {K : Type} [Field K] [LinearOrder K] [IsStrictOrderedRing K]

/-- `RealMatrix L` (MultiNormal.h 41). -/
abbrev Mat (K : Type) := Nat → Nat → K

/-- Assignment to an element. -/
def setM (L : Mat K) (i j : Nat) (v : K) : Mat K := fun a b => if a = i ∧ b = j then v else L a b

/-- What is thrown: `DimensionError` (MultiNormal.h 73-76, 86-89, 104-107) or
"Negative square root" (line 143). -/
inductive Err where
  | dimension
  | negative
  deriving DecidableEq

/-- The body of the two loops of `CholeskyDecomp` (MultiNormal.h 135-150).  Division by zero, which the language
leaves undefined (and the processor answers with infinity or not-a-number), is `ub`. -/
def cell (sqrt : K → K) (i : Nat) (L : Mat K) (j : Nat) : Outcome Err (Mat K) :=
  let stot := (List.range j).foldl (fun s k => s + L i k * L j k) 0
  if i = j then
    let x := L i j - stot
    if x < 0 then .throw .negative else .ok (setM L i j (sqrt x))
  else if L j j = 0 then .ub
  else .ok (setM L i j ((L j i - stot) / L j j))

/-- The inner loop (MultiNormal.h 133), of the first `n` columns. -/
def row (sqrt : K → K) (i : Nat) (L : Mat K) : Nat → Outcome Err (Mat K)
  | 0 => .ok L
  | n + 1 => (row sqrt i L n).bind fun L => cell sqrt i L n

/-- `CholeskyDecomp` (MultiNormal.h 125-153), of the first `n` rows. -/
def cholesky (sqrt : K → K) (L : Mat K) : Nat → Outcome Err (Mat K)
  | 0 => .ok L
  | n + 1 => (cholesky sqrt L n).bind fun L => row sqrt n L (n + 1)

/-- A generator: the dimension, the mean and the matrix (MultiNormal.h 40-43). -/
structure Gen (K : Type) where
  n : Nat
  mean : Nat → K
  L : Mat K

/-- The constructor from a matrix of `rows` by `cols` and a vector of `size` elements (MultiNormal.h 69-80). -/
def Gen.ofMatrix (sqrt : K → K) (n rows cols : Nat) (cov : Mat K) (size : Nat) (m : Nat → K) : Outcome Err (Gen K) :=
  if n = 0 ∨ n > cols ∨ cols ≠ rows ∨ n > size then .throw .dimension
  else (cholesky sqrt cov n).bind fun L => .ok ⟨n, m, L⟩

/-- The constructors from a covariance matrix (MultiNormal.h 82-98) and from moments (100-117): the upper triangle is
filled; `L(N, N)` is not initialised, its lower triangle is `junk`. -/
def Gen.ofCov (sqrt : K → K) (n : Nat) (cov : Cov K) (size : Nat) (m : Nat → K) (junk : Mat K) : Outcome Err (Gen K) :=
  if n = 0 ∨ n > size then .throw .dimension
  else (cholesky sqrt (fun i j => if i ≤ j then sig n cov i j else junk i j) n).bind fun L => .ok ⟨n, m, L⟩

/-- One turn of the loop of `GetRandVec` (MultiNormal.h 57-65). -/
def turn (g : Gen K) (x : Nat → K) (i : Nat) : Nat → K :=
  let x := upd x i (x i * g.L i i)
  let x := upd x i (x i + g.mean i)
  (List.range i).foldl (fun x j => upd x i (x i + g.L i j * x j)) x

/-- `GetRandVec` (MultiNormal.h 50-67) from the numbers drawn. -/
def Gen.randVec (g : Gen K) (x : Nat → K) : Nat → K := (List.range g.n).reverse.foldl (turn g) x

end Verif.MultiNormal
