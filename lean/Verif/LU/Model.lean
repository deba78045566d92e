import Mathlib.Algebra.Order.Field.Basic
import Mathlib.Data.Matrix.Mul
import Verif.Common.Outcome

/-!
# Model of the LU and singular value decompositions

Merlin++/TLASimp.h and `savgol` (Merlin++/WakeFieldProcess.cpp).  Doubles are elements of an ordered field; matrices are
functions of two natural numbers, of which only those below `n` matter.  `std::vector<int>` is a list, so that its size is
known; an access beyond it is `ub`.
-/

namespace Verif.LU
open Verif

/-- The exceptions of Merlin++/TLASimp.h and Merlin++/TMatrixLib.h. -/
inductive Err
  | singular
  | dimension
  | allZero
  deriving DecidableEq

section LU

variable {K : Type} [Field K] [LinearOrder K]

/-- `M[i][j] = v`. -/
def set (m : Nat → Nat → K) (i j : Nat) (v : K) : Nat → Nat → K := fun r c => if r = i ∧ c = j then v else m r c

/-- `M[i][j] -= M[i][k] * M[k][j]` for the first `b` numbers `k` (TLASimp.h 261-264 and 269-272). -/
def reduce (m : Nat → Nat → K) (i j b : Nat) : Nat → Nat → K :=
  (List.range b).foldl (fun m k => set m i j (m i j - m i k * m k j)) m

/-- The upper part of a column (TLASimp.h 259-265). -/
def upper (m : Nat → Nat → K) (j : Nat) (b : Nat) : Nat → Nat → K :=
  (List.range b).foldl (fun m i => reduce m i j i) m

/-- The variables of the search for a pivot. -/
structure Low (K : Type) where
  m : Nat → Nat → K
  big : K
  imax : Option Nat

/-- The body of the lower part (TLASimp.h 269-278). -/
def lowStep (scale : Nat → K) (j : Nat) (s : Low K) (i : Nat) : Low K :=
  let m := reduce s.m i j j
  let howbig := scale i * |m i j|
  if howbig ≥ s.big then ⟨m, howbig, some i⟩ else ⟨m, s.big, s.imax⟩

/-- The lower part of a column (TLASimp.h 266-279), for `b` rows.  `imax` keeps the value of the column before; as a pivot is
always found (`lower_spec`), it starts without one. -/
def lower (scale : Nat → K) (m : Nat → Nat → K) (j b : Nat) : Low K :=
  (List.range' j b).foldl (lowStep scale j) ⟨m, 0, none⟩

/-- The exchange of two rows, or of two entries of a vector (TLASimp.h 282-287). -/
def swapAt {α : Type} (i p : Nat) (f : Nat → α) : Nat → α := fun r => if r = p then f i else if r = i then f p else f r

/-- The variables of `LUfactor`. -/
structure Fac (K : Type) where
  m : Nat → Nat → K
  scale : Nat → K
  sign : K
  pivot : List Nat

/-- `M[j][j] = epsilon` for a pivot of zero (TLASimp.h 292-295). -/
def fixPivot (eps : K) (j : Nat) (m : Nat → Nat → K) : Nat → Nat → K := if m j j = 0 then set m j j eps else m

/-- The division of the column below the pivot (TLASimp.h 296-303). -/
def divide (j : Nat) (m : Nat → Nat → K) : Nat → Nat → K :=
  let dum := 1 / m j j
  fun r c => if c = j ∧ j < r then m r c * dum else m r c

/-- One column (TLASimp.h 257-304). -/
def column (n : Nat) (eps : K) (s : Fac K) (j : Nat) : Outcome Err (Fac K) :=
  let m := upper s.m j j
  let l := lower s.scale m j (n - j)
  match l.imax with
  | none => .ub
  | some imax =>
    let m := if j ≠ imax then swapAt j imax l.m else l.m
    let sign := if j ≠ imax then - s.sign else s.sign
    let scale := if j ≠ imax then (fun i => if i = imax then s.scale j else s.scale i) else s.scale
    if j < s.pivot.length then
      .ok ⟨divide j (fixPivot eps j m), scale, sign, s.pivot.set j imax⟩
    else .ub

/-- The columns from `j`, `b` of them (TLASimp.h 257). -/
def columns (n : Nat) (eps : K) : Nat → Nat → Fac K → Outcome Err (Fac K)
  | 0, _, s => .ok s
  | b + 1, j, s =>
    match column n eps s j with
    | .ok s' => columns n eps b (j + 1) s'
    | .throw e => .throw e
    | .ub => .ub

/-- The largest modulus of a row (TLASimp.h 246-250). -/
def rowBig (n : Nat) (m : Nat → Nat → K) (i : Nat) : K := (List.range n).foldl (fun big j => max |m i j| big) 0

/-- `LUfactor` (TLASimp.h 230-305) of a square matrix. -/
def lufactor (n : Nat) (eps : K) (m : Nat → Nat → K) (pivot : List Nat) : Outcome Err (Fac K) :=
  if (List.range n).any fun i => decide (rowBig n m i = 0) then .throw .singular
  else columns n eps n 0 ⟨m, fun i => 1 / rowBig n m i, 1, pivot⟩

/-- `v[i] = x`. -/
def setv (v : Nat → K) (i : Nat) (x : K) : Nat → K := fun r => if r = i then x else v r

/-- One step of the forward substitution (TLASimp.h 321-337): the vector and `first`, `none` for -1. -/
def fstep (m : Nat → Nat → K) (s : (Nat → K) × Option Nat) (i p : Nat) : (Nat → K) × Option Nat :=
  let sum := s.1 p
  let v := setv s.1 p (s.1 i)
  match s.2 with
  | some f => (setv v i ((List.range' f (i - f)).foldl (fun sum j => sum - m i j * v j) sum), some f)
  | none => (setv v i sum, if sum ≠ 0 then some i else none)

/-- The forward substitution of the rows from `i`, with the pivots which are left. -/
def forward (m : Nat → Nat → K) : List Nat → Nat → (Nat → K) × Option Nat → (Nat → K) × Option Nat
  | [], _, s => s
  | p :: l, i, s => forward m l (i + 1) (fstep m s i p)

/-- The back substitution (TLASimp.h 341-349) of the rows below the given one. -/
def back (m : Nat → Nat → K) (n : Nat) : Nat → (Nat → K) → Nat → K
  | 0, v => v
  | i + 1, v =>
    back m n i (setv v i ((List.range' (i + 1) (n - (i + 1))).foldl (fun sum j => sum - m i j * v j) (v i) / m i i))

/-- `LUsolve` (TLASimp.h 309-351). -/
def lusolve (n : Nat) (m : Nat → Nat → K) (pivot : List Nat) (v : Nat → K) : Outcome Err (Nat → K) :=
  if pivot.length < n then .ub else .ok (back m n n (forward m (pivot.take n) 0 (v, none)).1)

/-- `LUMatrix(M)` (TLASimp.h 39-43): the vector `indexes` is empty. -/
def luMatrix (n : Nat) (eps : K) (m : Nat → Nat → K) : Outcome Err (Fac K) := lufactor n eps m []

/-- `det()` (TLASimp.h 79-87). -/
def det (n : Nat) (s : Fac K) : K := (List.range n).foldl (fun dt i => dt * s.m i i) s.sign

/-! ## The smoothing filter -/

/-- `powi` (WakeFieldProcess.cpp 435-443), without overflow. -/
def powi (i : Int) (j : Nat) : Int := (List.range j).foldl (fun p _ => p * i) 1

/-- The offsets `-nl, …, nr` of the loops (WakeFieldProcess.cpp 454, 478). -/
def offsets (nl nr : Nat) : List Int := (List.range (nl + nr + 1)).map fun k : Nat => (k : Int) - nl

/-- The matrix `a` (WakeFieldProcess.cpp 449-461). -/
def moments (nl nr : Nat) : Nat → Nat → K := fun i j =>
  (offsets nl nr).foldl (fun sum k => sum + ((powi k i * powi k j : Int) : K)) 0

/-- A coefficient (WakeFieldProcess.cpp 480-486). -/
def coef (m : Nat) (b : Nat → K) (k : Int) : K :=
  ((List.range' 1 m).foldl (fun s mm => (s.1 + b mm * (s.2 * k), s.2 * (k : K))) (b 0, 1)).1

/-- `savgol` with a vector `indx` (WakeFieldProcess.cpp 445-490). -/
def savgolWith (indx : List Nat) (eps : K) (nl nr ld m : Nat) : Outcome Err (List K) :=
  match lufactor (m + 1) eps (moments nl nr) indx with
  | .ok s =>
    if ld ≤ m then
      match lusolve (m + 1) s.m s.pivot (fun j => if j = ld then 1 else 0) with
      | .ok b => .ok ((offsets nl nr).map (coef m b))
      | .throw e => .throw e
      | .ub => .ub
    else .ub
  | .throw e => .throw e
  | .ub => .ub

/-- `savgol` (WakeFieldProcess.cpp 445-490): `indx` is empty (line 463). -/
def savgol (eps : K) (nl nr ld m : Nat) : Outcome Err (List K) := savgolWith [] eps nl nr ld m

end LU

/-! ## Singular values -/

section SVD

variable {m n : Nat} {K : Type} [Field K] [LinearOrder K]

/-- `SVDsolve` (TLASimp.h 383-391). -/
def svdSolve (u : Matrix (Fin m) (Fin n) K) (w : Fin n → K) (v : Matrix (Fin n) (Fin n) K) (b : Fin m → K) : Fin n → K :=
  v.mulVec fun i => if w i = 0 then 0 else u.transpose.mulVec b i / w i

/-- The values which are set to zero (TLASimp.h 213-225). -/
def clip (threshold : K) (w : List K) : Outcome Err (List K) :=
  let wmin := if threshold ≠ 0 then threshold * w.foldl max (w.headD 0) else threshold
  if w.all fun x => decide (x ≤ wmin) then .throw .allZero
  else .ok (w.map fun x => if x ≤ wmin then 0 else x)

/-- The sizes in `Init` (TLASimp.h 191-211): the size of the matrix given to `SVD`, whose columns are multiplied by the
weights of the rows (`equal_length`, TMatrixLib.h 719-722) and which must not have more rows than columns (TLASimp.h 422). -/
def svdSizes (rows cols wts : Nat) : Outcome Err (Nat × Nat) :=
  let u := if rows < cols then (cols, cols) else (rows, cols)
  if 0 < u.2 ∧ wts ≠ u.1 then .throw .dimension
  else if u.1 ≤ u.2 then .ok u else .ub

end SVD

end Verif.LU
