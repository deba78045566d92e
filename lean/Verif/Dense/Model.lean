import Mathlib.Algebra.Order.Field.Basic
import Mathlib.Algebra.Order.Group.Abs
import Verif.Common.Outcome

/-!
# Dense matrices (Merlin++/TMatrixLib.h, Merlin++/tblas.h)

A matrix is its numbers of rows and columns and the array, of which the elements below `nr * nc` have a meaning.  Range
checking is compiled in, as by default.  Numbers are those of an ordered field, not doubles.  An exception ends a call; what a
call has changed by then is not modelled.
-/

namespace Verif.Dense

/-- The exceptions of TMatrixLib.h 36-41. -/
inductive Err where
  | dimension
  | range
  deriving DecidableEq

variable {K : Type} [Field K] [LinearOrder K]

/-- `Matrix` (TMatrixLib.h 1033-1423). -/
structure Mat (K : Type) where
  nr : ℕ
  nc : ℕ
  array : ℕ → K

/-- `Vector` (TMatrixLib.h 182-405). -/
structure Vec (K : Type) where
  n : ℕ
  array : ℕ → K

/-- The machine epsilon, the tolerance of `fequal` (utils.h 16-19). -/
def eps : K := 1 / 2 ^ 52

/-- `fequal` (utils.h 16-19). -/
def fequal (x y : K) : Bool := decide (|x - y| ≤ eps)

/-- `index` (TMatrixLib.h 1047-1052). -/
def index (M : Mat K) (i j : ℕ) : Outcome Err ℕ :=
  if M.nr ≤ i then .throw .range else if M.nc ≤ j then .throw .range else .ok (i * M.nc + j)

/-- `operator()(i, j)`, read (TMatrixLib.h 1200-1203). -/
def get (M : Mat K) (i j : ℕ) : Outcome Err K := (index M i j).bind fun p => .ok (M.array p)

/-- `operator()(i, j)`, written to (TMatrixLib.h 1196-1199). -/
def set (M : Mat K) (i j : ℕ) (v : K) : Outcome Err (Mat K) :=
  (index M i j).bind fun p => .ok ⟨M.nr, M.nc, fun q => if q = p then v else M.array q⟩

/-- The identity (TMatrixLib.h 1082-1088): the slice from 0 of length `n` and stride `n + 1` is one. -/
def identity (n : ℕ) : Mat K := ⟨n, n, fun q => if q % (n + 1) = 0 ∧ q / (n + 1) < n then 1 else 0⟩

/-- A slice of an array, and a `SubVector` (TMatrixLib.h 579-790). -/
structure Sub (K : Type) where
  start : ℕ
  size : ℕ
  stride : ℕ
  array : ℕ → K

/-- `operator()(i)` of a `SubVector` (TMatrixLib.h 527-531). -/
def Sub.get (s : Sub K) (i : ℕ) : Outcome Err K :=
  if s.size ≤ i then .throw .range else .ok (s.array (s.start + i * s.stride))

/-- `row` (TMatrixLib.h 1248-1252). -/
def row (M : Mat K) (i : ℕ) : Outcome Err (Sub K) := if M.nr ≤ i then .throw .range else .ok ⟨i * M.nc, M.nc, 1, M.array⟩

/-- `column` (TMatrixLib.h 1258-1262). -/
def column (M : Mat K) (j : ℕ) : Outcome Err (Sub K) := if M.nc ≤ j then .throw .range else .ok ⟨j, M.nr, M.nc, M.array⟩

/-- `length` of a range, an unsigned difference (TMatrixLib.h 89-92). -/
def length (first second : ℕ) : ℕ := (second + 2 ^ 64 - first + 1) % 2 ^ 64

/-- A ranged row (TMatrixLib.h 1209-1214), with `in_range` (TMatrixLib.h 134-140). -/
def ranged (M : Mat K) (i first second : ℕ) : Outcome Err (Sub K) :=
  if M.nr ≤ i then .throw .range
  else if M.nc ≤ first ∨ M.nc ≤ second then .throw .range
  else .ok ⟨M.nc * i + first, length first second, 1, M.array⟩

/-- `redim` (TMatrixLib.h 1181-1193); `valarray::resize` sets all elements to zero, also if the size is the same. -/
def redim (_ : Mat K) (n m : ℕ) : Mat K := ⟨n, m, fun _ => 0⟩

/-- Assignment (TMatrixLib.h 1122-1130) of another matrix. -/
def assign (M m : Mat K) : Outcome Err (Mat K) :=
  if M.nr ≠ m.nr ∨ M.nc ≠ m.nc then .throw .dimension else .ok ⟨M.nr, M.nc, m.array⟩

/-- `copy` of another matrix (TMatrixLib.h 1146-1150). -/
def copy (M rhs : Mat K) : Outcome Err (Mat K) := assign (redim M rhs.nr rhs.nc) rhs

/-- `copy` of the matrix itself (TMatrixLib.h 1146-1150, 1122-1130): assignment does nothing. -/
def copySelf (M : Mat K) : Mat K := redim M M.nr M.nc

/-- An element without a check (TMatrixLib.h 1047-1052), used where the ranges have been checked. -/
def el (M : Mat K) (i j : ℕ) : K := M.array (i * M.nc + j)

/-- Whether `A(i, j)` is in range (TMatrixLib.h 127-133, 1047-1052). -/
def inside (M : Mat K) (i j : ℕ) : Bool := decide (i < M.nr) && decide (j < M.nc)

/-- `tdot` (tblas.h 18-26): the length is that of the first vector. -/
def tdot (u v : Vec K) (alpha : K) : Outcome Err K :=
  if v.n < u.n then .throw .range
  else .ok ((List.range u.n).foldl (fun s i => s + u.array i * v.array i) alpha)

/-- `tgemv` (tblas.h 57-96), for two distinct vectors.  An access out of range throws (TMatrixLib.h 127-133, 262-278). -/
def tgemv (t : Bool) (alpha : K) (A : Mat K) (x : Vec K) (beta : K) (y : Vec K) : Outcome Err (Vec K) :=
  if !fequal beta 1 && decide (y.n < A.nr) then .throw .range
  else
    let y1 : ℕ → K := fun i => if !fequal beta 1 && decide (i < A.nr) then y.array i * beta else y.array i
    if fequal alpha 0 then .ok ⟨y.n, y1⟩
    else
      let rows := if t then A.nc else A.nr
      let cols := if t then A.nr else A.nc
      if 0 < rows ∧ 0 < cols ∧ (y.n < rows ∨ x.n < cols) then .throw .range
      else .ok ⟨y.n, fun i => if i < rows then
        (List.range cols).foldl (fun s j => s + alpha * (if t then el A j i else el A i j) * x.array j) (y1 i) else y1 i⟩

/-- `tgemm` (tblas.h 123-171), for `C` distinct from `A` and `B`. -/
def tgemm (tpa tpb : Bool) (alpha : K) (A B : Mat K) (beta : K) (C : Mat K) : Outcome Err (Mat K) :=
  let c1 : ℕ → K := fun p => if fequal beta 0 then 0 else if !fequal beta 1 then C.array p * beta else C.array p
  if fequal alpha 0 then .ok ⟨C.nr, C.nc, c1⟩
  else
    let klim := if tpa then A.nr else A.nc
    let fits := (List.range C.nr).all fun i => (List.range C.nc).all fun j => (List.range klim).all fun k =>
      (if tpa then inside A k i else inside A i k) && if tpb then inside B j k else inside B k j
    if fits then .ok ⟨C.nr, C.nc, fun p => (List.range klim).foldl (fun s k =>
      s + alpha * (if tpa then el A k (p / C.nc) else el A (p / C.nc) k) *
        if tpb then el B (p % C.nc) k else el B k (p % C.nc)) (c1 p)⟩
    else .throw .range

/-- The product of matrices (TMatrixLib.h 1463-1470), with `equal_dimension` and `swap` (TMatrixLib.h 94-97, 113-119). -/
def mul (A B : Mat K) : Outcome Err (Mat K) :=
  if A.nr ≠ B.nc ∨ A.nc ≠ B.nr then .throw .dimension
  else tgemm false false 1 A B 1 ⟨A.nr, B.nc, fun _ => 0⟩

/-- The product of a matrix and a vector (TMatrixLib.h 1475-1482). -/
def mulVec (M : Mat K) (V : Vec K) : Outcome Err (Vec K) :=
  if M.nc ≠ V.n then .throw .dimension else tgemv false 1 M V 1 ⟨M.nr, fun _ => 0⟩

/-- The line of `operator<<` for the subscript `i`, as a list of the numbers written (TMatrixLib.h 1489-1492). -/
def line (M : Mat K) (i : ℕ) : List ℕ → Outcome Err (List K)
  | [] => .ok []
  | j :: js => (get M i j).bind fun v => (line M i js).bind fun vs => .ok (v :: vs)

/-- The loop of `operator<<` (TMatrixLib.h 1487-1494). -/
def lines (M : Mat K) : List ℕ → Outcome Err (List (List K))
  | [] => .ok []
  | i :: is => (line M i (List.range M.nr)).bind fun l => (lines M is).bind fun ls => .ok (l :: ls)

/-- `operator<<` (TMatrixLib.h 1484-1496). -/
def print (M : Mat K) : Outcome Err (List (List K)) := lines M (List.range M.nc)

/-- An assignment operation on the elements of a `SubMatrix` (TMatrixLib.h 899-983): the rows from `r1` to `r2` and the columns
from `c1` to `c2` of `M` are combined with the elements of an array in the order of rows. -/
def subApply (f : K → K → K) (M : Mat K) (r1 r2 c1 c2 : ℕ) (a : ℕ → K) : Mat K :=
  ⟨M.nr, M.nc, fun p =>
    if r1 ≤ p / M.nc ∧ p / M.nc ≤ r2 ∧ c1 ≤ p % M.nc ∧ p % M.nc ≤ c2 then
      f (M.array p) (a ((p / M.nc - r1) * (c2 - c1 + 1) + (p % M.nc - c1)))
    else M.array p⟩

/-- `+=`, `-=` and `/=` of a `SubMatrix` and a matrix (TMatrixLib.h 959-970, 977-982), for ordered ranges inside the matrix. -/
def subOp (f : K → K → K) (M : Mat K) (r1 r2 c1 c2 : ℕ) (m : Mat K) : Outcome Err (Mat K) :=
  if r2 - r1 + 1 ≠ m.nr ∨ c2 - c1 + 1 ≠ m.nc then .throw .dimension else .ok (subApply f M r1 r2 c1 c2 m.array)

/-- `*=` of a `SubMatrix` and a matrix (TMatrixLib.h 971-976).  An array of another length is undefined. -/
def subMul (M : Mat K) (r1 r2 c1 c2 : ℕ) (m : Mat K) : Outcome Err (Mat K) :=
  if c2 - c1 + 1 ≠ m.nr then .throw .dimension
  else if (r2 - r1 + 1) * (c2 - c1 + 1) ≠ m.nr * m.nc then .ub
  else .ok (subApply (· * ·) M r1 r2 c1 c2 m.array)

/-- The element `i, j` which `tgemr` makes (tblas.h 176-191), for square matrices of `n` rows, `C` being distinct. -/
def tgemr (n : ℕ) (R M : ℕ → ℕ → K) (i j : ℕ) : K :=
  (List.range n).foldl (fun s k => (List.range n).foldl (fun s l => s + R i k * R j l * M k l) s) 0

/-- One element of `tgemr` if `C` is `M` (tblas.h 180-190). -/
def tgemrStep (n : ℕ) (R : ℕ → ℕ → K) (C : ℕ → ℕ → K) (i j : ℕ) : ℕ → ℕ → K :=
  let write : (ℕ → ℕ → K) → K → ℕ → ℕ → K := fun C v a b => if a = i ∧ b = j then v else C a b
  (List.range n).foldl (fun C k => (List.range n).foldl (fun C l => write C (C i j + R i k * R j l * C k l)) C) (write C 0)

/-- `tgemr` if `C` is `M`, which is not excluded (tblas.h 176-191). -/
def tgemrSelf (n : ℕ) (R C : ℕ → ℕ → K) : ℕ → ℕ → K :=
  (List.range n).foldl (fun C i => (List.range n).foldl (fun C j => tgemrStep n R C i j) C) C

/-- `s + v` and `v + s` (TMatrixLib.h 451-463). -/
def addScalar (v : Vec K) (s : K) : Vec K := ⟨v.n, fun i => v.array i + s⟩

/-- `s - v` (TMatrixLib.h 465-471). -/
def scalarSub (s : K) (v : Vec K) : Vec K := ⟨v.n, fun i => v.array i * -1 + s⟩

/-- `v - s` (TMatrixLib.h 473-478). -/
def subScalar (v : Vec K) (s : K) : Vec K := ⟨v.n, fun i => v.array i + s⟩

/-- `s * v` and `v * s` (TMatrixLib.h 480-492). -/
def mulScalar (v : Vec K) (s : K) : Vec K := ⟨v.n, fun i => v.array i * s⟩

/-- The element `i` of a slice, without a check (TMatrixLib.h 596, 604, 612-619). -/
def Sub.at (s : Sub K) (i : ℕ) : K := s.array (s.start + i * s.stride)

/-- `sumsquared` (TMatrixLib.h 591-597). -/
def sumsquared (s : Sub K) : K := (List.range s.size).foldl (fun t i => t + s.at i ^ 2) 0

/-- `sumfabs` (TMatrixLib.h 599-605). -/
def sumfabs (s : Sub K) : K := (List.range s.size).foldl (fun t i => t + |s.at i|) 0

/-- `locmaxabs` (TMatrixLib.h 607-625), for a slice with elements; the pair is `imax` and `amax`. -/
def locmaxabs (s : Sub K) : ℕ :=
  ((List.range (s.size - 1)).foldl (fun (m : ℕ × K) i => if |s.at (i + 1)| > m.2 then (i + 1, |s.at (i + 1)|) else m)
    (0, |s.at 0|)).1

end Verif.Dense
