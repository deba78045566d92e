import Mathlib.Algebra.BigOperators.Intervals
import Mathlib.Analysis.Real.Sqrt
import Mathlib.Logic.Function.Basic
import Verif.Common.Outcome

/-!
# Eigenvalues of symmetric matrices (Merlin++/LinearAlgebra.cpp 459-714)

`tred2` makes a symmetric matrix tridiagonal by reflections; `tqli` finds the eigenvalues and eigenvectors of a symmetric
tridiagonal matrix by rotations of pairs of columns; `EigenSystemSymmetricMatrix` calls the one after the other.  Doubles are real numbers, so
no rounding is modelled.  Vectors are functions of an index and matrices of two, and only indices below `n` are meant.
The variables are those of the code: `off` keeps the element beside `diag(k)` and `diag(k + 1)` at `k` once it has been
moved down (LinearAlgebra.cpp 629-635).
-/

namespace Verif.EigenSym

/-- `pythag` (LinearAlgebra.cpp 544-556). -/
noncomputable def pythag (a b : ℝ) : ℝ :=
  if |a| > |b| then |a| * Real.sqrt (1 + (|b| / |a|) ^ 2)
  else if |b| = 0 then 0 else |b| * Real.sqrt (1 + (|a| / |b|) ^ 2)

/-- The macro `_SIGN` (LinearAlgebra.cpp 45). -/
noncomputable def sign (a b : ℝ) : ℝ := if b > 0 then |a| else -|a|

/-- `diag`, `off` and `M`. -/
structure St where
  d : ℕ → ℝ
  e : ℕ → ℝ
  Z : ℕ → ℕ → ℝ

/-- The variables `s`, `c`, `p` and `g` of a sweep (LinearAlgebra.cpp 658-661). -/
structure Loc where
  s : ℝ
  c : ℝ
  p : ℝ
  g : ℝ

/-- `fabs(off(m)) <= small` (LinearAlgebra.cpp 647-649). -/
def Small (d e : ℕ → ℝ) (m : ℕ) : Prop := |e m| ≤ 1 / 10 ^ 12 * (|d m| + |d (m + 1)|)

open Classical in
/-- The loop which looks for `m` (LinearAlgebra.cpp 643-651), with `left` values of `m` left to be tried. -/
noncomputable def findM (d e : ℕ → ℝ) : (left m : ℕ) → ℕ
  | 0, m => m
  | left + 1, m => if Small d e m then m else findM d e left (m + 1)

/-- The rotation of the columns `i` and `i + 1` (LinearAlgebra.cpp 685-690). -/
noncomputable def rotate (n : ℕ) (s c : ℝ) (i : ℕ) (Z : ℕ → ℕ → ℝ) : ℕ → ℕ → ℝ := fun k l =>
  if k < n then
    if l = i + 1 then s * Z k i + c * Z k (i + 1) else if l = i then c * Z k i - s * Z k (i + 1) else Z k l
  else Z k l

/-- How the loop over `i` ends: by `break`, or with `i` below `j`. -/
inductive Chase where
  | broke (st : St)
  | done (st : St) (L : Loc)

open Classical in
/-- The loop over `i` (LinearAlgebra.cpp 664-691), with the values `j + k` to `j` of `i` left if the count is `k + 1`. -/
noncomputable def chase (n m j : ℕ) : ℕ → St → Loc → Chase
  | 0, st, L => .done st L
  | k + 1, st, L =>
    let i := j + k
    let f := L.s * st.e i
    let b := L.c * st.e i
    let r := pythag f L.g
    let e := Function.update st.e (i + 1) r
    if r = 0 then
      .broke ⟨Function.update st.d (i + 1) (st.d (i + 1) - L.p), Function.update e m 0, st.Z⟩
    else
      let s := f / r
      let c := L.g / r
      let g := st.d (i + 1) - L.p
      let r' := (st.d i - g) * s + 2 * c * b
      let p := s * r'
      chase n m j k ⟨Function.update st.d (i + 1) (g + p), e, rotate n s c i st.Z⟩ ⟨s, c, p, c * r' - b⟩

/-- What follows the loop over `i` (LinearAlgebra.cpp 693-700).  The test `r == 0.0 && i >= j` holds exactly after the
`break`, as otherwise `i` is below `j`; `continue` then goes to the test of the `do` loop. -/
noncomputable def finish (m j : ℕ) : Chase → St
  | .broke st => st
  | .done st L =>
    ⟨Function.update st.d j (st.d j - L.p), Function.update (Function.update st.e j L.g) m 0, st.Z⟩

open Classical in
/-- One sweep (LinearAlgebra.cpp 656-700).  A division by zero is undefined behaviour. -/
noncomputable def sweep (n m j : ℕ) (st : St) : Outcome String St :=
  if 2 * st.e j = 0 then .ub
  else
    let g := (st.d (j + 1) - st.d j) / (2 * st.e j)
    let den := g + sign (pythag g 1) g
    if den = 0 then .ub
    else .ok (finish m j (chase n m j (m - j) st ⟨1, 1, 0, st.d m - st.d j + st.e j / den⟩))

open Classical in
/-- The `do` loop for one `j` (LinearAlgebra.cpp 641-702), with `left` sweeps left before `ntries++ > 30`. -/
noncomputable def level (n j : ℕ) : ℕ → St → Outcome String St
  | left, st =>
    let m := findM st.d st.e (n - 1 - j) j
    if m = j then .ok st
    else match left with
      | 0 => .throw "Too many iterations in tqli"
      | left + 1 => (sweep n m j st).bind (level n j left)

/-- The loop over `j` (LinearAlgebra.cpp 637-703): `ntries++ > 30` first holds when 31 sweeps have been made. -/
noncomputable def levels (n : ℕ) : List ℕ → St → Outcome String St
  | [], st => .ok st
  | j :: js, st => (level n j 31 st).bind (levels n js)

/-- The elements of `off` moved down (LinearAlgebra.cpp 629-635). -/
noncomputable def moved (n : ℕ) (e : ℕ → ℝ) : ℕ → ℝ := fun i =>
  if i + 1 < n then e (i + 1) else if i + 1 = n then 0 else e i

/-- `tqli` (LinearAlgebra.cpp 558-704).  Without elements `off(n - 1)` does not exist (TMatrixLib.h 127-133, 267-271). -/
noncomputable def tqli (n : ℕ) (st : St) : Outcome String St :=
  if n = 0 then .throw "RangeError" else levels n (List.range n) ⟨st.d, moved n st.e, st.Z⟩

/-! ## Reduction of a symmetric matrix -/

/-- `a`, `d` and `e` of `tred2`. -/
structure Tri where
  a : ℕ → ℕ → ℝ
  d : ℕ → ℝ
  e : ℕ → ℝ

/-- `a(i, k)` divided by `scale` (LinearAlgebra.cpp 469, 477). -/
noncomputable def scaled (a : ℕ → ℕ → ℝ) (i : ℕ) : ℕ → ℝ := fun k => a i k / ∑ l ∈ Finset.range i, |a i l|

/-- `h` before it is corrected (LinearAlgebra.cpp 478). -/
noncomputable def h0 (a : ℕ → ℕ → ℝ) (i : ℕ) : ℝ := ∑ k ∈ Finset.range i, scaled a i k * scaled a i k

/-- `g` (LinearAlgebra.cpp 480-481).  The sign of zero is taken as positive. -/
noncomputable def g0 (a : ℕ → ℕ → ℝ) (i : ℕ) : ℝ :=
  -(if 0 ≤ scaled a i (i - 1) then Real.sqrt (h0 a i) else -Real.sqrt (h0 a i))

/-- `h` (LinearAlgebra.cpp 483). -/
noncomputable def hh (a : ℕ → ℕ → ℝ) (i : ℕ) : ℝ := h0 a i - scaled a i (i - 1) * g0 a i

/-- The row `i` with its last element replaced (LinearAlgebra.cpp 484). -/
noncomputable def refl (a : ℕ → ℕ → ℝ) (i : ℕ) : ℕ → ℝ := fun k =>
  if k = i - 1 then scaled a i (i - 1) - g0 a i else scaled a i k

/-- `g / h` in the loop over `j` (LinearAlgebra.cpp 490-491): the elements right of the diagonal are read below it. -/
noncomputable def prod (a : ℕ → ℕ → ℝ) (i : ℕ) : ℕ → ℝ := fun j =>
  (∑ k ∈ Finset.range (j + 1), a j k * refl a i k + ∑ k ∈ Finset.Ico (j + 1) i, a k j * refl a i k) / hh a i

/-- `e(j) - hh * f` (LinearAlgebra.cpp 485, 492, 495, 499-500). -/
noncomputable def corr (a : ℕ → ℕ → ℝ) (i : ℕ) : ℕ → ℝ := fun j =>
  prod a i j - (∑ k ∈ Finset.range i, prod a i k * refl a i k) / (hh a i + hh a i) * refl a i j

/-- The matrix after one round (LinearAlgebra.cpp 477-506): the vector in row `i`, its share in column `i`, and the lower
triangle of the rows above.  Each loop writes every element once and reads what no later round of it writes, so the loops
are given as a whole. -/
noncomputable def reduced (a : ℕ → ℕ → ℝ) (i : ℕ) : ℕ → ℕ → ℝ := fun r c =>
  if r = i ∧ c < i then refl a i c
  else if c = i ∧ r < i then refl a i r / hh a i
  else if r < i ∧ c ≤ r then a r c - (refl a i r * corr a i c + corr a i r * refl a i c)
  else a r c

open Classical in
/-- One round of the first loop (LinearAlgebra.cpp 464-515).  A division by zero is undefined behaviour. -/
noncomputable def round (i : ℕ) (t : Tri) : Outcome String Tri :=
  if 1 < i ∧ ∑ l ∈ Finset.range i, |t.a i l| ≠ 0 then
    if hh t.a i = 0 then .ub
    else .ok ⟨reduced t.a i, Function.update t.d i (hh t.a i),
      fun j => if j < i then corr t.a i j else if j = i then (∑ l ∈ Finset.range i, |t.a i l|) * g0 t.a i else t.e j⟩
  else .ok ⟨t.a, Function.update t.d i 0, Function.update t.e i (t.a i (i - 1))⟩

/-- The first loop (LinearAlgebra.cpp 464-515) for the indices from the one given to one. -/
noncomputable def rounds : ℕ → Tri → Outcome String Tri
  | 0, t => .ok t
  | i + 1, t => (round (i + 1) t).bind (rounds i)

open Classical in
/-- The product with the reflection (LinearAlgebra.cpp 522-531): the columns are independent of each other. -/
noncomputable def multiplied (a : ℕ → ℕ → ℝ) (d : ℕ → ℝ) (i : ℕ) : ℕ → ℕ → ℝ := fun r c =>
  if d i ≠ 0 ∧ r < i ∧ c < i then a r c - (∑ k ∈ Finset.range i, a i k * a k c) * a r i else a r c

/-- One round of the second loop (LinearAlgebra.cpp 520-541). -/
noncomputable def gather (i : ℕ) (t : Tri) : Tri :=
  ⟨fun r c => if r = i ∧ c = i then 1 else if (r = i ∧ c < i) ∨ (c = i ∧ r < i) then 0 else multiplied t.a t.d i r c,
    Function.update t.d i (multiplied t.a t.d i i i), t.e⟩

/-- The second loop (LinearAlgebra.cpp 520-541) for the indices below the one given. -/
noncomputable def gathers : ℕ → Tri → Tri
  | 0, t => t
  | i + 1, t => gather i (gathers i t)

/-- `tred2` (LinearAlgebra.cpp 287, 459-542).  Without elements `d(0)` does not exist (TMatrixLib.h 127-133, 267-271). -/
noncomputable def tred2 (n : ℕ) (t : Tri) : Outcome String Tri :=
  if n = 0 then .throw "RangeError"
  else (rounds (n - 1) t).bind fun t => .ok (gathers n ⟨t.a, Function.update t.d 0 0, Function.update t.e 0 0⟩)

/-- `EigenSystemSymmetricMatrix` (LinearAlgebra.cpp 706-714): the vectors and the eigenvalues.  `d` and `e` are made
there (LinearAlgebra.cpp 461-462, 709-711). -/
noncomputable def eigenSystem (n : ℕ) (a : ℕ → ℕ → ℝ) : Outcome String St :=
  (tred2 n ⟨a, fun _ => 0, fun _ => 0⟩).bind fun t => tqli n ⟨t.d, t.e, t.a⟩

end Verif.EigenSym
