import Mathlib.Analysis.Real.Sqrt
import Verif.Common.Outcome

/-!
# Means and covariances (Merlin++/MVCMatrix.h)

With `MVCMTRX_REDUCE_MEMORY`, which the file defines.  Elements are real numbers.  A subscript which is not below `N` reads or
writes outside the arrays, or another element, and is undefined; subscripts are not negative.
`zero`, which fills both arrays in one run and so relies on their being adjacent, and `printFormatted` are not modelled.
-/

namespace Verif.MVC

/-- `ComputeIndex(i, j)` (MVCMatrix.h 26-33). -/
def index (i j : ℕ) : ℕ := if i < j then j * (j + 1) / 2 + i else i * (i + 1) / 2 + j

/-- `ComputeIndex(i)` (MVCMatrix.h 35-38). -/
def index1 (i : ℕ) : ℕ := i * (i + 3) / 2

/-- The members of `MVCMatrix` (MVCMatrix.h 124-139). -/
structure Mtx where
  m1 : ℕ → ℝ
  m2 : ℕ → ℝ

/-- `mean` and `operator[]` (MVCMatrix.h 146-150, 203-213). -/
noncomputable def mean (N : ℕ) (M : Mtx) (n : ℕ) : Outcome Empty ℝ := if n < N then .ok (M.m1 n) else .ub

/-- `variance` (MVCMatrix.h 162-170). -/
noncomputable def variance (N : ℕ) (M : Mtx) (n : ℕ) : Outcome Empty ℝ := if n < N then .ok (M.m2 (index1 n)) else .ub

open Classical in
/-- `std` (MVCMatrix.h 152-160).  The root of a negative number is no number and is taken as undefined. -/
noncomputable def std (N : ℕ) (M : Mtx) (n : ℕ) : Outcome Empty ℝ :=
  if n < N ∧ 0 ≤ M.m2 (index1 n) then .ok (Real.sqrt (M.m2 (index1 n))) else .ub

/-- `operator()`, read (MVCMatrix.h 193-201). -/
noncomputable def get (N : ℕ) (M : Mtx) (i j : ℕ) : Outcome Empty ℝ :=
  if i < N ∧ j < N then .ok (M.m2 (index i j)) else .ub

/-- `operator()`, written to (MVCMatrix.h 183-191). -/
noncomputable def set (N : ℕ) (M : Mtx) (i j : ℕ) (v : ℝ) : Outcome Empty Mtx :=
  if i < N ∧ j < N then .ok ⟨M.m1, fun p => if p = index i j then v else M.m2 p⟩ else .ub

open Classical in
/-- `r` (MVCMatrix.h 172-181).  A division by zero gives no number and is taken as undefined. -/
noncomputable def r (N : ℕ) (M : Mtx) (n m : ℕ) : Outcome Empty ℝ :=
  if n < N ∧ m < N then
    if n = m then .ok 1
    else if M.m2 (index1 n) * M.m2 (index1 m) ≤ 0 then .ub
    else .ok (M.m2 (index n m) / Real.sqrt (M.m2 (index1 n) * M.m2 (index1 m)))
  else .ub

/-- `operator==` (MVCMatrix.h 273-289). -/
noncomputable def eq (N : ℕ) (M M' : Mtx) : Prop :=
  (∀ i ∈ List.range N, M.m1 i = M'.m1 i) ∧ ∀ i ∈ List.range (N * (1 + N) / 2), M.m2 i = M'.m2 i

end Verif.MVC
