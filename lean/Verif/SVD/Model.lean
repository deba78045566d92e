import Mathlib.Algebra.BigOperators.Intervals
import Mathlib.Analysis.Real.Sqrt
import Mathlib.Logic.Function.Basic
import Verif.Common.Outcome

/-!
# Singular values (Merlin++/TLASimp.h)

`SVD` first makes a matrix bidiagonal, `M B Sᵀ` with the diagonal `V` of `B` and the elements `work` above it, and then
makes `B` diagonal by rotations.  Modelled here for square matrices: `PYTHAG`, the search for the part still to be treated,
the loop which removes an element of `work` beside a vanishing one of `V`, the sweep of rotations with its shift, the loops
around them, and at the end of the file the first part and the whole.  Doubles are real numbers; `fequal(fabs(x) + F2, F2)` is then
`fabs(x) <= epsilon`, whatever `F2`.
-/

namespace Verif.SVD

/-- The machine epsilon, the tolerance of `fequal` (utils.h 16-19). -/
noncomputable def eps : ℝ := 1 / 2 ^ 52

open Classical in
/-- `PYTHAG` (TLASimp.h 393-412). -/
noncomputable def PYTHAG (a b : ℝ) : ℝ :=
  if |a| > |b| then |a| * Real.sqrt (1 + |b| / |a| * (|b| / |a|))
  else if ¬ (|b| ≤ eps) then |b| * Real.sqrt (1 + |a| / |b| * (|a| / |b|))
  else 0

/-- How the search for `L` ends. -/
inductive Found where
  /-- `ok = false`: the element of `work` is small. -/
  | split (L : ℕ)
  /-- The element of `V` before is small. -/
  | cancel (L : ℕ)
  /-- `V[-1]` is read. -/
  | outside
  deriving DecidableEq

open Classical in
/-- The search for `L` from `k` downwards (TLASimp.h 546-560). -/
noncomputable def search (V work : ℕ → ℝ) : ℕ → Found
  | 0 => if |work 0| ≤ eps then .split 0 else .outside
  | L + 1 =>
    if |work (L + 1)| ≤ eps then .split (L + 1)
    else if |V L| ≤ eps then .cancel (L + 1)
    else search V work L

/-- `V`, `M`, `f1` and `f2` of the loop which removes `work[L]` (TLASimp.h 561-564). -/
structure St where
  V : ℕ → ℝ
  M : ℕ → ℕ → ℝ
  f1 : ℝ
  f2 : ℝ

open Classical in
/-- The body of the loop (TLASimp.h 567-580).  A division by zero is undefined behaviour. -/
noncomputable def cancelStep (work : ℕ → ℝ) (rem i : ℕ) (st : St) : Outcome Empty St :=
  let f0 := st.f1 * work i
  if ¬ (|f0| ≤ eps) then
    let F1 := st.V i
    let f3 := PYTHAG f0 F1
    if f3 = 0 then .ub
    else
      let f2 := F1 * (1 / f3)
      let f1 := -f0 * (1 / f3)
      .ok ⟨Function.update st.V i f3,
        fun r c => if c = i then st.M r i * f2 - st.M r rem * f1
          else if c = rem then st.M r rem * f2 + st.M r i * f1 else st.M r c, f1, f2⟩
  else .ok st

/-- The loop (TLASimp.h 565-582) for the `left` indices from `i` on. -/
noncomputable def cancel (work : ℕ → ℝ) (rem : ℕ) : (left i : ℕ) → St → Outcome Empty St
  | 0, _, st => .ok st
  | left + 1, i, st => (cancelStep work rem i st).bind (cancel work rem left (i + 1))

/-- The loop from `L` to `k` with the values it starts from (TLASimp.h 561-583); `remember` is `L - 1`. -/
noncomputable def cancelAll (work : ℕ → ℝ) (L k : ℕ) (V : ℕ → ℝ) (M : ℕ → ℕ → ℝ) : Outcome Empty St :=
  cancel work (L - 1) (k + 1 - L) L ⟨V, M, 1, 0⟩

/-- `SIGN` (TLASimp.h 415-418). -/
noncomputable def SIGN (a b : ℝ) : ℝ := if b ≥ 0 then |a| else -|a|

open Classical in
/-- The shift with which a sweep starts (TLASimp.h 584, 595-600).  A division by zero is undefined behaviour. -/
noncomputable def shift (V work : ℕ → ℝ) (L k : ℕ) : Outcome Empty ℝ :=
  let q1 := V k
  let q2 := V L
  let q3 := V (k - 1)
  let F1 := work (k - 1)
  let f3 := work k
  if 2 * f3 * q3 = 0 then .ub
  else
    let f0 := ((q3 - q1) * (q3 + q1) + (F1 - f3) * (F1 + f3)) / (2 * f3 * q3)
    let F1' := PYTHAG f0 1
    if f0 + SIGN F1' f0 = 0 then .ub
    else if q2 = 0 then .ub
    else .ok (((q2 - q1) * (q2 + q1) + f3 * (q3 / (f0 + SIGN F1' f0) - f3)) / q2)

/-- The vectors, matrices and numbers of a sweep (TLASimp.h 601-633). -/
structure Sw where
  V : ℕ → ℝ
  work : ℕ → ℝ
  M : ℕ → ℕ → ℝ
  S : ℕ → ℕ → ℝ
  f0 : ℝ
  f1 : ℝ
  f2 : ℝ
  q2 : ℝ

/-- The assignment of two columns, `c X + s Z` and `c Z - s X` (TLASimp.h 616-619, 630-633). -/
def rotated (M : ℕ → ℕ → ℝ) (j : ℕ) (c s : ℝ) : ℕ → ℕ → ℝ := fun r i =>
  if i = j then c * M r j + s * M r (j + 1)
  else if i = j + 1 then c * M r (j + 1) - s * M r j
  else M r i

open Classical in
/-- One step of the sweep (TLASimp.h 604-633).  A division by zero is undefined behaviour. -/
noncomputable def sweepStep (j : ℕ) (st : Sw) : Outcome Empty Sw :=
  let f3 := st.f1 * st.work (j + 1)
  let F1 := st.f2 * st.work (j + 1)
  let q3 := st.V (j + 1)
  let q1 := PYTHAG st.f0 f3
  if q1 = 0 then .ub
  else
    let c := st.f0 / q1
    let s := f3 / q1
    let f0 := st.q2 * c + F1 * s
    let G1 := F1 * c - st.q2 * s
    let g3 := q3 * s
    let p3 := q3 * c
    let p1 := PYTHAG f0 g3
    let c' := if ¬ (|p1| ≤ eps) then f0 * (1 / p1) else c
    let s' := if ¬ (|p1| ≤ eps) then g3 * (1 / p1) else s
    .ok ⟨Function.update st.V j p1, Function.update st.work j q1, rotated st.M j c' s', rotated st.S j c s,
      c' * G1 + s' * p3, s', c', c' * p3 - s' * G1⟩

/-- The loop over `j` (TLASimp.h 602-634), with `left` steps to go. -/
noncomputable def sweepLoop : (left j : ℕ) → Sw → Outcome Empty Sw
  | 0, _, st => .ok st
  | left + 1, j, st => (sweepStep j st).bind (sweepLoop left (j + 1))

/-- The assignments after the loop (TLASimp.h 635-637). -/
def sweepEnd (L k : ℕ) (st : Sw) : Sw :=
  ⟨Function.update st.V k st.q2, Function.update (Function.update st.work L 0) k st.f0, st.M, st.S,
    st.f0, st.f1, st.f2, st.q2⟩

/-- One sweep over the block from `L` to `k`, with `L < k` (TLASimp.h 584, 595-637). -/
noncomputable def sweep (V work : ℕ → ℝ) (M S : ℕ → ℕ → ℝ) (L k : ℕ) : Outcome Empty Sw :=
  (shift V work L k).bind fun f0 =>
    (sweepLoop (k - L) L ⟨V, work, M, S, f0, 1, 1, V L⟩).bind fun st => .ok (sweepEnd L k st)

/-- What `SVD` throws. -/
inductive Err where
  /-- `RangeError` for the index `-1`. -/
  | range
  /-- `ConvergenceFailure`. -/
  | convergence
  deriving DecidableEq

/-- A computation without exceptions as part of one with. -/
def lift {α : Type} : Outcome Empty α → Outcome Err α
  | .ok a => .ok a
  | .throw e => e.elim
  | .ub => .ub

/-- The vectors and matrices of the second part of `SVD`. -/
structure Parts where
  V : ℕ → ℝ
  work : ℕ → ℝ
  M : ℕ → ℕ → ℝ
  S : ℕ → ℕ → ℝ

open Classical in
/-- The end of the treatment of `k` (TLASimp.h 584-593): a negative value is made positive. -/
noncomputable def positive (k : ℕ) (st : Parts) : Parts :=
  if st.V k < 0 then
    ⟨Function.update st.V k (-st.V k), st.work, st.M, fun r c => if c = k then -st.S r c else st.S r c⟩
  else st

/-- The rest of a try with `L` (TLASimp.h 584-637); the second component is true for `break`. -/
noncomputable def rest (L k : ℕ) (st : Parts) : Outcome Err (Parts × Bool) :=
  if L = k then .ok (positive k st, true)
  else (lift (sweep st.V st.work st.M st.S L k)).bind fun sw => .ok (⟨sw.V, sw.work, sw.M, sw.S⟩, false)

/-- One try (TLASimp.h 546-637). -/
noncomputable def once (k : ℕ) (st : Parts) : Outcome Err (Parts × Bool) :=
  match search st.V st.work k with
  | .outside => .throw .range
  | .split L => rest L k st
  | .cancel L => (lift (cancelAll st.work L k st.V st.M)).bind fun c => rest L k ⟨c.V, st.work, c.M, st.S⟩

/-- The tries for `k` (TLASimp.h 540-545). -/
noncomputable def tries (k : ℕ) : ℕ → Parts → Outcome Err Parts
  | 0, _ => .throw .convergence
  | ntry + 1, st => (once k st).bind fun r => if r.2 then .ok r.1 else tries k ntry r.1

/-- The second part of `SVD`, from `k` downwards (TLASimp.h 538-639). -/
noncomputable def second : (k : ℕ) → Parts → Outcome Err Parts
  | 0, st => tries 0 30 st
  | k + 1, st => (tries (k + 1) 30 st).bind (second k)

/-! ### The first part: reflections -/

open Finset

/-- `F0`, the sum of the absolute values from `m` on (TLASimp.h 437, 466). -/
noncomputable def hsum (m n : ℕ) (x : ℕ → ℝ) : ℝ := ∑ k ∈ Ico m n, |x k|

/-- `f1`, the sum of the squares of the scaled elements (TLASimp.h 440-441, 469-470). -/
noncomputable def hf1 (m n : ℕ) (x : ℕ → ℝ) : ℝ := ∑ k ∈ Ico m n, (x k / hsum m n x) * (x k / hsum m n x)

/-- `F1` (TLASimp.h 443, 472). -/
noncomputable def hF1 (m n : ℕ) (x : ℕ → ℝ) : ℝ := -SIGN (Real.sqrt (hf1 m n x)) (x m / hsum m n x)

/-- `f3` (TLASimp.h 444, 473). -/
noncomputable def hf3 (m n : ℕ) (x : ℕ → ℝ) : ℝ := x m / hsum m n x * hF1 m n x - hf1 m n x

/-- The scaled elements with `F1` taken from the first (TLASimp.h 440-445, 469-474). -/
noncomputable def hu (m n : ℕ) (x : ℕ → ℝ) (k : ℕ) : ℝ :=
  if k = m then x m / hsum m n x - hF1 m n x else x k / hsum m n x

open Classical in
/-- `F0 * F1` after the column or row has been treated (TLASimp.h 433-434, 459-460). -/
noncomputable def hval (m n : ℕ) (x : ℕ → ℝ) : ℝ := if |hsum m n x| ≤ eps then 0 else hsum m n x * hF1 m n x

open Classical in
/-- The treatment of column `i` (TLASimp.h 435-458), for a matrix of `n` rows and columns, of which only the elements below
`n` have a meaning.  The divisors are not zero: `first_divisors`. -/
noncomputable def left (n : ℕ) (A : ℕ → ℕ → ℝ) (i : ℕ) : ℕ → ℕ → ℝ :=
  let x := fun r => A r i
  if |hsum i n x| ≤ eps then A
  else fun r c =>
    if i ≤ r then
      if c = i then hu i n x r * hsum i n x
      else if i < c then A r c + (∑ k ∈ Ico i n, hu i n x k * A k c) / hf3 i n x * hu i n x r
      else A r c
    else A r c

open Classical in
/-- The treatment of row `i` (TLASimp.h 461-487); nothing is done for the last row, whose sum is empty.  What is written to
`work` beyond `i` is replaced later. -/
noncomputable def right (n : ℕ) (A : ℕ → ℕ → ℝ) (i : ℕ) : ℕ → ℕ → ℝ :=
  let x := A i
  if |hsum (i + 1) n x| ≤ eps then A
  else fun r c =>
    if i < c then
      if r = i then hu (i + 1) n x c * hsum (i + 1) n x
      else if i < r then A r c + (∑ k ∈ Ico (i + 1) n, A r k * hu (i + 1) n x k) * (hu (i + 1) n x c / hf3 (i + 1) n x)
      else A r c
    else A r c

/-- `M` after the first `i` columns and rows (TLASimp.h 430-489). -/
noncomputable def mats (n : ℕ) (A : ℕ → ℕ → ℝ) : ℕ → ℕ → ℕ → ℝ
  | 0 => A
  | i + 1 => right n (left n (mats n A i) i) i

/-- `V` after the first loop (TLASimp.h 459). -/
noncomputable def diag (n : ℕ) (A : ℕ → ℕ → ℝ) (i : ℕ) : ℝ := hval i n fun r => mats n A i r i

/-- `work` after the first loop (TLASimp.h 433). -/
noncomputable def above (n : ℕ) (A : ℕ → ℕ → ℝ) : ℕ → ℝ
  | 0 => 0
  | i + 1 => hval (i + 1) n (left n (mats n A i) i i)

open Classical in
/-- One step of the loop which makes `S` (TLASimp.h 490-509); `F1` is `work[i + 1]`. -/
noncomputable def stepS (n : ℕ) (M : ℕ → ℕ → ℝ) (work : ℕ → ℝ) (i : ℕ) (S : ℕ → ℕ → ℝ) : ℕ → ℕ → ℝ := fun r c =>
  if r = i ∧ c = i then 1
  else if r = i ∧ i < c then 0
  else if i < r ∧ c = i then 0
  else if i < r ∧ i < c then
    if |work (i + 1)| ≤ eps then S r c
    else S r c + (∑ k ∈ Ico (i + 1) n, M i k * S k c) * (M i r / M i (i + 1) / work (i + 1))
  else S r c

/-- `S` after `d` steps (TLASimp.h 490-509). -/
noncomputable def accS (n : ℕ) (M : ℕ → ℕ → ℝ) (work : ℕ → ℝ) (S : ℕ → ℕ → ℝ) : ℕ → ℕ → ℕ → ℝ
  | 0 => S
  | d + 1 => stepS n M work (n - (d + 1)) (accS n M work S d)

open Classical in
/-- One step of the loop which makes the left vectors of `M` (TLASimp.h 510-537). -/
noncomputable def stepU (n : ℕ) (V : ℕ → ℝ) (i : ℕ) (M : ℕ → ℕ → ℝ) : ℕ → ℕ → ℝ :=
  let Z := fun r c => if r = i ∧ i < c then 0 else M r c
  fun r c =>
    if i ≤ r then
      if i < c then
        if |V i| ≤ eps then Z r c
        else Z r c + (∑ k ∈ Ico (i + 1) n, Z k i * Z k c) / Z i i * (1 / V i) * Z r i
      else if c = i then
        (if |V i| ≤ eps then 0 else Z r i * (1 / V i)) + if r = i then 1 else 0
      else Z r c
    else Z r c

/-- `M` after `d` steps (TLASimp.h 510-537). -/
noncomputable def accU (n : ℕ) (V : ℕ → ℝ) (M : ℕ → ℕ → ℝ) : ℕ → ℕ → ℕ → ℝ
  | 0 => M
  | d + 1 => stepU n V (n - (d + 1)) (accU n V M d)

/-- The first part of `SVD` (TLASimp.h 420-537), for a matrix of `n` rows and columns. -/
noncomputable def first (n : ℕ) (A S : ℕ → ℕ → ℝ) : Parts :=
  ⟨diag n A, above n A, accU n (diag n A) (mats n A n) n, accS n (mats n A n) (above n A) S n⟩

/-- `SVD` of a matrix of `n + 1` rows and columns (TLASimp.h 419-640). -/
noncomputable def svd (n : ℕ) (A S : ℕ → ℕ → ℝ) : Outcome Err Parts := second n (first (n + 1) A S)

end Verif.SVD
