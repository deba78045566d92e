import Verif.LU.Solve
import Mathlib.Algebra.Field.Rat
import Mathlib.Algebra.Order.Ring.Rat
import Mathlib.Algebra.Polynomial.Roots
import Mathlib.Algebra.Polynomial.Eval.Degree
import Mathlib.Algebra.Order.BigOperators.Ring.Finset
import Mathlib.Tactic.NormNum
import Mathlib.LinearAlgebra.Matrix.ToLinearEquiv
import Mathlib.Tactic.IntervalCases

/-!
# Theorems on the LU and singular value decompositions and on the smoothing filter
-/

set_option linter.unusedSectionVars false

namespace Verif.LU
open Finset

variable {K : Type} [Field K] [LinearOrder K] [IsStrictOrderedRing K]

/-! ## C153: the LU decomposition -/

/-- A row of zeros is in no regular matrix. -/
theorem regular_row {n : Nat} {a : Nat → Nat → K} (h : Spec.Regular n a) : ∀ i, i < n → rowBig n a i ≠ 0 := by
  intro i hi h0
  -- the rows of a square matrix without kernel are independent
  have hz : (Spec.square n a).det = 0 :=
    Matrix.det_eq_zero_of_row_eq_zero ⟨i, hi⟩ fun c => rowBig_zero n a i h0 c c.2
  obtain ⟨v, hv0, hv⟩ := Matrix.exists_mulVec_eq_zero_iff.2 hz
  apply hv0
  funext c
  have := h (fun k => if hk : k < n then v ⟨k, hk⟩ else 0) ?_ c c.2
  · simpa using this
  · intro r hr
    have h1 := congrFun hv ⟨r, hr⟩
    rw [Finset.sum_range]
    simpa [Matrix.mulVec, dotProduct, Spec.square] using h1

/-- The factorisation of a regular matrix. -/
theorem lufactor_spec (n : Nat) (eps : K) (a : Nat → Nat → K) (pivot : List Nat) (hr : Spec.Regular n a)
    (hp : n ≤ pivot.length) : ∃ ps s, lufactor n eps a pivot = .ok s ∧ ps.length = n ∧ Valid n 0 ps ∧
      s.pivot = ps ++ pivot.drop n ∧ s.sign = signs 0 ps ∧ Inv n (perm 0 ps a) s.m n := by
  have hb : ∀ i, i < n → 0 < rowBig n a i := fun i hi => lt_of_le_of_ne (rowBig_nonneg n a i) (regular_row hr i hi).symm
  obtain ⟨ps, s, h1, h2, h3, h4, h5, h6⟩ := columns_spec n eps n 0 a ⟨a, fun i => 1 / rowBig n a i, 1, pivot⟩ (by omega)
    ⟨fun i _ c hc => absurd hc (by omega), fun i _ c _ _ => rfl, fun c hc => absurd hc (by omega)⟩
    (fun i => div_nonneg zero_le_one (rowBig_nonneg n a i)) (fun i hi => one_div_pos.2 (hb i hi)) hp hr
  refine ⟨ps, s, ?_, h2, h3, by simpa using h4, by simpa using h5, h6⟩
  rw [lufactor, if_neg, h1]
  simp only [List.any_eq_true, List.mem_range, decide_eq_true_eq, not_exists, not_and]
  exact fun i hi => (hb i hi).ne'

/-- C153: for a matrix which maps nothing but zero to zero, and a vector of pivots which is long enough, the decomposition
succeeds and the substitutions solve the equations for every right side. -/
theorem lu_solves (n : Nat) (eps : K) (a : Nat → Nat → K) (pivot : List Nat) (hr : Spec.Regular n a)
    (hp : n ≤ pivot.length) : ∃ s, lufactor n eps a pivot = .ok s ∧
      ∀ b, ∃ x, lusolve n s.m s.pivot b = .ok x ∧ Spec.Solves n a x b := by
  obtain ⟨ps, s, h1, h2, h3, h4, _, h6⟩ := lufactor_spec n eps a pivot hr hp
  refine ⟨s, h1, fun b => ?_⟩
  rw [h4]
  exact solve_spec n a s.m ps _ b h2 h3 h6

/-- C153: the product of the diagonal with the sign of the exchanges is the determinant. -/
theorem lu_det (n : Nat) (eps : K) (a : Nat → Nat → K) (pivot : List Nat) (hr : Spec.Regular n a) (hp : n ≤ pivot.length) :
    ∃ s, lufactor n eps a pivot = .ok s ∧ det n s = (Spec.square n a).det := by
  obtain ⟨ps, s, h1, h2, h3, _, h5, h6⟩ := lufactor_spec n eps a pivot hr hp
  refine ⟨s, h1, ?_⟩
  have hd := det_perm n ps 0 a (by omega) h3
  rw [square_mul n _ s.m h6, Matrix.det_mul, det_lo, det_up, one_mul] at hd
  rw [det_fold, h5, hd, ← mul_assoc, signs_mul, one_mul]

/-- C153: the exception for singular matrices is thrown exactly for matrices with a row of zeros. -/
theorem lu_singular (n : Nat) (eps : K) (a : Nat → Nat → K) (pivot : List Nat) :
    lufactor n eps a pivot = .throw .singular ↔ ∃ i, i < n ∧ ∀ c, c < n → a i c = 0 := by
  have hcol : ∀ (s : Fac K) j, column n eps s j ≠ .throw .singular := by
    intro s j h
    rw [column] at h
    simp only at h
    split at h
    · cases h
    · split at h <;> cases h
  have hcols : ∀ b j (s : Fac K), columns n eps b j s ≠ .throw .singular := by
    intro b
    induction b with
    | zero => intro j s h; rw [columns] at h; cases h
    | succ b ih =>
      intro j s h
      rw [columns] at h
      split at h
      · exact ih _ _ h
      · rename_i e he
        cases h
        exact hcol _ _ he
      · cases h
  constructor
  · intro h
    rw [lufactor] at h
    split at h
    · rename_i hany
      simp only [List.any_eq_true, List.mem_range, decide_eq_true_eq] at hany
      obtain ⟨i, hi, h0⟩ := hany
      exact ⟨i, hi, fun c hc => rowBig_zero n a i h0 c hc⟩
    · exact absurd h (hcols _ _ _)
  · rintro ⟨i, hi, h0⟩
    rw [lufactor, if_pos]
    simp only [List.any_eq_true, List.mem_range, decide_eq_true_eq]
    exact ⟨i, hi, rowBig_zero' n a i h0⟩

/-- A matrix as it is written. -/
def rows (l : List (List ℚ)) : Nat → Nat → ℚ := fun i j => (l.getD i []).getD j 0

/-- The first values of a result. -/
def firsts {ε : Type} (n : Nat) : Outcome ε (Nat → ℚ) → Option (List ℚ)
  | .ok f => some ((List.range n).map f)
  | _ => none

/-- The determinant of a result. -/
def detOf (n : Nat) : Outcome Err (Fac ℚ) → Option ℚ
  | .ok s => some (det n s)
  | _ => none

/-- The solution with a matrix. -/
def solved (n : Nat) (eps : ℚ) (a : Nat → Nat → ℚ) (pivot : List Nat) (b : Nat → ℚ) : Outcome Err (Nat → ℚ) :=
  match lufactor n eps a pivot with
  | .ok s => lusolve n s.m s.pivot b
  | .throw e => .throw e
  | .ub => .ub

/-- An example with exchanges of rows: a regular matrix of size 3, its determinant and a solution. -/
def example3 : Nat → Nat → ℚ := rows [[0, 2, 1], [1, 1, 0], [3, 0, 1]]

theorem example3_regular : Spec.Regular 3 example3 := by
  intro x hx i hi
  have h0 := hx 0 (by omega)
  have h1 := hx 1 (by omega)
  have h2 := hx 2 (by omega)
  simp only [Finset.sum_range_succ, Finset.sum_range_zero, example3, rows, List.getD_cons_zero, List.getD_cons_succ] at h0 h1 h2
  interval_cases i <;> linarith

example : detOf 3 (lufactor 3 1 example3 [7, 7, 7]) = some (-5) := by decide +kernel
example : firsts 3 (solved 3 1 example3 [7, 7, 7] (fun i => if i = 1 then 5 else 0)) = some [-2 * -1, 3, -6] := by
  decide +kernel
example : ∃ s, lufactor 3 1 example3 [7, 7, 7] = .ok s ∧
    ∀ b, ∃ x, lusolve 3 s.m s.pivot b = .ok x ∧ Spec.Solves 3 example3 x b :=
  lu_solves 3 1 example3 [7, 7, 7] example3_regular (by decide)
example : lufactor 2 (1 : ℚ) (rows [[1, 2], [0, 0]]) [] = .throw .singular :=
  (lu_singular 2 1 _ []).2 ⟨1, by omega, by intro c hc; interval_cases c <;> rfl⟩

/-- C153 does not hold as the header promises ("throws SingularMatrix"): a singular matrix without a row of zeros is
decomposed with a pivot of epsilon, and its determinant is not zero. -/
theorem lu_singular_violated : (Spec.square 2 (rows [[1, 1], [1, 1]])).det = 0 ∧
    detOf 2 (lufactor 2 (1 / 1000) (rows [[1, 1], [1, 1]]) [0, 0]) = some (-1 / 1000) := by
  refine ⟨?_, by decide +kernel⟩
  rw [Matrix.det_fin_two]
  simp [Spec.square, rows]

/-! ## C154: LUMatrix and the smoothing filter -/

theorem column_length (n : Nat) (eps : K) (s s' : Fac K) (j : Nat) (h : column n eps s j = .ok s') :
    j < s.pivot.length ∧ s'.pivot.length = s.pivot.length := by
  rw [column] at h
  simp only at h
  split at h
  · cases h
  · split at h
    · rename_i hj
      cases h
      exact ⟨hj, List.length_set⟩
    · cases h

theorem columns_length (n : Nat) (eps : K) : ∀ (b j : Nat) (s s' : Fac K), columns n eps b j s = .ok s' →
    b = 0 ∨ j + b ≤ s.pivot.length
  | 0, _, _, _, _ => Or.inl rfl
  | b + 1, j, s, s', h => by
    rw [columns] at h
    split at h
    · rename_i s1 h1
      obtain ⟨g1, g2⟩ := column_length n eps s s1 j h1
      right
      rcases columns_length n eps b (j + 1) s1 s' h with h0 | h0 <;> omega
    · cases h
    · cases h

/-- C154: the decomposition works only with as many pivots as there are rows; the code never makes the vector longer. -/
theorem lu_needs_pivots (n : Nat) (eps : K) (a : Nat → Nat → K) (pivot : List Nat) (s : Fac K)
    (h : lufactor n eps a pivot = .ok s) : n ≤ pivot.length := by
  rw [lufactor] at h
  split at h
  · cases h
  · have := columns_length n eps n 0 _ s h
    simp only at this
    omega

/-- C154 does not hold for `LUMatrix`, and so for `Det` and `InvertMatrix`: the object is built for no matrix but the
empty one, as its vector of pivots is empty. -/
theorem luMatrix_violated (n : Nat) (hn : 0 < n) (eps : K) (a : Nat → Nat → K) (s : Fac K) : luMatrix n eps a ≠ .ok s := by
  intro h
  have := lu_needs_pivots n eps a [] s h
  simp at this
  omega

/-- C154 does not hold for the smoothing filter: it is computed for no parameters at all. -/
theorem savgol_violated (eps : K) (nl nr ld m : Nat) (c : List K) : savgol eps nl nr ld m ≠ .ok c := by
  intro h
  rw [savgol, savgolWith] at h
  split at h
  · rename_i s hs
    have := lu_needs_pivots _ _ _ _ _ hs
    simp at this
  · cases h
  · cases h

theorem powi_eq (i : Int) (j : Nat) : powi i j = i ^ j := by
  rw [powi]
  induction j with
  | zero => simp
  | succ j ih =>
    rw [List.range_succ, List.foldl_append, ih]
    simp only [List.foldl_cons, List.foldl_nil]
    rw [pow_succ]

theorem foldl_add {α : Type} (f : α → K) : ∀ (l : List α) (s : K), l.foldl (fun s j => s + f j) s = s + (l.map f).sum
  | [], s => by simp
  | a :: l, s => by
    rw [List.foldl_cons, foldl_add f l, List.map_cons, List.sum_cons]
    ring

/-- An offset. -/
def off (nl t : Nat) : K := (t : K) - nl

theorem moments_eq (nl nr i j : Nat) :
    (moments nl nr i j : K) = ∑ t ∈ range (nl + nr + 1), off nl t ^ i * off nl t ^ j := by
  rw [moments, foldl_add (fun k : Int => ((powi k i * powi k j : Int) : K)), zero_add, offsets, List.map_map]
  rw [show range (nl + nr + 1) = (List.range (nl + nr + 1)).toFinset by ext; simp, List.sum_toFinset _ List.nodup_range]
  congr 1
  apply List.map_congr_left
  intro t _
  simp [powi_eq, off]

theorem coef_eq (m : Nat) (b : Nat → K) (k : Int) : coef m b k = ∑ i ∈ range (m + 1), b i * (k : K) ^ i := by
  have h : ∀ m, (List.range' 1 m).foldl (fun s mm => (s.1 + b mm * (s.2 * k), s.2 * (k : K))) (b 0, 1) =
      (∑ i ∈ range (m + 1), b i * (k : K) ^ i, (k : K) ^ m) := by
    intro m
    induction m with
    | zero => simp
    | succ m ih =>
      rw [List.range'_1_concat, List.foldl_append, ih]
      simp only [List.foldl_cons, List.foldl_nil]
      rw [sum_range_succ (fun i => b i * (k : K) ^ i) (m + 1), pow_succ, Nat.add_comm 1 m]
  rw [coef, h]

/-- The matrix of the filter is regular if there are more points than the order. -/
theorem moments_regular (nl nr m : Nat) (hm : m ≤ nl + nr) : Spec.Regular (m + 1) (moments nl nr : Nat → Nat → K) := by
  intro x hx
  let p : Polynomial K := ∑ j ∈ range (m + 1), Polynomial.monomial j (x j)
  have heval : ∀ y : K, p.eval y = ∑ j ∈ range (m + 1), x j * y ^ j := by
    intro y
    simp [p, Polynomial.eval_finsetSum]
  have hq : ∑ t ∈ range (nl + nr + 1), p.eval (off nl t) * p.eval (off nl t) = 0 := by
    have h1 : ∑ i ∈ range (m + 1), x i * ∑ c ∈ range (m + 1), moments nl nr i c * x c = 0 := by
      apply sum_eq_zero
      intro i hi
      rw [mem_range] at hi
      rw [hx i hi, mul_zero]
    rw [← h1]
    have h2 : ∀ i, ∑ c ∈ range (m + 1), (moments nl nr i c : K) * x c =
        ∑ t ∈ range (nl + nr + 1), off nl t ^ i * p.eval (off nl t) := by
      intro i
      simp only [moments_eq, Finset.sum_mul, heval, Finset.mul_sum]
      rw [Finset.sum_comm]
      exact sum_congr rfl fun t _ => sum_congr rfl fun c _ => by ring
    simp only [h2, Finset.mul_sum]
    rw [Finset.sum_comm]
    apply sum_congr rfl
    intro t _
    conv_lhs => rw [heval (off nl t), Finset.sum_mul]
    refine sum_congr rfl fun i _ => ?_
    rw [heval]
    ring
  have hz : ∀ t ∈ range (nl + nr + 1), p.eval (off nl t) = 0 := by
    intro t ht
    have := (Finset.sum_eq_zero_iff_of_nonneg fun t _ => mul_self_nonneg (p.eval (off nl t))).1 hq t ht
    exact mul_self_eq_zero.1 this
  have hdeg : p.natDegree ≤ m := by
    refine Polynomial.natDegree_sum_le_of_forall_le _ _ fun j hj => ?_
    rw [mem_range] at hj
    exact (Polynomial.natDegree_monomial_le _).trans (by omega)
  have hp : p = 0 := by
    refine Polynomial.eq_zero_of_natDegree_lt_card_of_eval_eq_zero' p ((range (nl + nr + 1)).image (off nl)) ?_ ?_
    · intro y hy
      rw [mem_image] at hy
      obtain ⟨t, ht, rfl⟩ := hy
      exact hz t ht
    · rw [Finset.card_image_of_injective]
      · rw [card_range]; omega
      · intro s t hst
        simp only [off, sub_left_inj] at hst
        exact_mod_cast hst
  intro i hi
  have hc := congrArg (fun q => Polynomial.coeff q i) hp
  simp only [p, Polynomial.finsetSum_coeff, Polynomial.coeff_monomial, Polynomial.coeff_zero, Finset.sum_ite_eq'] at hc
  rw [if_pos (by rw [mem_range]; omega)] at hc
  exact hc

/-- C154: with a vector of pivots which is long enough, and more points than the order, the filter applied to the values of
a polynomial of that order gives exactly the coefficient asked for (so smoothing leaves such polynomials alone). -/
theorem savgol_exact_partial (indx : List Nat) (eps : K) (nl nr ld m : Nat) (hi : m + 1 ≤ indx.length) (hl : ld ≤ m)
    (hm : m ≤ nl + nr) : ∃ c, savgolWith indx eps nl nr ld m = .ok c ∧ c.length = nl + nr + 1 ∧
      ∀ p : Polynomial K, p.natDegree ≤ m →
        ∑ t ∈ range (nl + nr + 1), c.getD t 0 * p.eval ((t : K) - nl) = p.coeff ld := by
  obtain ⟨s, h1, h2⟩ := lu_solves (m + 1) eps (moments nl nr) indx (moments_regular nl nr m hm) hi
  obtain ⟨x, h3, h4⟩ := h2 fun j => if j = ld then 1 else 0
  refine ⟨(offsets nl nr).map (coef m x), ?_, by simp [offsets], ?_⟩
  · rw [savgolWith, h1]
    simp only
    rw [if_pos hl, h3]
  · intro p hp
    have hc : ∀ t ∈ range (nl + nr + 1), ((offsets nl nr).map (coef m x)).getD t 0 * p.eval ((t : K) - nl) =
        ∑ j ∈ range (m + 1), ∑ i ∈ range (m + 1), p.coeff j * (off nl t ^ j * off nl t ^ i * x i) := by
      intro t ht
      rw [mem_range] at ht
      have hget : ((offsets nl nr).map (coef m x)).getD t 0 = coef m x ((t : Int) - nl) := by
        rw [List.getD_eq_getElem?_getD]
        simp [offsets, ht]
      rw [hget, coef_eq, Polynomial.eval_eq_sum_range' (by omega : p.natDegree < m + 1), Finset.sum_mul_sum, Finset.sum_comm]
      refine sum_congr rfl fun j _ => sum_congr rfl fun i _ => ?_
      simp only [off, Int.cast_sub, Int.cast_natCast]
      ring
    rw [sum_congr rfl hc, Finset.sum_comm]
    have h5 : ∀ j ∈ range (m + 1), ∑ t ∈ range (nl + nr + 1), ∑ i ∈ range (m + 1),
        p.coeff j * (off nl t ^ j * off nl t ^ i * x i) = p.coeff j * if j = ld then 1 else 0 := by
      intro j hj
      rw [mem_range] at hj
      have h6 := h4 j hj
      simp only at h6
      rw [← h6, Finset.sum_comm, Finset.mul_sum]
      refine sum_congr rfl fun i _ => ?_
      rw [moments_eq, Finset.sum_mul, Finset.mul_sum]
    rw [sum_congr rfl h5]
    simp only [mul_ite, mul_one, mul_zero, Finset.sum_ite_eq']
    rw [if_pos (by rw [mem_range]; omega)]

/-- The values of a result. -/
def listOf : Outcome Err (List ℚ) → Option (List ℚ)
  | .ok l => some l
  | _ => none

/-- The known filter of five points and order two. -/
example : listOf (savgolWith [0, 0, 0] 1 2 2 0 2) = some [-3 / 35, 12 / 35, 17 / 35, 12 / 35, -3 / 35] := by decide +kernel
example : ∃ c, savgolWith [0, 0, 0] (1 : ℚ) 2 2 0 2 = .ok c ∧ c.length = 2 + 2 + 1 ∧ ∀ p : Polynomial ℚ, p.natDegree ≤ 2 →
    ∑ t ∈ range (2 + 2 + 1), c.getD t 0 * p.eval ((t : ℚ) - (2 : Nat)) = p.coeff 0 :=
  savgol_exact_partial [0, 0, 0] 1 2 2 0 2 (by decide) (by decide) (by decide)
example : savgol (1 : ℚ) 2 2 0 2 ≠ .ok [-3 / 35, 12 / 35, 17 / 35, 12 / 35, -3 / 35] := savgol_violated _ _ _ _ _ _

/-! ## C155: singular values -/

section SVD

variable {m n : Nat}

theorem svd_apply (u : Matrix (Fin m) (Fin n) K) (w : Fin n → K) (v : Matrix (Fin n) (Fin n) K) (b : Fin m → K)
    (hv : v.transpose * v = 1) :
    (u * Matrix.diagonal w * v.transpose).mulVec (svdSolve u w v b) =
      u.mulVec fun i => if w i = 0 then 0 else u.transpose.mulVec b i := by
  rw [svdSolve, Matrix.mulVec_mulVec, Matrix.mul_assoc, hv, Matrix.mul_one, ← Matrix.mulVec_mulVec]
  congr 1
  funext i
  rw [Matrix.mulVec_diagonal]
  split
  · rw [mul_zero]
  · field_simp

/-- C155: the solution fulfils the normal equations. -/
theorem svd_normal (a u : Matrix (Fin m) (Fin n) K) (w : Fin n → K) (v : Matrix (Fin n) (Fin n) K) (b : Fin m → K)
    (hu : u.transpose * u = 1) (hv : v.transpose * v = 1) (ha : a = u * Matrix.diagonal w * v.transpose) :
    a.transpose.mulVec (a.mulVec (svdSolve u w v b) - b) = 0 := by
  subst ha
  rw [svd_apply u w v b hv, Matrix.transpose_mul, Matrix.transpose_mul, Matrix.transpose_transpose, Matrix.diagonal_transpose,
    ← Matrix.mulVec_mulVec, ← Matrix.mulVec_mulVec]
  have e : u.transpose.mulVec ((u.mulVec fun i => if w i = 0 then 0 else u.transpose.mulVec b i) - b) =
      (fun i => if w i = 0 then 0 else u.transpose.mulVec b i) - u.transpose.mulVec b := by
    rw [Matrix.mulVec_sub, Matrix.mulVec_mulVec, hu, Matrix.one_mulVec]
  rw [e]
  have : (Matrix.diagonal w).mulVec ((fun i => if w i = 0 then 0 else u.transpose.mulVec b i) - u.transpose.mulVec b) = 0 := by
    funext i
    rw [Matrix.mulVec_diagonal]
    simp only [Pi.sub_apply, Pi.zero_apply]
    split
    · rename_i h; rw [h, zero_mul]
    · rw [sub_self, mul_zero]
  rw [this, Matrix.mulVec_zero]

/-- C155: no other vector has a smaller sum of squares of residuals. -/
theorem svd_least_squares (a u : Matrix (Fin m) (Fin n) K) (w : Fin n → K) (v : Matrix (Fin n) (Fin n) K) (b : Fin m → K)
    (hu : u.transpose * u = 1) (hv : v.transpose * v = 1) (ha : a = u * Matrix.diagonal w * v.transpose) (y : Fin n → K) :
    Spec.residual a (svdSolve u w v b) b ≤ Spec.residual a y b := by
  have hn := svd_normal a u w v b hu hv ha
  set x := svdSolve u w v b with hx
  have hd : Spec.residual a y b = Spec.residual a x b +
      2 * ((a.mulVec (y - x)) ⬝ᵥ (a.mulVec x - b)) + (a.mulVec (y - x)) ⬝ᵥ (a.mulVec (y - x)) := by
    simp only [Spec.residual, dotProduct, Matrix.mulVec_sub, Finset.mul_sum, ← Finset.sum_add_distrib, Pi.sub_apply]
    exact sum_congr rfl fun i _ => by ring
  have h0 : (a.mulVec (y - x)) ⬝ᵥ (a.mulVec x - b) = 0 := by
    rw [dotProduct_comm, Matrix.dotProduct_mulVec, ← Matrix.mulVec_transpose, hn, zero_dotProduct]
  rw [hd, h0, mul_zero, add_zero]
  exact le_add_of_nonneg_right (Finset.sum_nonneg fun i _ => mul_self_nonneg _)

/-- C155: the solution has no part along a direction which the matrix maps to zero, so it is the shortest one. -/
theorem svd_shortest (a u : Matrix (Fin m) (Fin n) K) (w : Fin n → K) (v : Matrix (Fin n) (Fin n) K) (b : Fin m → K)
    (hu : u.transpose * u = 1) (ha : a = u * Matrix.diagonal w * v.transpose) (y : Fin n → K)
    (hy : a.mulVec y = 0) : svdSolve u w v b ⬝ᵥ svdSolve u w v b ≤ (svdSolve u w v b + y) ⬝ᵥ (svdSolve u w v b + y) := by
  have h1 : ∀ i, w i * v.transpose.mulVec y i = 0 := by
    intro i
    have h := congrArg (u.transpose.mulVec) hy
    rw [ha, Matrix.mulVec_zero, Matrix.mulVec_mulVec, ← Matrix.mul_assoc, ← Matrix.mul_assoc, hu, Matrix.one_mul,
      ← Matrix.mulVec_mulVec] at h
    have := congrFun h i
    rwa [Matrix.mulVec_diagonal] at this
  have h0 : svdSolve u w v b ⬝ᵥ y = 0 := by
    rw [svdSolve, dotProduct_comm, Matrix.dotProduct_mulVec, ← Matrix.mulVec_transpose]
    apply sum_eq_zero
    intro i _
    simp only
    split
    · rw [mul_zero]
    · rename_i hw
      rw [(mul_eq_zero.1 (h1 i)).resolve_left hw, zero_mul]
  rw [add_dotProduct, dotProduct_add, dotProduct_add, dotProduct_comm y, h0]
  have : 0 ≤ y ⬝ᵥ y := Finset.sum_nonneg fun i _ => mul_self_nonneg _
  linarith

end SVD

theorem foldl_max : ∀ (l : List K) (x : K), x ≤ l.foldl max x ∧ (∀ y ∈ l, y ≤ l.foldl max x) ∧ (l.foldl max x = x ∨ l.foldl max x ∈ l)
  | [], x => ⟨le_rfl, fun y h => absurd h (by simp), Or.inl rfl⟩
  | a :: l, x => by
    obtain ⟨h1, h2, h3⟩ := foldl_max l (max x a)
    rw [List.foldl_cons]
    refine ⟨(le_max_left _ _).trans h1, fun y hy => ?_, ?_⟩
    · rcases List.mem_cons.1 hy with rfl | hy
      · exact (le_max_right _ _).trans h1
      · exact h2 y hy
    · rcases h3 with h | h
      · rw [h]
        rcases max_choice x a with hm | hm
        · left; exact hm
        · right; rw [hm]; simp
      · right; simp [h]

/-- C155: of values which are not negative, with a threshold below one, those are kept which are above the threshold times the
largest one; the others are set to zero; the exception is for a matrix of zeros only. -/
theorem svd_clip (threshold : K) (h1 : threshold < 1) (w : List K) (hw : ∀ x ∈ w, 0 ≤ x) :
    (clip threshold w = .throw .allZero ∧ ∀ x ∈ w, x = 0) ∨
    (∃ top ∈ w, 0 < top ∧ (∀ x ∈ w, x ≤ top) ∧
      clip threshold w = .ok (w.map fun x => if threshold * top < x then x else 0)) := by
  cases w with
  | nil => left; exact ⟨by simp [clip], by simp⟩
  | cons a l =>
    set top := (a :: l).foldl max ((a :: l).headD 0) with ht
    obtain ⟨g1, g2, g3⟩ := foldl_max (a :: l) ((a :: l).headD 0)
    rw [← ht] at g1 g2 g3
    have hmem : top ∈ a :: l := by
      rcases g3 with h | h
      · rw [h]; simp
      · exact h
    have hmin : (if threshold ≠ 0 then threshold * top else threshold) = threshold * top := by
      split
      · rfl
      · rename_i h
        simp only [ne_eq, not_not] at h
        rw [h, zero_mul]
    by_cases htop : top = 0
    · left
      have hz : ∀ x ∈ a :: l, x = 0 := fun x hx => le_antisymm (htop ▸ g2 x hx) (hw x hx)
      refine ⟨?_, hz⟩
      rw [clip]
      simp only [← ht, hmin]
      rw [if_pos]
      rw [List.all_eq_true]
      intro x hx
      rw [htop, hz x hx]
      simp
    · right
      have hpos : 0 < top := lt_of_le_of_ne (hw top hmem) (Ne.symm htop)
      refine ⟨top, hmem, hpos, g2, ?_⟩
      rw [clip]
      simp only [← ht, hmin]
      rw [if_neg]
      · congr 1
        apply List.map_congr_left
        intro x _
        by_cases hx : threshold * top < x
        · rw [if_pos hx, if_neg (not_le.2 hx)]
        · rw [if_neg hx, if_pos (not_lt.1 hx)]
      · rw [List.all_eq_true]
        intro hall
        have h2 := hall top hmem
        simp only [decide_eq_true_eq] at h2
        have h3 : threshold * top < 1 * top := mul_lt_mul_of_pos_right h1 hpos
        linarith

/-- C155: with one weight for each row, exactly square matrices are taken. -/
theorem svd_sizes (rows cols : Nat) (hc : 0 < cols) : (∃ u, svdSizes rows cols rows = .ok u) ↔ rows = cols := by
  simp only [svdSizes]
  by_cases h1 : rows < cols
  · simp only [h1, if_true]
    rw [if_pos ⟨hc, by omega⟩]
    constructor
    · rintro ⟨u, h⟩; cases h
    · intro h; omega
  · simp only [h1, if_false]
    rw [if_neg (by simp)]
    by_cases h2 : rows ≤ cols
    · rw [if_pos h2]
      exact ⟨fun _ => by omega, fun _ => ⟨_, rfl⟩⟩
    · rw [if_neg h2]
      constructor
      · rintro ⟨u, h⟩; cases h
      · intro h; omega

/-- C155 does not hold for systems with more rows than unknowns or fewer: three readings and two correctors end in a failed
assertion, two readings and three correctors in an exception. -/
theorem svd_sizes_violated : svdSizes 3 2 3 = .ub ∧ svdSizes 2 3 2 = .throw .dimension := by decide

/-- The parts of an example of rank one. -/
def exU : Matrix (Fin 2) (Fin 2) ℚ := !![3/5, -4/5; 4/5, 3/5]
def exW : Fin 2 → ℚ := ![5, 0]
def exV : Matrix (Fin 2) (Fin 2) ℚ := !![4/5, -3/5; 3/5, 4/5]

example : exU.transpose * exU = 1 ∧ exV.transpose * exV = 1 ∧
    exU * Matrix.diagonal exW * exV.transpose = !![12/5, 9/5; 16/5, 12/5] ∧
    svdSolve exU exW exV ![1, 1] = ![28/125, 21/125] := by
  refine ⟨?_, ?_, ?_, ?_⟩ <;> decide +kernel

example : (!![12/5, 9/5; 16/5, 12/5] : Matrix (Fin 2) (Fin 2) ℚ).transpose.mulVec
    ((!![12/5, 9/5; 16/5, 12/5] : Matrix (Fin 2) (Fin 2) ℚ).mulVec (svdSolve exU exW exV ![1, 1]) - ![1, 1]) = 0 :=
  svd_normal _ exU exW exV _ (by decide +kernel) (by decide +kernel) (by decide +kernel)
example : (!![12/5, 9/5; 16/5, 12/5] : Matrix (Fin 2) (Fin 2) ℚ).mulVec ![3, -4] = 0 := by decide +kernel
example : listOf (clip (1 / 10) [3, 0, 10, 1]) = some [3, 0, 10, 0] := by decide +kernel

end Verif.LU
