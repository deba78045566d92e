import Mathlib.Algebra.BigOperators.Ring.Finset
import Mathlib.Algebra.BigOperators.Group.Finset.Sigma
import Mathlib.Algebra.Order.Field.Rat
import Mathlib.Tactic.Linarith
import Mathlib.Tactic.LinearCombination
import Mathlib.Tactic.NormNum
import Mathlib.Tactic.Ring
import Verif.Dense.Model
import Verif.Dense.Spec

/-! # Properties of dense matrices -/

namespace Verif.Dense

open Finset

variable {K : Type} [Field K] [LinearOrder K]

/-- An element can be read just if both subscripts are in range. -/
theorem get_eq (M : Mat K) (i j : ℕ) : get M i j = if i < M.nr ∧ j < M.nc then .ok (el M i j) else .throw .range := by
  unfold get index
  by_cases h1 : M.nr ≤ i
  · rw [if_pos h1, if_neg (by omega)]; rfl
  · by_cases h2 : M.nc ≤ j
    · rw [if_neg h1, if_pos h2, if_neg (by omega)]; rfl
    · rw [if_neg h1, if_neg h2, if_pos ⟨by omega, by omega⟩]; rfl

theorem index_inj {n i j i' j' : ℕ} (hj : j < n) (hj' : j' < n) (h : i * n + j = i' * n + j') : i = i' ∧ j = j' := by
  have h1 : (i * n + j) / n = i := by
    rw [Nat.mul_comm, Nat.mul_add_div (by omega), Nat.div_eq_of_lt hj, Nat.add_zero]
  have h2 : (i' * n + j') / n = i' := by
    rw [Nat.mul_comm, Nat.mul_add_div (by omega), Nat.div_eq_of_lt hj', Nat.add_zero]
  have h3 : i = i' := by rw [← h1, ← h2, h]
  subst h3
  exact ⟨rfl, by omega⟩

/-- What has been written to an element is read there, and every other element is what it was; with a subscript out of range
nothing is written. -/
theorem set_get (M : Mat K) (i j : ℕ) (v : K) :
    (i < M.nr ∧ j < M.nc → ∃ M', set M i j v = .ok M' ∧ get M' i j = .ok v ∧
      ∀ i' j', (i', j') ≠ (i, j) → get M' i' j' = get M i' j') ∧
    (¬ (i < M.nr ∧ j < M.nc) → set M i j v = .throw .range) := by
  refine ⟨fun h => ?_, fun h => ?_⟩
  · refine ⟨⟨M.nr, M.nc, fun q => if q = i * M.nc + j then v else M.array q⟩, ?_, ?_, fun i' j' hne => ?_⟩
    · unfold set index
      rw [if_neg (by omega), if_neg (by omega)]; rfl
    · rw [get_eq, if_pos h]
      simp [el]
    · rw [get_eq, get_eq]
      by_cases h' : i' < M.nr ∧ j' < M.nc
      · rw [if_pos h', if_pos h']
        simp only [el]
        rw [if_neg]
        intro he
        obtain ⟨rfl, rfl⟩ := index_inj h'.2 h.2 he
        exact hne rfl
      · rw [if_neg h', if_neg h']
  · unfold set index
    by_cases h1 : M.nr ≤ i
    · rw [if_pos h1]; rfl
    · rw [if_neg h1, if_pos (by omega)]; rfl

/-- The identity has ones on the diagonal and zeros elsewhere. -/
theorem identity_get {n i j : ℕ} (hi : i < n) (hj : j < n) :
    get (identity n : Mat K) i j = .ok (if i = j then 1 else 0) := by
  rw [get_eq, if_pos (show i < (identity n : Mat K).nr ∧ j < (identity n : Mat K).nc from ⟨hi, hj⟩)]
  congr 1
  show (if (i * n + j) % (n + 1) = 0 ∧ (i * n + j) / (n + 1) < n then (1 : K) else 0) = _
  by_cases h : i = j
  · subst h
    rw [if_pos rfl, show i * n + i = (n + 1) * i by ring, Nat.mul_mod_right, Nat.mul_div_cancel_left _ (by omega),
      if_pos ⟨rfl, hi⟩]
  · rw [if_neg h, if_neg]
    rintro ⟨h1, -⟩
    apply h
    have e : i * n + j + i = (n + 1) * i + j := by ring
    have h2 : (n + 1) ∣ i * n + j := Nat.dvd_of_mod_eq_zero h1
    obtain ⟨q, hq⟩ := h2
    have h4 : (n + 1) * i + j = (n + 1) * q + i := by omega
    have := @index_inj (n + 1) i j q i (by omega) (by omega) (by rw [Nat.mul_comm i, Nat.mul_comm q]; exact h4)
    exact this.2.symm

/-- The elements of a row and of a column are those of the matrix, and no others can be read. -/
theorem row_column (M : Mat K) (i j : ℕ) : ((row M i).bind fun s => s.get j) = get M i j ∧
    ((column M j).bind fun s => s.get i) = get M i j := by
  rw [get_eq]
  unfold row column
  by_cases h1 : M.nr ≤ i <;> by_cases h2 : M.nc ≤ j
  all_goals
    simp only [h1, h2, if_true, if_false, Outcome.bind, Sub.get, el, Nat.mul_one]
    first
      | rw [if_neg (by omega)]
      | skip
  · exact ⟨rfl, rfl⟩
  · exact ⟨rfl, rfl⟩
  · exact ⟨rfl, rfl⟩
  · rw [if_pos ⟨by omega, by omega⟩]
    exact ⟨rfl, by rw [Nat.add_comm]⟩

/-- A ranged row from `first` to `second` has the elements of the matrix from `first` to `second`, if `first` is not beyond
`second`. -/
theorem ranged_get {M : Mat K} {i first second : ℕ} (hi : i < M.nr) (hs : second < M.nc) (hf : first ≤ second)
    (h64 : M.nc < 2 ^ 64) : ∃ s, ranged M i first second = .ok s ∧ s.size = second - first + 1 ∧
    ∀ k ≤ second - first, s.get k = get M i (first + k) := by
  have hl : length first second = second - first + 1 := by
    unfold length
    rw [show second + 2 ^ 64 - first + 1 = second - first + 1 + 2 ^ 64 by omega, Nat.add_mod_right, Nat.mod_eq_of_lt (by omega)]
  refine ⟨⟨M.nc * i + first, length first second, 1, M.array⟩, ?_, hl, fun k hk => ?_⟩
  · unfold ranged
    rw [if_neg (by omega), if_neg (by omega)]
  · rw [get_eq, if_pos ⟨hi, by omega⟩, Sub.get, if_neg (by show ¬ (length first second ≤ k); omega)]
    simp only [el, Nat.mul_one]
    rw [Nat.mul_comm, Nat.add_assoc]

example : ∃ s, ranged (⟨2, 3, fun k => (k : ℚ)⟩ : Mat ℚ) 1 1 2 = .ok s ∧ s.size = 2 ∧ s.get 0 = .ok 4 := by
  obtain ⟨s, h1, h2, h3⟩ := ranged_get (M := (⟨2, 3, fun k => (k : ℚ)⟩ : Mat ℚ)) (i := 1) (first := 1) (second := 2)
    (by decide) (by decide) (by decide) (by decide)
  refine ⟨s, h1, h2, (h3 0 (by omega)).trans ?_⟩
  rw [get_eq, if_pos ⟨by decide, by decide⟩]
  norm_num [el]

/-- Violated: a range whose first subscript is beyond the second by two is accepted, and has `2 ^ 64 - 1` elements. -/
theorem ranged_violated : ∃ s, ranged (⟨1, 3, fun _ => (0 : ℚ)⟩ : Mat ℚ) 0 2 0 = .ok s ∧ s.size = 2 ^ 64 - 1 :=
  ⟨_, rfl, by show length 2 0 = _; norm_num [length]⟩

/-- A copy of another matrix has its size and all its elements. -/
theorem copy_eq (M rhs : Mat K) : ∃ M', copy M rhs = .ok M' ∧ M'.nr = rhs.nr ∧ M'.nc = rhs.nc ∧
    ∀ i j, get M' i j = get rhs i j := by
  refine ⟨⟨rhs.nr, rhs.nc, rhs.array⟩, ?_, rfl, rfl, fun _ _ => rfl⟩
  unfold copy assign redim
  rw [if_neg (by simp)]

/-- Violated: a matrix copied to itself becomes zero. -/
theorem copy_violated (M : Mat K) {i j : ℕ} (hi : i < M.nr) (hj : j < M.nc) : get (copySelf M) i j = .ok 0 := by
  rw [get_eq, if_pos (show i < (copySelf M).nr ∧ j < (copySelf M).nc from ⟨hi, hj⟩)]
  rfl

theorem foldl_sum (f : ℕ → K) (n : ℕ) (s : K) : (List.range n).foldl (fun s k => s + f k) s = s + ∑ k ∈ range n, f k := by
  induction n with
  | zero => simp
  | succ n ih => rw [List.range_succ, List.foldl_append, ih, sum_range_succ]; simp [add_assoc]

/-- The product of two vectors is the sum of the products of their elements if the lengths are equal. -/
theorem dot_eq (u v : Vec K) (h : u.n = v.n) (alpha : K) :
    tdot u v alpha = .ok (alpha + ∑ i ∈ range u.n, u.array i * v.array i) := by
  unfold tdot
  rw [if_neg (by omega), foldl_sum]

/-- Violated: the product of a short and a long vector is not refused, the rest of the long one is left out; in the other order
it is. -/
theorem dot_violated (u v : Vec K) (h : u.n < v.n) (alpha : K) :
    tdot u v alpha = .ok (alpha + ∑ i ∈ range u.n, u.array i * v.array i) ∧ tdot v u alpha = .throw .range := by
  unfold tdot
  rw [if_neg (by omega), foldl_sum, if_pos h]
  exact ⟨rfl, rfl⟩

example : (⟨2, fun _ => 1⟩ : Vec ℚ).n < (⟨3, fun _ => 1⟩ : Vec ℚ).n := by decide

variable [IsStrictOrderedRing K]

omit [IsStrictOrderedRing K] in
theorem fequal_iff (x y : K) : fequal x y = true ↔ |x - y| ≤ eps := by simp [fequal]

theorem eps_lt_one : (eps : K) < 1 := by
  unfold eps
  rw [div_lt_one (by positivity)]
  exact one_lt_pow₀ (by norm_num) (by norm_num)

theorem eps_nonneg : (0 : K) ≤ eps := by unfold eps; positivity

theorem fequal_self (x : K) : fequal x x = true := by
  rw [fequal_iff, sub_self, abs_zero]; exact eps_nonneg

theorem fequal_one_zero : fequal (1 : K) 0 = false := by
  rw [Bool.eq_false_iff, ne_eq, fequal_iff, sub_zero, abs_one, not_le]; exact eps_lt_one

/-- A factor which the routines do not mistake for zero or one. -/
def Distinct (x y : K) : Prop := x = y ∨ eps < |x - y|

omit [IsStrictOrderedRing K] in
theorem fequal_of_lt {x y : K} (h : eps < |x - y|) : fequal x y = false := by
  rw [Bool.eq_false_iff, ne_eq, fequal_iff, not_le]; exact h

/-- `tgemm` gives `alpha` times the product of `A` and `B`, each transposed or not, and `beta` times `C`, for all sizes which
fit; provided that neither factor is within the tolerance of zero, or `beta` of one, without being equal to it. -/
theorem gemm_eq {tpa tpb : Bool} {alpha beta : K} {A B C : Mat K} {n : ℕ}
    (ha : Distinct alpha 0) (hb : Distinct beta 0) (hb' : Distinct beta 1)
    (hA : (if tpa then (A.nc, A.nr) else (A.nr, A.nc)) = (C.nr, n)) (hB : (if tpb then (B.nc, B.nr) else (B.nr, B.nc)) = (n, C.nc)) :
    ∃ C', tgemm tpa tpb alpha A B beta C = .ok C' ∧ C'.nr = C.nr ∧ C'.nc = C.nc ∧ ∀ i < C.nr, ∀ j < C.nc,
      el C' i j = alpha * Spec.product n (Spec.op tpa (el A)) (Spec.op tpb (el B)) i j + beta * el C i j := by
  have hc : ∀ p, (if fequal beta 0 then (0 : K) else if !fequal beta 1 then C.array p * beta else C.array p) =
      beta * C.array p := by
    intro p
    rcases hb with rfl | hb
    · rw [if_pos (fequal_self _), zero_mul]
    · rw [fequal_of_lt hb]
      rcases hb' with rfl | hb'
      · simp [fequal_self]
      · simp [fequal_of_lt hb', mul_comm]
  have hk : (if tpa then A.nr else A.nc) = n := by
    cases tpa
    · simpa using (Prod.ext_iff.1 hA).2
    · simpa using (Prod.ext_iff.1 hA).2
  unfold tgemm
  simp only [hc, hk]
  rcases ha with rfl | ha
  · rw [if_pos (fequal_self _)]
    exact ⟨_, rfl, rfl, rfl, fun i hi j hj => by rw [zero_mul, zero_add]; rfl⟩
  · rw [fequal_of_lt ha]
    have hfits : ((List.range C.nr).all fun i => (List.range C.nc).all fun j => (List.range n).all fun k =>
        (if tpa then inside A k i else inside A i k) && if tpb then inside B j k else inside B k j) = true := by
      simp only [List.all_eq_true, List.mem_range]
      intro i hi j hj k hk'
      cases tpa <;> cases tpb <;> simp_all [inside]
    rw [if_neg (by simp), if_pos hfits]
    refine ⟨_, rfl, rfl, rfl, fun i hi j hj => ?_⟩
    have e1 : (i * C.nc + j) / C.nc = i := by
      rw [Nat.mul_comm, Nat.mul_add_div (by omega), Nat.div_eq_of_lt hj, Nat.add_zero]
    have e2 : (i * C.nc + j) % C.nc = j := by
      rw [Nat.mul_comm, Nat.mul_add_mod, Nat.mod_eq_of_lt hj]
    simp only [el, e1, e2]
    rw [foldl_sum, Spec.product, mul_sum, add_comm]
    congr 1
    refine sum_congr rfl fun k _ => ?_
    cases tpa <;> cases tpb <;> simp [Spec.op, el, mul_assoc]

/-- The hypotheses of `gemm_eq` are met by the transpose of a matrix of three rows and two columns times a matrix of three rows
and one column. -/
example : ∃ C', tgemm true false 2 (⟨3, 2, fun k => (k : ℚ)⟩ : Mat ℚ) ⟨3, 1, fun _ => 1⟩ 0 ⟨2, 1, fun _ => 5⟩ = .ok C' ∧
    el C' 1 0 = 18 := by
  obtain ⟨C', h, -, -, he⟩ := gemm_eq (K := ℚ) (tpa := true) (tpb := false) (alpha := 2) (beta := 0)
    (A := ⟨3, 2, fun k => (k : ℚ)⟩) (B := ⟨3, 1, fun _ => 1⟩) (C := ⟨2, 1, fun _ => 5⟩) (n := 3)
    (.inr (by norm_num [eps])) (.inl rfl) (.inr (by norm_num [eps])) rfl rfl
  refine ⟨C', h, ?_⟩
  rw [he 1 (by decide) 0 (by decide)]
  norm_num [Spec.product, Spec.op, el, sum_range_succ]

/-- Violated: a factor of the order of the machine epsilon is taken for zero. -/
theorem gemm_violated : ∃ alpha : ℚ, alpha ≠ 0 ∧ ∀ tpa tpb (A B C : Mat ℚ) C', tgemm tpa tpb alpha A B 1 C = .ok C' →
    ∀ p, C'.array p = C.array p := by
  refine ⟨eps, by norm_num [eps], fun tpa tpb A B C C' h p => ?_⟩
  unfold tgemm at h
  rw [if_pos (by rw [fequal_iff, sub_zero, abs_of_nonneg eps_nonneg])] at h
  cases h
  simp [fequal_self, fequal_one_zero]

/-- The product of matrices is what it should be if it is formed. -/
theorem mul_eq {A B : Mat K} (h1 : A.nr = B.nc) (h2 : A.nc = B.nr) : ∃ C, mul A B = .ok C ∧ C.nr = A.nr ∧ C.nc = B.nc ∧
    ∀ i < A.nr, ∀ j < B.nc, el C i j = Spec.product A.nc (el A) (el B) i j := by
  obtain ⟨C, h, hr, hc, he⟩ := gemm_eq (K := K) (tpa := false) (tpb := false) (alpha := 1) (beta := 1) (A := A) (B := B)
    (C := ⟨A.nr, B.nc, fun _ => 0⟩) (n := A.nc) (.inr (by rw [sub_zero, abs_one]; exact eps_lt_one))
    (.inr (by rw [sub_zero, abs_one]; exact eps_lt_one)) (.inl rfl) rfl (by rw [h2]; rfl)
  refine ⟨C, ?_, hr, hc, fun i hi j hj => ?_⟩
  · unfold mul
    rw [if_neg (by omega)]
    exact h
  · rw [he i hi j hj]
    simp [Spec.op, Spec.product, el]

example : ∃ C, mul (⟨1, 2, fun k => (k : ℚ) + 1⟩ : Mat ℚ) ⟨2, 1, fun k => (k : ℚ) + 3⟩ = .ok C ∧ el C 0 0 = 11 := by
  obtain ⟨C, h, -, -, he⟩ := mul_eq (A := (⟨1, 2, fun k => (k : ℚ) + 1⟩ : Mat ℚ)) (B := ⟨2, 1, fun k => (k : ℚ) + 3⟩) rfl rfl
  refine ⟨C, h, ?_⟩
  rw [he 0 (by decide) 0 (by decide)]
  norm_num [Spec.product, el, sum_range_succ]

omit [IsStrictOrderedRing K] in
/-- Violated: the product of two matrices whose sizes fit is refused unless the result is square. -/
theorem mul_violated {A B : Mat K} (_ : A.nc = B.nr) (h : A.nr ≠ B.nc) : mul A B = .throw .dimension := if_pos (.inl h)

example : mul (⟨2, 3, fun _ => 1⟩ : Mat ℚ) ⟨3, 1, fun _ => 1⟩ = .throw .dimension := mul_violated rfl (by decide)

/-- The product of a matrix and a vector is formed for every fitting size. -/
theorem mulVec_eq (M : Mat K) (V : Vec K) : (M.nc = V.n → ∃ U, mulVec M V = .ok U ∧ U.n = M.nr ∧
    ∀ i < M.nr, U.array i = ∑ j ∈ range M.nc, el M i j * V.array j) ∧ (M.nc ≠ V.n → mulVec M V = .throw .dimension) := by
  refine ⟨fun h => ?_, fun h => if_pos h⟩
  unfold mulVec tgemv
  rw [if_neg (by simpa using h)]
  simp only [fequal_self, fequal_one_zero, Bool.not_true, Bool.false_and, Bool.false_eq_true, if_false]
  rw [if_neg (by omega)]
  refine ⟨_, rfl, rfl, fun i hi => ?_⟩
  simp only [if_pos hi]
  rw [foldl_sum, zero_add]
  exact sum_congr rfl fun j _ => by rw [one_mul]

/-- `tgemv` gives `alpha` times the product and `beta` times `y`, for all sizes which fit if the matrix is not transposed, and
for square matrices if it is. -/
theorem gemv_eq {t : Bool} {alpha beta : K} {A : Mat K} {x y : Vec K} (ha : Distinct alpha 0) (hb : Distinct beta 1)
    (hx : x.n = if t then A.nr else A.nc) (hy : y.n = if t then A.nc else A.nr) (ht : t = true → A.nr = A.nc) :
    ∃ y', tgemv t alpha A x beta y = .ok y' ∧ y'.n = y.n ∧ ∀ i < y.n,
      y'.array i = alpha * ∑ j ∈ range x.n, Spec.op t (el A) i j * x.array j + beta * y.array i := by
  have hyn : y.n = A.nr := by cases t <;> simp_all
  have hy1 : ∀ i < y.n, (if !fequal beta 1 && decide (i < A.nr) then y.array i * beta else y.array i) = beta * y.array i := by
    intro i hi
    rcases hb with rfl | hb
    · simp [fequal_self]
    · simp [fequal_of_lt hb, hyn ▸ hi, mul_comm]
  unfold tgemv
  rw [if_neg (by simp [hyn])]
  rcases ha with rfl | ha
  · simp only [fequal_self, if_true]
    refine ⟨_, rfl, rfl, fun i hi => ?_⟩
    rw [zero_mul, zero_add]
    exact hy1 i hi
  · simp only [fequal_of_lt ha, Bool.false_eq_true, if_false]
    rw [← hx, ← hy, if_neg (by omega)]
    refine ⟨_, rfl, rfl, fun i hi => ?_⟩
    simp only [if_pos hi]
    rw [foldl_sum, hy1 i hi, mul_sum, add_comm]
    congr 1
    refine sum_congr rfl fun j _ => ?_
    cases t <;> simp [Spec.op, mul_assoc]

example : ∃ y', tgemv true 2 (⟨2, 2, fun k => (k : ℚ)⟩ : Mat ℚ) ⟨2, fun _ => 1⟩ 3 ⟨2, fun _ => 1⟩ = .ok y' ∧ y'.array 1 = 11 := by
  obtain ⟨y', h, -, he⟩ := gemv_eq (K := ℚ) (t := true) (alpha := 2) (beta := 3) (A := ⟨2, 2, fun k => (k : ℚ)⟩)
    (x := ⟨2, fun _ => 1⟩) (y := ⟨2, fun _ => 1⟩) (.inr (by norm_num [eps])) (.inr (by norm_num [eps])) rfl rfl (fun _ => rfl)
  refine ⟨y', h, ?_⟩
  rw [he 1 (by decide)]
  norm_num [Spec.op, el, sum_range_succ]

/-- Violated: with a transposed matrix of fewer rows than columns the elements of `y` from the number of rows on are not
multiplied by `beta`; with more rows than columns elements beyond `y` are. -/
theorem gemv_violated :
    (∃ y', tgemv true 0 (⟨1, 2, fun _ => 1⟩ : Mat ℚ) ⟨1, fun _ => 1⟩ 3 ⟨2, fun _ => 1⟩ = .ok y' ∧ y'.array 0 = 3 ∧ y'.array 1 = 1) ∧
    tgemv true 1 (⟨2, 1, fun _ => 1⟩ : Mat ℚ) ⟨2, fun _ => 1⟩ 3 ⟨1, fun _ => 1⟩ = .throw .range := by
  have h3 : fequal (3 : ℚ) 1 = false := fequal_of_lt (by norm_num [eps])
  refine ⟨?_, ?_⟩
  · unfold tgemv
    simp [h3, fequal_self]
  · unfold tgemv
    simp [h3]

omit [IsStrictOrderedRing K] in
theorem line_eq (M : Mat K) {i : ℕ} (hi : i < M.nr) : ∀ l : List ℕ, (∀ j ∈ l, j < M.nc) → line M i l = .ok (l.map (el M i)) := by
  intro l
  induction l with
  | nil => intro _; rfl
  | cons j l ih =>
    intro h
    rw [line, get_eq, if_pos ⟨hi, h j (by simp)⟩, Outcome.bind, ih fun k hk => h k (by simp [hk])]
    rfl

omit [IsStrictOrderedRing K] in
/-- A square matrix is written row by row. -/
theorem print_eq {M : Mat K} (h : M.nr = M.nc) :
    print M = .ok ((List.range M.nr).map fun i => (List.range M.nc).map (el M i)) := by
  have key : ∀ l : List ℕ, (∀ i ∈ l, i < M.nr) → lines M l = .ok (l.map fun i => (List.range M.nc).map (el M i)) := by
    intro l
    induction l with
    | nil => intro _; rfl
    | cons i l ih =>
      intro hl
      rw [lines, line_eq M (hl i (by simp)) _ (fun j hj => by rw [← h]; exact List.mem_range.1 hj), Outcome.bind,
        ih fun k hk => hl k (by simp [hk]), h]
      rfl
  unfold print
  rw [← h]
  have := key (List.range M.nr) fun i hi => List.mem_range.1 hi
  rw [← h] at this
  exact this

example : (⟨2, 2, fun k => (k : ℚ)⟩ : Mat ℚ).nr = (⟨2, 2, fun k => (k : ℚ)⟩ : Mat ℚ).nc := rfl

omit [IsStrictOrderedRing K] in
theorem line_throw (M : Mat K) {i : ℕ} : ∀ l : List ℕ, (∃ j ∈ l, ¬ (i < M.nr ∧ j < M.nc)) → line M i l = .throw .range := by
  intro l
  induction l with
  | nil => rintro ⟨j, hj, -⟩; simp at hj
  | cons j l ih =>
    rintro ⟨k, hk, h⟩
    rw [line, get_eq]
    by_cases hj : i < M.nr ∧ j < M.nc
    · rw [if_pos hj, Outcome.bind]
      have hkl : k ∈ l := by
        rcases List.mem_cons.1 hk with rfl | h'
        · exact absurd hj h
        · exact h'
      rw [ih ⟨k, hkl, h⟩]
      rfl
    · rw [if_neg hj]
      rfl

omit [IsStrictOrderedRing K] in
/-- Violated: a matrix which is not square cannot be written, if it has elements; the subscripts are exchanged. -/
theorem print_violated {M : Mat K} (h : M.nr ≠ M.nc) (hr : 0 < M.nr) (hc : 0 < M.nc) : print M = .throw .range := by
  have key : ∀ l : List ℕ, (∃ i ∈ l, ∃ j < M.nr, ¬ (i < M.nr ∧ j < M.nc)) → lines M l = .throw .range := by
    intro l
    induction l with
    | nil => rintro ⟨i, hi, -⟩; simp at hi
    | cons i l ih =>
      intro hl
      rw [lines]
      by_cases hi : ∃ j < M.nr, ¬ (i < M.nr ∧ j < M.nc)
      · obtain ⟨j, hj, hn⟩ := hi
        rw [line_throw M _ ⟨j, List.mem_range.2 hj, hn⟩]
        rfl
      · obtain ⟨k, hk, hx⟩ := hl
        have hkl : k ∈ l := by
          rcases List.mem_cons.1 hk with rfl | h'
          · exact absurd hx hi
          · exact h'
        have hall : ∀ j < M.nr, i < M.nr ∧ j < M.nc := fun j hj => by
          by_contra hn; exact hi ⟨j, hj, hn⟩
        rw [line_eq M (hall 0 hr).1 _ (fun j hj => (hall j (List.mem_range.1 hj)).2), Outcome.bind, ih ⟨k, hkl, hx⟩]
        rfl
  refine key _ ?_
  rcases Nat.lt_or_gt_of_ne h with h | h
  · exact ⟨M.nr, List.mem_range.2 h, 0, hr, by omega⟩
  · exact ⟨0, List.mem_range.2 hc, M.nc, h, by omega⟩

example : print (⟨1, 2, fun _ => 1⟩ : Mat ℚ) = .throw .range := print_violated (by decide) (by decide) (by decide)

omit [LinearOrder K] [IsStrictOrderedRing K] in
/-- An assignment operation on a part of a matrix changes just the elements of the part, each with its own element. -/
theorem subApply_el (f : K → K → K) {M : Mat K} {r1 r2 c1 c2 : ℕ} (m : Mat K) (hc : m.nc = c2 - c1 + 1) {i j : ℕ} (hj : j < M.nc) :
    el (subApply f M r1 r2 c1 c2 m.array) i j =
      if r1 ≤ i ∧ i ≤ r2 ∧ c1 ≤ j ∧ j ≤ c2 then f (el M i j) (el m (i - r1) (j - c1)) else el M i j := by
  have e1 : (i * M.nc + j) / M.nc = i := by
    rw [Nat.mul_comm, Nat.mul_add_div (by omega), Nat.div_eq_of_lt hj, Nat.add_zero]
  have e2 : (i * M.nc + j) % M.nc = j := by
    rw [Nat.mul_comm, Nat.mul_add_mod, Nat.mod_eq_of_lt hj]
  simp only [el, subApply, e1, e2, hc]

omit [IsStrictOrderedRing K] in
/-- `+=`, `-=` and `/=` of a part of a matrix and a matrix of the same size combine the elements in their places and leave all
others; another size is refused. -/
theorem sub_eq (f : K → K → K) (M : Mat K) (r1 r2 c1 c2 : ℕ) (m : Mat K) :
    (r2 - r1 + 1 = m.nr ∧ c2 - c1 + 1 = m.nc → ∃ M', subOp f M r1 r2 c1 c2 m = .ok M' ∧ M'.nr = M.nr ∧ M'.nc = M.nc ∧
      ∀ i, ∀ j < M.nc, el M' i j =
        if r1 ≤ i ∧ i ≤ r2 ∧ c1 ≤ j ∧ j ≤ c2 then f (el M i j) (el m (i - r1) (j - c1)) else el M i j) ∧
    (¬ (r2 - r1 + 1 = m.nr ∧ c2 - c1 + 1 = m.nc) → subOp f M r1 r2 c1 c2 m = .throw .dimension) := by
  unfold subOp
  refine ⟨fun h => ⟨_, if_neg (by omega), rfl, rfl, fun i j hj => subApply_el f m h.2.symm hj⟩, fun h => if_pos (by omega)⟩

omit [IsStrictOrderedRing K] in
/-- `*=` does so for square parts. -/
theorem subMul_eq {M : Mat K} {r1 r2 c1 c2 : ℕ} {m : Mat K} (hs : r2 - r1 = c2 - c1) (hr : m.nr = r2 - r1 + 1)
    (hc : m.nc = c2 - c1 + 1) : ∃ M', subMul M r1 r2 c1 c2 m = .ok M' ∧ M'.nr = M.nr ∧ M'.nc = M.nc ∧
      ∀ i, ∀ j < M.nc, el M' i j =
        if r1 ≤ i ∧ i ≤ r2 ∧ c1 ≤ j ∧ j ≤ c2 then el M i j * el m (i - r1) (j - c1) else el M i j := by
  unfold subMul
  rw [if_neg (by omega), if_neg (by rw [hr, hc]; simp)]
  exact ⟨_, rfl, rfl, rfl, fun i j hj => subApply_el _ m hc hj⟩

example : ∃ M', subMul (⟨3, 3, fun k => (k : ℚ)⟩ : Mat ℚ) 1 2 0 1 ⟨2, 2, fun k => (k : ℚ) + 1⟩ = .ok M' ∧ el M' 2 1 = 28 ∧
    el M' 2 2 = 8 := by
  obtain ⟨M', h, -, -, he⟩ := subMul_eq (M := (⟨3, 3, fun k => (k : ℚ)⟩ : Mat ℚ)) (r1 := 1) (r2 := 2) (c1 := 0) (c2 := 1)
    (m := ⟨2, 2, fun k => (k : ℚ) + 1⟩) rfl rfl rfl
  refine ⟨M', h, ?_, ?_⟩
  · rw [he 2 1 (by decide)]; norm_num [el]
  · rw [he 2 2 (by decide)]; norm_num [el]

omit [IsStrictOrderedRing K] in
/-- Violated: `*=` refuses a matrix of the same size if it is not square, and takes one of another size, which is undefined. -/
theorem subMul_violated : (∀ (M : Mat K) {r1 r2 c1 c2 : ℕ} {m : Mat K}, m.nr = r2 - r1 + 1 → m.nc = c2 - c1 + 1 → m.nr ≠ m.nc →
      subMul M r1 r2 c1 c2 m = .throw .dimension) ∧
    ∀ (M : Mat K) (a : ℕ → K), subMul M 0 0 0 1 ⟨2, 2, a⟩ = .ub :=
  ⟨fun M r1 r2 c1 c2 m h1 h2 h3 => if_pos (by omega), fun M a => rfl⟩

omit [LinearOrder K] [IsStrictOrderedRing K] in
/-- `tgemr` gives the matrix `R M Rᵀ` if the result is another matrix. -/
theorem gemr_eq (n : ℕ) (R M : ℕ → ℕ → K) (i j : ℕ) :
    tgemr n R M i j = Spec.product n (Spec.product n R M) (Spec.op true R) i j := by
  have h : ∀ (f : ℕ → K) m s, (List.range m).foldl (fun s k => s + f k) s = s + ∑ k ∈ range m, f k := by
    intro f m
    induction m with
    | zero => intro s; simp
    | succ m ih => intro s; rw [List.range_succ, List.foldl_append, ih, sum_range_succ]; simp [add_assoc]
  unfold tgemr
  simp only [h]
  rw [zero_add]
  unfold Spec.product Spec.op
  simp only [sum_mul, if_true]
  rw [sum_comm]
  exact sum_congr rfl fun l _ => sum_congr rfl fun k _ => by ring

/-- Violated: in place the result is wrong, here for the exchange of the axes. -/
theorem gemr_violated : ∃ R M : ℕ → ℕ → ℚ, tgemrSelf 2 R M 1 1 = 2 ∧
    Spec.product 2 (Spec.product 2 R M) (Spec.op true R) 1 1 = 1 := by
  refine ⟨fun i j => if i = j then 0 else 1, fun i j => if i = j then (if i = 0 then 1 else 2) else 0, ?_, ?_⟩
  · norm_num [tgemrSelf, tgemrStep, List.range_succ]
  · norm_num [Spec.product, Spec.op, sum_range_succ]

/-- Violated: a number subtracted from a vector is added. -/
theorem minus_violated : ∃ (v : Vec ℚ) (s : ℚ), (subScalar v s).array 0 ≠ v.array 0 - s :=
  ⟨⟨1, fun _ => 1⟩, 1, by norm_num [subScalar]⟩

omit [LinearOrder K] [IsStrictOrderedRing K] in
/-- The other operations with a number do what they say, and the wrong one is right just for zero, unless two is
zero. -/
theorem scalar_eq (v : Vec K) (s : K) (h2 : (2 : K) ≠ 0) (i : ℕ) : (addScalar v s).array i = v.array i + s ∧
    (scalarSub s v).array i = s - v.array i ∧ (mulScalar v s).array i = s * v.array i ∧
    ((subScalar v s).array i = v.array i - s ↔ s = 0) := by
  refine ⟨rfl, ?_, mul_comm _ _, ?_⟩
  · show v.array i * -1 + s = _
    ring
  · show v.array i + s = v.array i - s ↔ s = 0
    constructor
    · intro h
      have : 2 * s = 0 := by linear_combination h
      exact (mul_eq_zero.1 this).resolve_left h2
    · rintro rfl
      ring

example : (2 : ℚ) ≠ 0 := by norm_num

omit [IsStrictOrderedRing K] in
/-- `sumsquared` and `sumfabs` are the sums of the squares and of the absolute values. -/
theorem sums_eq (s : Sub K) : sumsquared s = ∑ i ∈ range s.size, s.at i ^ 2 ∧ sumfabs s = ∑ i ∈ range s.size, |s.at i| := by
  unfold sumsquared sumfabs
  rw [foldl_sum, foldl_sum, zero_add, zero_add]
  exact ⟨rfl, rfl⟩

omit [IsStrictOrderedRing K] in
/-- `locmaxabs` is the first place of an element of greatest absolute value. -/
theorem locmaxabs_eq {s : Sub K} (h : 0 < s.size) : locmaxabs s < s.size ∧
    (∀ i < s.size, |s.at i| ≤ |s.at (locmaxabs s)|) ∧ ∀ i < locmaxabs s, |s.at i| < |s.at (locmaxabs s)| := by
  have key : ∀ n, ∃ m : ℕ, (List.range n).foldl
      (fun (m : ℕ × K) i => if |s.at (i + 1)| > m.2 then (i + 1, |s.at (i + 1)|) else m) (0, |s.at 0|) = (m, |s.at m|) ∧
      m ≤ n ∧ (∀ i ≤ n, |s.at i| ≤ |s.at m|) ∧ ∀ i < m, |s.at i| < |s.at m| := by
    intro n
    induction n with
    | zero => exact ⟨0, rfl, le_rfl, fun i hi => by rw [Nat.le_zero.1 hi], fun i hi => by omega⟩
    | succ n ih =>
      obtain ⟨m, h1, h2, h3, h4⟩ := ih
      rw [List.range_succ, List.foldl_append, h1]
      simp only [List.foldl_cons, List.foldl_nil]
      by_cases hgt : |s.at (n + 1)| > |s.at m|
      · refine ⟨n + 1, if_pos hgt, le_rfl, fun i hi => ?_, fun i hi => (h3 i (by omega)).trans_lt hgt⟩
        rcases Nat.lt_succ_iff_lt_or_eq.1 (Nat.lt_succ_of_le hi) with h' | rfl
        · exact (h3 i (by omega)).trans hgt.le
        · exact le_rfl
      · refine ⟨m, if_neg hgt, by omega, fun i hi => ?_, h4⟩
        rcases Nat.lt_succ_iff_lt_or_eq.1 (Nat.lt_succ_of_le hi) with h' | rfl
        · exact h3 i (by omega)
        · exact not_lt.1 hgt
  obtain ⟨m, h1, h2, h3, h4⟩ := key (s.size - 1)
  have hm : locmaxabs s = m := by unfold locmaxabs; rw [h1]
  rw [hm]
  exact ⟨by omega, fun i hi => h3 i (by omega), h4⟩

example : 0 < (⟨1, 3, 2, fun k => (k : ℚ) - 4⟩ : Sub ℚ).size := by decide

end Verif.Dense
