import Mathlib.LinearAlgebra.Matrix.NonsingularInverse
import Mathlib.Tactic.FieldSimp
import Mathlib.Tactic.Linarith
import Mathlib.Tactic.LinearCombination
import Mathlib.Tactic.NormNum
import Mathlib.Tactic.Ring
import Verif.LU.Properties
import Verif.SVD.Model
import Verif.SVD.Reflect
import Verif.SVD.Spec

/-! # Properties of the singular values -/

namespace Verif.SVD

open Finset

theorem eps_pos : 0 < eps := by unfold eps; positivity

theorem eps_lt_one : eps < 1 := by unfold eps; norm_num

/-- `PYTHAG` is the length of the hypotenuse if the first argument is the greater one or the second is beyond the
tolerance. -/
theorem pythag_eq {a b : ℝ} (h : |b| < |a| ∨ eps < |b|) : PYTHAG a b = Real.sqrt (a ^ 2 + b ^ 2) := by
  unfold PYTHAG
  split
  next hab =>
    have ha : 0 < |a| := lt_of_le_of_lt (abs_nonneg b) hab
    have ha' : a ≠ 0 := abs_pos.1 ha
    symm
    rw [Real.sqrt_eq_iff_mul_self_eq (by positivity) (by positivity), ← pow_two, mul_pow, Real.sq_sqrt (by positivity),
      ← pow_two, div_pow, sq_abs, sq_abs]
    field_simp
  next hab =>
    have hb : eps < |b| := h.resolve_left hab
    rw [if_pos (not_le.2 hb)]
    have hb0 : 0 < |b| := eps_pos.trans hb
    have hb' : b ≠ 0 := abs_pos.1 hb0
    symm
    rw [Real.sqrt_eq_iff_mul_self_eq (by positivity) (by positivity), ← pow_two, mul_pow, Real.sq_sqrt (by positivity),
      ← pow_two, div_pow, sq_abs, sq_abs]
    field_simp
    ring

example : PYTHAG 3 4 = 5 := by
  rw [pythag_eq (.inr (by rw [abs_of_pos (by norm_num)]; linarith [eps_lt_one])),
    show (3 : ℝ) ^ 2 + 4 ^ 2 = 5 ^ 2 by norm_num, Real.sqrt_sq (by norm_num)]

/-- Otherwise it is zero, which is less than either argument; the result then depends on the order of the arguments. -/
theorem pythag_violated : ∃ a b : ℝ, PYTHAG a b = 0 ∧ 0 < PYTHAG b a ∧ 0 < a := by
  refine ⟨eps / 2, eps, ?_, ?_, half_pos eps_pos⟩
  · have h1 : |eps / 2| = eps / 2 := abs_of_pos (half_pos eps_pos)
    have h2 : |eps| = eps := abs_of_pos eps_pos
    unfold PYTHAG
    rw [h1, h2, if_neg (by linarith [eps_pos]), if_neg (by simp)]
  · have h1 : |eps / 2| = eps / 2 := abs_of_pos (half_pos eps_pos)
    have h2 : |eps| = eps := abs_of_pos eps_pos
    have := eps_pos
    rw [pythag_eq (.inl (by rw [h1, h2]; linarith))]
    positivity

/-- The search never reads outside `V` when `work[0]` is zero, as `SVD` leaves it; what it finds is small, and nothing
between it and `k` is. -/
theorem search_spec {V work : ℕ → ℝ} (h0 : work 0 = 0) (k : ℕ) : ∃ L ≤ k,
    (∀ i, L < i → i ≤ k → eps < |work i| ∧ eps < |V (i - 1)|) ∧
    (search V work k = .split L ∧ |work L| ≤ eps ∨
      search V work k = .cancel L ∧ 0 < L ∧ eps < |work L| ∧ |V (L - 1)| ≤ eps) := by
  induction k with
  | zero =>
    have : |work 0| ≤ eps := by rw [h0, abs_zero]; exact eps_pos.le
    exact ⟨0, le_rfl, fun i h h' => by omega, .inl ⟨by simp [search, this], this⟩⟩
  | succ k ih =>
    by_cases h1 : |work (k + 1)| ≤ eps
    · exact ⟨k + 1, le_rfl, fun i h h' => by omega, .inl ⟨by simp [search, h1], h1⟩⟩
    · by_cases h2 : |V k| ≤ eps
      · exact ⟨k + 1, le_rfl, fun i h h' => by omega, .inr ⟨by simp [search, h1, h2], by omega, not_le.1 h1, h2⟩⟩
      · obtain ⟨L, hL, hi, hs⟩ := ih
        refine ⟨L, by omega, fun i h h' => ?_, ?_⟩
        · rcases Nat.lt_or_ge k i with h3 | h3
          · obtain rfl : i = k + 1 := by omega
            exact ⟨not_le.1 h1, not_le.1 h2⟩
          · exact hi i h h3
        · simpa [search, h1, h2] using hs

example : ∃ L ≤ 2, search (fun i => if i = 0 then 0 else 4) (fun i => if i = 0 then 0 else 3) 2 = .cancel L := by
  have he : ¬ ((3 : ℝ) ≤ eps) := by linarith [eps_lt_one]
  have he' : ¬ ((4 : ℝ) ≤ eps) := by linarith [eps_lt_one]
  refine ⟨1, by omega, ?_⟩
  simp [search, abs_of_pos, he, he', eps_pos.le]

/-- One rotation, and none divides by zero. -/
theorem cancelStep_eq (work : ℕ → ℝ) (rem i : ℕ) (st : St) (h : eps < |st.f1 * work i|) :
    ∃ f3 f1 f2, f3 ≠ 0 ∧ f1 ^ 2 + f2 ^ 2 = 1 ∧ f2 * f3 = st.V i ∧ f1 * f3 = -(st.f1 * work i) ∧
      cancelStep work rem i st = .ok ⟨Function.update st.V i f3,
        fun r c => if c = i then st.M r i * f2 - st.M r rem * f1
          else if c = rem then st.M r rem * f2 + st.M r i * f1 else st.M r c, f1, f2⟩ ∧
      f3 = Real.sqrt ((st.f1 * work i) ^ 2 + st.V i ^ 2) := by
  have hor : |st.V i| < |st.f1 * work i| ∨ eps < |st.V i| := by
    rcases lt_or_ge |st.V i| |st.f1 * work i| with h' | h'
    · exact .inl h'
    · exact .inr (h.trans_le h')
  have hp := pythag_eq hor
  have hne : st.f1 * work i ≠ 0 := fun h0 => by rw [h0, abs_zero] at h; linarith [eps_pos]
  have hpos : 0 < (st.f1 * work i) ^ 2 + st.V i ^ 2 := by positivity
  have h3 : PYTHAG (st.f1 * work i) (st.V i) ≠ 0 := by rw [hp]; exact (Real.sqrt_pos.2 hpos).ne'
  have hsq : PYTHAG (st.f1 * work i) (st.V i) ^ 2 = (st.f1 * work i) ^ 2 + st.V i ^ 2 := by
    rw [hp, Real.sq_sqrt hpos.le]
  refine ⟨_, -(st.f1 * work i) * (1 / PYTHAG (st.f1 * work i) (st.V i)),
    st.V i * (1 / PYTHAG (st.f1 * work i) (st.V i)), h3, ?_, ?_, ?_, ?_, hp⟩
  · generalize PYTHAG (st.f1 * work i) (st.V i) = p at h3 hsq
    field_simp
    linear_combination -hsq
  · field_simp
  · field_simp
  · unfold cancelStep
    rw [if_pos (not_le.2 h), if_neg h3]

theorem dot_rot {n i j : ℕ} (hi : i < n) (hj : j < n) (hij : j ≠ i) {s c : ℝ} (h1 : s ^ 2 + c ^ 2 = 1) (u v : ℕ → ℝ) :
    Spec.dot n (fun k => if k = i then u i * c - u j * s else if k = j then u j * c + u i * s else u k)
      (fun k => if k = i then v i * c - v j * s else if k = j then v j * c + v i * s else v k) = Spec.dot n u v := by
  unfold Spec.dot
  have key : ∀ f : ℕ → ℝ, ∑ k ∈ range n, f k =
      ∑ k ∈ (range n).filter (fun k => k ≠ i ∧ k ≠ j), f k + (f i + f j) := by
    intro f
    rw [← sum_filter_add_sum_filter_not (range n) (fun k => k ≠ i ∧ k ≠ j)]
    congr 1
    have : (range n).filter (fun k => ¬ (k ≠ i ∧ k ≠ j)) = {i, j} := by
      ext k; simp only [mem_filter, mem_range, mem_insert, mem_singleton]; omega
    rw [this, sum_pair (Ne.symm hij)]
  rw [key, key (fun k => u k * v k)]
  congr 1
  · refine sum_congr rfl fun k hk => ?_
    have := (mem_filter.1 hk).2
    simp [this.1, this.2]
  · simp only [hij, if_true, if_false]
    linear_combination (u i * v i + u j * v j) * h1

/-- The loop always ends without a division by zero, and keeps the products of the rows of `M`. -/
theorem cancel_orthogonal (work : ℕ → ℝ) {n rem : ℕ} : ∀ (left i : ℕ) (st : St), rem < i → i + left ≤ n →
    ∃ st', cancel work rem left i st = .ok st' ∧ ∀ r r', Spec.dot n (st'.M r) (st'.M r') = Spec.dot n (st.M r) (st.M r') := by
  intro left
  induction left with
  | zero => intro i st _ _; exact ⟨st, rfl, fun _ _ => rfl⟩
  | succ left ih =>
    intro i st hr hn
    rw [cancel]
    rcases lt_or_ge eps |st.f1 * work i| with h | h
    · obtain ⟨f3, f1, f2, -, h1, -, -, hs, -⟩ := cancelStep_eq work rem i st h
      rw [hs]
      obtain ⟨st', h', hd⟩ := ih (i + 1) ⟨Function.update st.V i f3,
        fun r c => if c = i then st.M r i * f2 - st.M r rem * f1
          else if c = rem then st.M r rem * f2 + st.M r i * f1 else st.M r c, f1, f2⟩ (by omega) (by omega)
      exact ⟨st', h', fun r r' => (hd r r').trans (dot_rot (by omega) (by omega) (by omega) h1 _ _)⟩
    · have : cancelStep work rem i st = .ok st := by
        unfold cancelStep
        rw [if_neg (not_not.2 h)]
      rw [this]
      exact ih (i + 1) st (by omega) (by omega)

example : ∃ st', cancel (fun _ => 5) 0 2 1 ⟨fun _ => 4, fun r c => if r = c then 1 else 0, 1, 0⟩ = .ok st' ∧
    ∀ r r', Spec.dot 3 (st'.M r) (st'.M r') =
      Spec.dot 3 (fun c => if r = c then 1 else 0) (fun c => if r' = c then 1 else 0) :=
  cancel_orthogonal _ 2 1 _ (by omega) (by omega)

/-- With `L = k` and nothing right of it the loop removes the element: the product of `M` and the bidiagonal matrix is what
it was, with the vanishing element of `V` taken as zero and `work[L]` gone. -/
theorem cancel_last_partial {work V : ℕ → ℝ} {L : ℕ} (hL : 0 < L) (hw : eps < |work L|) (hV : V (L - 1) = 0)
    (hnext : work (L + 1) = 0) (M : ℕ → ℕ → ℝ) : ∃ st, cancelAll work L L V M = .ok st ∧ ∀ r c,
    Spec.element st.V (Function.update work L 0) (st.M r) c = Spec.element V work (M r) c := by
  obtain ⟨f3, f1, f2, -, h1, h2, h3, hs, -⟩ := cancelStep_eq work (L - 1) L ⟨V, M, 1, 0⟩ (by simpa using hw)
  refine ⟨⟨Function.update V L f3,
    fun r c => if c = L then M r L * f2 - M r (L - 1) * f1
      else if c = L - 1 then M r (L - 1) * f2 + M r L * f1 else M r c, f1, f2⟩, ?_, fun r c => ?_⟩
  · unfold cancelAll
    rw [show L + 1 - L = 0 + 1 by omega, cancel, hs]
    rfl
  · simp only [one_mul] at h2 h3
    unfold Spec.element
    by_cases hc : c = L
    · subst hc
      have hne : c ≠ 0 := by omega
      simp only [Function.update_self, if_true, hne, if_false, zero_mul, add_zero]
      linear_combination M r c * h2 - M r (c - 1) * h3
    · simp only [Function.update_of_ne hc]
      by_cases hc1 : c = L - 1
      · subst hc1
        have h4 : ¬ (L - 1 - 1 = L) := by omega
        have h5 : L - 1 ≠ 0 → ¬ (L - 1 - 1 = L - 1) := by omega
        by_cases h0 : L - 1 = 0
        · simp [hV, h0]
          rw [h0] at hV
          simp [hV]
        · simp [hV, h0, h4, h5 h0]
      · by_cases h0 : c = 0
        · simp [h0, hc1, hc]
          have h6 : ¬ (0 = L) := by omega
          have h7 : ¬ (0 = L - 1) := by omega
          simp [h6, h7]
        · by_cases hc2 : c = L + 1
          · subst hc2
            have : ¬ (L + 1 = L - 1) := by omega
            simp [hnext, this]
          · have h8 : ¬ (c - 1 = L) := by omega
            by_cases h9 : c - 1 = L - 1
            · omega
            · simp [hc, hc1, h0, h8, h9]

example : ∃ st, cancelAll (fun i => if i = 1 then 3 else 0) 1 1 (fun i => if i = 1 then 4 else 0)
    (fun r c => if r = c then 1 else 0) = .ok st ∧ ∀ r c,
    Spec.element st.V (Function.update (fun i => if i = 1 then 3 else 0) 1 0) (st.M r) c =
      Spec.element (fun i => if i = 1 then 4 else 0) (fun i => if i = 1 then 3 else 0) (fun c => if r = c then 1 else 0) c :=
  cancel_last_partial (by omega) (by simp; linarith [eps_lt_one]) (by simp) (by simp) _

/-- In general it does not: the next element of `work` ought to be multiplied by the cosine and is not.  For the bidiagonal
matrix with the diagonal `0, 4, 4` and the elements `3, 5` above it, the product with `M` has changed, and so has the sum
of the squares of the elements, which ought to be that of the singular values. -/
theorem cancel_violated : ∃ (work V : ℕ → ℝ) (M : ℕ → ℕ → ℝ) (st : St),
    search V work 2 = .cancel 1 ∧ V 0 = 0 ∧ cancelAll work 1 2 V M = .ok st ∧ work 3 = 0 ∧
    Spec.element st.V (Function.update work 1 0) (st.M 0) 2 ≠ Spec.element V work (M 0) 2 ∧
    st.V 0 ^ 2 + st.V 1 ^ 2 + st.V 2 ^ 2 + work 2 ^ 2 = 75 ∧
    V 0 ^ 2 + V 1 ^ 2 + V 2 ^ 2 + work 1 ^ 2 + work 2 ^ 2 = 66 := by
  have he : ¬ ((3 : ℝ) ≤ eps) := by linarith [eps_lt_one]
  have he5 : ¬ ((5 : ℝ) ≤ eps) := by linarith [eps_lt_one]
  have he4 : ¬ ((4 : ℝ) ≤ eps) := by linarith [eps_lt_one]
  let work : ℕ → ℝ := fun i => if i = 1 then 3 else if i = 2 then 5 else 0
  let V : ℕ → ℝ := fun i => if i = 1 then 4 else if i = 2 then 4 else 0
  let M : ℕ → ℕ → ℝ := fun r c => if r = c then 1 else 0
  have w1 : work 1 = 3 := rfl
  have w2 : work 2 = 5 := rfl
  have v1 : V 1 = 4 := rfl
  have v2 : V 2 = 4 := rfl
  obtain ⟨p, s, c, hp0, -, h2, h3, hs, hp⟩ := cancelStep_eq work 0 1 ⟨V, M, 1, 0⟩ (by
    show eps < |1 * work 1|
    rw [w1, one_mul, abs_of_pos (by norm_num)]; exact not_le.1 he)
  simp only [one_mul, w1, v1] at h2 h3 hp
  have hp5 : p = 5 := by
    rw [hp, show (3 : ℝ) ^ 2 + 4 ^ 2 = 5 ^ 2 by norm_num, Real.sqrt_sq (by norm_num)]
  subst hp5
  obtain rfl : c = 4 / 5 := by linarith
  obtain rfl : s = -3 / 5 := by linarith
  obtain ⟨p', s', c', -, -, h2', h3', hs', hp'⟩ := cancelStep_eq work 0 2 ⟨Function.update V 1 5,
    fun r c => if c = 1 then M r 1 * (4 / 5) - M r 0 * (-3 / 5)
      else if c = 0 then M r 0 * (4 / 5) + M r 1 * (-3 / 5) else M r c, -3 / 5, 4 / 5⟩ (by
    show eps < |-3 / 5 * work 2|
    rw [w2, show (-3 / 5 * 5 : ℝ) = -3 by norm_num, abs_neg, abs_of_pos (by norm_num)]; exact not_le.1 he)
  have hv2 : Function.update V 1 5 2 = 4 := by rw [Function.update_of_ne (by omega), v2]
  simp only [w2, hv2] at h2' h3' hp'
  have hp5 : p' = 5 := by
    rw [hp', show (-3 / 5 * 5 : ℝ) ^ 2 + 4 ^ 2 = 5 ^ 2 by norm_num, Real.sqrt_sq (by norm_num)]
  subst hp5
  obtain rfl : c' = 4 / 5 := by linarith
  obtain rfl : s' = 3 / 5 := by linarith
  let M1 : ℕ → ℕ → ℝ := fun r c => if c = 1 then M r 1 * (4 / 5) - M r 0 * (-3 / 5)
    else if c = 0 then M r 0 * (4 / 5) + M r 1 * (-3 / 5) else M r c
  refine ⟨work, V, M, ⟨Function.update (Function.update V 1 5) 2 5,
    fun r c => if c = 2 then M1 r 2 * (4 / 5) - M1 r 0 * (3 / 5)
      else if c = 0 then M1 r 0 * (4 / 5) + M1 r 2 * (3 / 5) else M1 r c, 3 / 5, 4 / 5⟩, ?_, rfl, ?_, rfl, ?_, ?_, ?_⟩
  · have a2 : ¬ (|work 2| ≤ eps) := by rw [w2, abs_of_pos (by norm_num)]; exact he5
    have a1 : ¬ (|work 1| ≤ eps) := by rw [w1, abs_of_pos (by norm_num)]; exact he
    have b1 : ¬ (|V 1| ≤ eps) := by rw [v1, abs_of_pos (by norm_num)]; exact he4
    have b0 : |V 0| ≤ eps := by show |(0 : ℝ)| ≤ eps; rw [abs_zero]; exact eps_pos.le
    simp [search, a2, a1, b1, b0]
  · show cancel work 0 (0 + 1 + 1) 1 _ = _
    rw [cancel, hs]
    show cancel work 0 (0 + 1) 2 _ = _
    rw [cancel, hs']
    rfl
  · unfold Spec.element
    simp only [Function.update_of_ne (show (2 : ℕ) ≠ 1 by omega), Function.update_self, w2, v2]
    norm_num [M1, M]
  · norm_num [Function.update, V, work]
  · norm_num [V, work]

theorem pythag_ne {a b : ℝ} (h : PYTHAG a b ≠ 0) : PYTHAG a b ^ 2 = a ^ 2 + b ^ 2 := by
  have : |b| < |a| ∨ eps < |b| := by
    by_contra hn
    rw [not_or, not_lt, not_lt] at hn
    apply h
    unfold PYTHAG
    rw [if_neg (not_lt.2 hn.1), if_neg (not_not.2 hn.2)]
  rw [pythag_eq this, Real.sq_sqrt (by positivity)]

/-- The shift of a sweep never divides by zero in a block the search has found. -/
theorem shift_defined {V work : ℕ → ℝ} {L k : ℕ} (hw : eps < |work k|) (hk : eps < |V (k - 1)|) (hL : eps < |V L|) :
    ∃ f0, shift V work L k = .ok f0 := by
  have pos : ∀ {x : ℝ}, eps < |x| → x ≠ 0 := fun {x} h h0 => by rw [h0, abs_zero] at h; linarith [eps_pos]
  have h1 : 2 * work k * V (k - 1) ≠ 0 := mul_ne_zero (mul_ne_zero two_ne_zero (pos hw)) (pos hk)
  have h2 : ∀ x : ℝ, x + SIGN (PYTHAG x 1) x ≠ 0 := by
    intro x
    rw [pythag_eq (.inr (by rw [abs_one]; exact eps_lt_one))]
    have : 0 < Real.sqrt (x ^ 2 + 1 ^ 2) := Real.sqrt_pos.2 (by positivity)
    unfold SIGN
    split
    · rw [abs_of_pos this]; linarith
    · rw [abs_of_pos this]; linarith
  unfold shift
  rw [if_neg h1, if_neg (h2 _), if_neg (pos hL)]
  exact ⟨_, rfl⟩

example : ∃ f0, shift (fun _ => 4) (fun _ => 3) 0 1 = .ok f0 :=
  shift_defined (by rw [abs_of_pos (by norm_num)]; linarith [eps_lt_one])
    (by rw [abs_of_pos (by norm_num)]; linarith [eps_lt_one])
    (by rw [abs_of_pos (by norm_num)]; linarith [eps_lt_one])

/-- What one step does. -/
theorem sweepStep_eq {j : ℕ} {st st' : Sw} (h : sweepStep j st = .ok st') : ∃ q1 c s c' s' p1,
    c ^ 2 + s ^ 2 = 1 ∧ c' ^ 2 + s' ^ 2 = 1 ∧ q1 * c = st.f0 ∧ q1 * s = st.f1 * st.work (j + 1) ∧
    (eps < p1 → p1 * c' = st.q2 * c + st.f2 * st.work (j + 1) * s ∧ p1 * s' = st.V (j + 1) * s) ∧
    st' = ⟨Function.update st.V j p1, Function.update st.work j q1, rotated st.M j c' s', rotated st.S j c s,
      c' * (st.f2 * st.work (j + 1) * c - st.q2 * s) + s' * (st.V (j + 1) * c), s', c',
      c' * (st.V (j + 1) * c) - s' * (st.f2 * st.work (j + 1) * c - st.q2 * s)⟩ := by
  unfold sweepStep at h
  by_cases hq : PYTHAG st.f0 (st.f1 * st.work (j + 1)) = 0
  · rw [if_pos hq] at h; exact absurd h (by simp)
  · rw [if_neg hq] at h
    have hq2 := pythag_ne hq
    have hcs : (st.f0 / PYTHAG st.f0 (st.f1 * st.work (j + 1))) ^ 2 +
        (st.f1 * st.work (j + 1) / PYTHAG st.f0 (st.f1 * st.work (j + 1))) ^ 2 = 1 := by
      generalize PYTHAG st.f0 (st.f1 * st.work (j + 1)) = p at hq hq2
      rw [div_pow, div_pow, ← add_div, ← hq2, div_self (pow_ne_zero 2 hq)]
    refine ⟨_, _, _, _, _, _, hcs, ?_, mul_div_cancel₀ _ hq, mul_div_cancel₀ _ hq, ?_, ((Outcome.ok.injEq _ _).mp h).symm⟩
    · by_cases hp : |PYTHAG (st.q2 * (st.f0 / PYTHAG st.f0 (st.f1 * st.work (j + 1))) +
          st.f2 * st.work (j + 1) * (st.f1 * st.work (j + 1) / PYTHAG st.f0 (st.f1 * st.work (j + 1))))
          (st.V (j + 1) * (st.f1 * st.work (j + 1) / PYTHAG st.f0 (st.f1 * st.work (j + 1))))| ≤ eps
      · rw [if_neg (not_not.2 hp), if_neg (not_not.2 hp)]
        exact hcs
      · rw [if_pos hp, if_pos hp]
        have hz : ∀ x : ℝ, ¬ (|x| ≤ eps) → x ≠ 0 := fun x hx h0 => hx (by rw [h0, abs_zero]; exact eps_pos.le)
        have hp0 := hz _ hp
        have hp2 := pythag_ne hp0
        generalize PYTHAG (st.q2 * (st.f0 / PYTHAG st.f0 (st.f1 * st.work (j + 1))) +
          st.f2 * st.work (j + 1) * (st.f1 * st.work (j + 1) / PYTHAG st.f0 (st.f1 * st.work (j + 1))))
          (st.V (j + 1) * (st.f1 * st.work (j + 1) / PYTHAG st.f0 (st.f1 * st.work (j + 1)))) = p at hp0 hp2
        rw [mul_one_div, mul_one_div, div_pow, div_pow, ← add_div, ← hp2, div_self (pow_ne_zero 2 hp0)]
    · intro hp
      have hp' := not_le.2 (hp.trans_le (le_abs_self _))
      have hp0 := (eps_pos.trans hp).ne'
      rw [if_pos hp', if_pos hp', mul_one_div, mul_one_div, mul_div_cancel₀ _ hp0, mul_div_cancel₀ _ hp0]
      exact ⟨rfl, rfl⟩

theorem dot_rotated {n j : ℕ} (hj : j + 1 < n) {c s : ℝ} (h1 : c ^ 2 + s ^ 2 = 1) (M : ℕ → ℕ → ℝ) (r r' : ℕ) :
    Spec.dot n (rotated M j c s r) (rotated M j c s r') = Spec.dot n (M r) (M r') := by
  have h := dot_rot (n := n) (i := j + 1) (j := j) hj (by omega) (by omega) (s := s) (c := c)
    (by linear_combination h1) (M r) (M r')
  rw [← h]
  unfold Spec.dot
  refine sum_congr rfl fun k _ => ?_
  unfold rotated
  by_cases h1 : k = j
  · subst h1; simp; ring
  · by_cases h2 : k = j + 1
    · subst h2; simp; ring
    · simp [h1, h2]

theorem sweepLoop_orthogonal {n : ℕ} : ∀ (left j : ℕ) {st st' : Sw}, j + left < n → sweepLoop left j st = .ok st' →
    ∀ r r', Spec.dot n (st'.M r) (st'.M r') = Spec.dot n (st.M r) (st.M r') ∧
      Spec.dot n (st'.S r) (st'.S r') = Spec.dot n (st.S r) (st.S r') := by
  intro left
  induction left with
  | zero =>
    intro j st st' _ h r r'
    cases h
    exact ⟨rfl, rfl⟩
  | succ left ih =>
    intro j st st' hj h r r'
    rw [sweepLoop] at h
    cases hs : sweepStep j st with
    | ok st1 =>
      rw [hs] at h
      obtain ⟨q1, c, s, c', s', p1, h1, h2, -, -, -, rfl⟩ := sweepStep_eq hs
      obtain ⟨ha, hb⟩ := ih (j + 1) (by omega) h r r'
      exact ⟨ha.trans (dot_rotated (by omega) h2 _ _ _), hb.trans (dot_rotated (by omega) h1 _ _ _)⟩
    | throw e => exact e.elim
    | ub => rw [hs] at h; cases h

theorem sweepLoop_frame : ∀ (left j : ℕ) {st st' : Sw}, sweepLoop left j st = .ok st' → ∀ i < j, st'.V i = st.V i := by
  intro left
  induction left with
  | zero =>
    intro j st st' h i _
    cases h
    rfl
  | succ left ih =>
    intro j st st' h i hi
    rw [sweepLoop] at h
    cases hs : sweepStep j st with
    | ok st1 =>
      rw [hs] at h
      obtain ⟨q1, c, s, c', s', p1, -, -, -, -, -, rfl⟩ := sweepStep_eq hs
      rw [ih (j + 1) h i (by omega)]
      exact Function.update_of_ne (by omega) _ _
    | throw e => exact e.elim
    | ub => rw [hs] at h; cases h

/-- The columns of `M B` in the course of a sweep, of which the column `j` has the elements `q2` and `f0`, and the next one an
element outside the two diagonals. -/
def column (L j : ℕ) (t : ℝ) (st : Sw) (u : ℕ → ℝ) (i : ℕ) : ℝ :=
  if i = j then st.q2 * u j + t * st.f0 * u (j - 1)
  else if i = j + 1 then st.V (j + 1) * u (j + 1) + st.f2 * st.work (j + 1) * u j + t * st.f1 * st.work (j + 1) * u (j - 1)
  else Spec.element st.V (Function.update st.work L 0) u i

theorem step_product {n L j : ℕ} (hL : L ≤ j) (hj : j + 1 < n) {st st' : Sw} (h : sweepStep j st = .ok st')
    (hV : eps < st'.V j) (t : ℝ) (ht : t = if j = L then 0 else 1) (a b : ℕ) :
    ∑ i ∈ range n, st'.S b i * column L (j + 1) 1 st' (st'.M a) i = ∑ i ∈ range n, st.S b i * column L j t st (st.M a) i := by
  obtain ⟨q1, c, s, c', s', p1, h1, h2, h3, h4, h5, rfl⟩ := sweepStep_eq h
  simp only [Function.update_self] at hV
  obtain ⟨h5, h6⟩ := h5 hV
  have key : ∀ f : ℕ → ℝ, ∑ k ∈ range n, f k =
      ∑ k ∈ (range n).filter (fun k => k ≠ j ∧ k ≠ j + 1), f k + (f j + f (j + 1)) := by
    intro f
    rw [← sum_filter_add_sum_filter_not (range n) (fun k => k ≠ j ∧ k ≠ j + 1)]
    congr 1
    have : (range n).filter (fun k => ¬ (k ≠ j ∧ k ≠ j + 1)) = {j, j + 1} := by
      ext k; simp only [mem_filter, mem_range, mem_insert, mem_singleton]; omega
    rw [this, sum_pair (by omega)]
  rw [key, key (fun i => st.S b i * column L j t st (st.M a) i)]
  congr 1
  · refine sum_congr rfl fun k hk => ?_
    obtain ⟨k1, k2⟩ := (mem_filter.1 hk).2
    have e1 : rotated st.S j c s b k = st.S b k := by simp [rotated, k1, k2]
    have e2 : rotated st.M j c' s' a k = st.M a k := by simp [rotated, k1, k2]
    simp only [e1]
    congr 1
    unfold column
    rw [if_neg k2, if_neg k1, if_neg k2]
    by_cases k3 : k = j + 1 + 1
    · subst k3
      rw [if_pos rfl]
      have e3 : rotated st.M j c' s' a (j + 1) = c' * st.M a (j + 1) - s' * st.M a j := by simp [rotated]
      have e4 : rotated st.M j c' s' a j = c' * st.M a j + s' * st.M a (j + 1) := by simp [rotated]
      have e5 : ¬ (j + 1 + 1 = 0) := by omega
      simp only [Function.update_of_ne (show j + 1 + 1 ≠ j by omega), Spec.element, e5, if_false,
        Function.update_of_ne (show j + 1 + 1 ≠ L by omega), Nat.add_sub_cancel, e2, e3, e4]
      linear_combination st.work (j + 1 + 1) * st.M a (j + 1) * h2
    · rw [if_neg k3]
      unfold Spec.element
      simp only [e2, Function.update_of_ne k1]
      congr 1
      by_cases k0 : k = 0
      · simp [k0]
      · simp only [k0, if_false]
        have e6 : rotated st.M j c' s' a (k - 1) = st.M a (k - 1) := by
          have : k - 1 ≠ j := by omega
          have : k - 1 ≠ j + 1 := by omega
          simp [rotated, *]
        rw [e6]
        by_cases kL : k = L
        · simp [kL]
        · rw [Function.update_of_ne kL, Function.update_of_ne kL, Function.update_of_ne k1]
  · have e3 : rotated st.M j c' s' a (j + 1) = c' * st.M a (j + 1) - s' * st.M a j := by simp [rotated]
    have e4 : rotated st.M j c' s' a j = c' * st.M a j + s' * st.M a (j + 1) := by simp [rotated]
    have e7 : rotated st.S j c s b (j + 1) = c * st.S b (j + 1) - s * st.S b j := by simp [rotated]
    have e8 : rotated st.S j c s b j = c * st.S b j + s * st.S b (j + 1) := by simp [rotated]
    have e9 : (if j = 0 then 0 else Function.update (Function.update st.work j q1) L 0 j *
        rotated st.M j c' s' a (j - 1)) = t * q1 * st.M a (j - 1) := by
      subst ht
      by_cases jL : j = L
      · simp [jL]
      · have j0 : j ≠ 0 := by omega
        have j1 : j - 1 ≠ j := by omega
        have j2 : j - 1 ≠ j + 1 := by omega
        rw [if_neg j0, Function.update_of_ne jL, Function.update_self, if_neg jL]
        simp [rotated, j1, j2]
    have c1 : ∀ x y : ℝ, (if j = j + 1 then x else y) = y := fun x y => if_neg (by omega)
    have c2 : ∀ x y : ℝ, (if j = j + 1 + 1 then x else y) = y := fun x y => if_neg (by omega)
    have c3 : ∀ x y : ℝ, (if j + 1 = j then x else y) = y := fun x y => if_neg (by omega)
    simp only [column, c1, c2, c3, if_true, Spec.element, e9, Function.update_self, e3, e4, e7, e8, Nat.add_sub_cancel,
      one_mul]
    linear_combination (c * st.S b j + s * st.S b (j + 1)) * (st.M a j * h5 + st.M a (j + 1) * h6) +
      t * st.M a (j - 1) * (st.S b j * h3 + st.S b (j + 1) * h4) +
      (c * st.S b (j + 1) - s * st.S b j) * ((st.f2 * st.work (j + 1) * c - st.q2 * s) * st.M a j +
        st.V (j + 1) * c * st.M a (j + 1)) * h2 +
      (st.S b j * st.q2 * st.M a j + st.S b (j + 1) * (st.f2 * st.work (j + 1)) * st.M a j +
        st.S b (j + 1) * st.V (j + 1) * st.M a (j + 1)) * h1

theorem sweepLoop_work : ∀ (left j : ℕ) {st st' : Sw}, sweepLoop left j st = .ok st' →
    ∀ i, j + left ≤ i → st'.work i = st.work i ∧ st'.V i = st.V i := by
  intro left
  induction left with
  | zero =>
    intro j st st' h i _
    cases h
    exact ⟨rfl, rfl⟩
  | succ left ih =>
    intro j st st' h i hi
    rw [sweepLoop] at h
    cases hs : sweepStep j st with
    | ok st1 =>
      rw [hs] at h
      obtain ⟨q1, c, s, c', s', p1, -, -, -, -, -, rfl⟩ := sweepStep_eq hs
      obtain ⟨h1, h2⟩ := ih (j + 1) h i (by omega)
      rw [h1, h2]
      exact ⟨Function.update_of_ne (by omega) _ _, Function.update_of_ne (by omega) _ _⟩
    | throw e => exact e.elim
    | ub => rw [hs] at h; cases h

theorem sweepLoop_work_below : ∀ (left j : ℕ) {st st' : Sw}, sweepLoop left j st = .ok st' →
    ∀ i < j, st'.work i = st.work i := by
  intro left
  induction left with
  | zero =>
    intro j st st' h i _
    cases h
    rfl
  | succ left ih =>
    intro j st st' h i hi
    rw [sweepLoop] at h
    cases hs : sweepStep j st with
    | ok st1 =>
      rw [hs] at h
      obtain ⟨q1, c, s, c', s', p1, -, -, -, -, -, rfl⟩ := sweepStep_eq hs
      rw [ih (j + 1) h i (by omega)]
      exact Function.update_of_ne (by omega) _ _
    | throw e => exact e.elim
    | ub => rw [hs] at h; cases h

theorem sweepLoop_product {n L : ℕ} (a b : ℕ) : ∀ (left j : ℕ) {st st' : Sw}, L ≤ j → j + left < n →
    sweepLoop left j st = .ok st' → (∀ i, j ≤ i → i < j + left → eps < st'.V i) →
    ∑ i ∈ range n, st'.S b i * column L (j + left) (if j + left = L then 0 else 1) st' (st'.M a) i =
      ∑ i ∈ range n, st.S b i * column L j (if j = L then 0 else 1) st (st.M a) i := by
  intro left
  induction left with
  | zero =>
    intro j st st' _ _ h _
    cases h
    rfl
  | succ left ih =>
    intro j st st' hL hj h hV
    rw [sweepLoop] at h
    cases hs : sweepStep j st with
    | ok st1 =>
      rw [hs] at h
      have h1 := ih (j + 1) (by omega) (by omega) h (fun i h1 h2 => hV i (by omega) (by omega))
      rw [show j + 1 + left = j + (left + 1) by omega, if_neg (show ¬ (j + 1 = L) by omega)] at h1
      refine h1.trans (step_product hL (by omega) hs ?_ _ rfl a b)
      have := sweepLoop_frame left (j + 1) h j (by omega)
      rw [← this]
      exact hV j le_rfl (by omega)
    | throw e => exact e.elim
    | ub => rw [hs] at h; cases h

theorem sweep_inv {V work : ℕ → ℝ} {M S : ℕ → ℕ → ℝ} {L k : ℕ} {st' : Sw} (h : sweep V work M S L k = .ok st') :
    ∃ f0 st, shift V work L k = .ok f0 ∧ sweepLoop (k - L) L ⟨V, work, M, S, f0, 1, 1, V L⟩ = .ok st ∧
      st' = sweepEnd L k st := by
  unfold sweep at h
  cases hs : shift V work L k with
  | ok f0 =>
    rw [hs] at h
    change (sweepLoop (k - L) L ⟨V, work, M, S, f0, 1, 1, V L⟩).bind _ = _ at h
    cases hl : sweepLoop (k - L) L ⟨V, work, M, S, f0, 1, 1, V L⟩ with
    | ok st =>
      rw [hl] at h
      exact ⟨f0, st, rfl, hl, ((Outcome.ok.injEq _ _).mp h).symm⟩
    | throw e => exact e.elim
    | ub => rw [hl] at h; cases h
  | throw e => exact e.elim
  | ub => rw [hs] at h; cases h

/-- A sweep keeps the products of all pairs of rows of both matrices of vectors. -/
theorem sweep_orthogonal {V work : ℕ → ℝ} {M S : ℕ → ℕ → ℝ} {L k n : ℕ} {st' : Sw} (hL : L < k) (hk : k < n)
    (h : sweep V work M S L k = .ok st') (r r' : ℕ) :
    Spec.dot n (st'.M r) (st'.M r') = Spec.dot n (M r) (M r') ∧
      Spec.dot n (st'.S r) (st'.S r') = Spec.dot n (S r) (S r') := by
  obtain ⟨f0, st, -, hl, rfl⟩ := sweep_inv h
  exact sweepLoop_orthogonal (k - L) L (by omega) hl r r'

/-- A sweep over a block keeps the product of the left vectors, the bidiagonal matrix and the right vectors, in every
element, with the element of `work` before the block taken as zero; provided that no singular value of the block, apart from
the last one, has become small. -/
theorem sweep_product {V work : ℕ → ℝ} {M S : ℕ → ℕ → ℝ} {L k n : ℕ} {st' : Sw} (hL : L < k) (hk : k < n)
    (hnext : k + 1 < n → work (k + 1) = 0) (h : sweep V work M S L k = .ok st')
    (hV : ∀ i, L ≤ i → i < k → eps < st'.V i) (a b : ℕ) :
    Spec.product n st'.V st'.work (st'.M a) (st'.S b) = Spec.product n V (Function.update work L 0) (M a) (S b) := by
  obtain ⟨f0, st, -, hl, rfl⟩ := sweep_inv h
  have hp := sweepLoop_product (n := n) a b (k - L) L le_rfl (by omega) hl (fun i h1 h2 => by
    have := hV i h1 (by omega)
    have h3 : (sweepEnd L k st).V i = st.V i := Function.update_of_ne (by omega) _ _
    rwa [h3] at this)
  rw [show L + (k - L) = k by omega, if_neg (by omega), if_pos rfl] at hp
  have hw := fun h' => ((sweepLoop_work (k - L) L hl (k + 1) (by omega)).1).trans (hnext h')
  unfold Spec.product
  refine (sum_congr rfl fun i hi => ?_).trans (hp.trans (sum_congr rfl fun i hi => ?_))
  · show st.S b i * _ = st.S b i * _
    congr 1
    have hin := mem_range.1 hi
    have hk0 : k ≠ 0 := by omega
    unfold column sweepEnd Spec.element
    by_cases h1 : i = k
    · subst h1
      simp [hk0]
    · by_cases h2 : i = k + 1
      · subst h2
        have := hw hin
        have h3 : k + 1 ≠ L := by omega
        simp [this, h3]
      · simp [h1, h2]
  · congr 1
    unfold column Spec.element
    by_cases h1 : i = L
    · subst h1
      simp
    · by_cases h2 : i = L + 1
      · subst h2
        simp
      · simp [h1, h2]

/-- The hypotheses are met by the diagonal `2, 0` with the element `1` between. -/
example : ∃ st', sweep (fun i => if i = 0 then 2 else 0) (fun i => if i = 1 then 1 else 0)
    (fun r c => if r = c then 1 else 0) (fun r c => if r = c then 1 else 0) 0 1 = .ok st' ∧
    ∀ i, 0 ≤ i → i < 1 → eps < st'.V i := by
  have e1 := eps_lt_one
  have p1 : PYTHAG (3 / 4) 1 = 5 / 4 := by
    rw [pythag_eq (.inr (by rw [abs_one]; exact e1)), show ((3 : ℝ) / 4) ^ 2 + 1 ^ 2 = (5 / 4) ^ 2 by norm_num,
      Real.sqrt_sq (by norm_num)]
  have hs : shift (fun i => if i = 0 then 2 else 0) (fun i => if i = 1 then 1 else 0) 0 1 = .ok 2 := by
    have h1 : ((2 - 0) * (2 + 0) + (0 - 1) * (0 + 1)) / (2 * 1 * 2) = (3 / 4 : ℝ) := by norm_num
    unfold shift
    simp only [Nat.sub_self, if_true, one_ne_zero, zero_ne_one, if_false, h1, p1]
    norm_num [SIGN]
  have r0 : 0 < Real.sqrt 5 := Real.sqrt_pos.2 (by norm_num)
  have r2 : Real.sqrt 5 ^ 2 = 5 := Real.sq_sqrt (by norm_num)
  have r1 : 1 < Real.sqrt 5 := by nlinarith
  have p2 : PYTHAG 2 1 = Real.sqrt 5 := by
    rw [pythag_eq (.inr (by rw [abs_one]; exact e1)), show (2 : ℝ) ^ 2 + 1 ^ 2 = 5 by norm_num]
  have f5 : 2 * (2 / Real.sqrt 5) + 1 / Real.sqrt 5 = Real.sqrt 5 := by
    field_simp
    linear_combination -r2
  have p3 : PYTHAG (Real.sqrt 5) 0 = Real.sqrt 5 := by
    rw [pythag_eq (.inl (by rw [abs_zero, abs_of_pos r0]; exact r0)), show Real.sqrt 5 ^ 2 + 0 ^ 2 = 5 by rw [r2]; norm_num]
  unfold sweep
  rw [hs]
  simp only [Outcome.bind, sweepLoop, sweepStep, Nat.sub_zero, if_true, if_false, one_mul, mul_one, one_ne_zero, zero_add,
    p2, r0.ne', zero_mul, f5, p3]
  refine ⟨_, rfl, fun i _ hi => ?_⟩
  obtain rfl : i = 0 := by omega
  simpa [sweepEnd] using e1.trans r1

theorem bind_ok {ε α β : Type} {x : Outcome ε α} {f : α → Outcome ε β} {b : β} (h : x.bind f = .ok b) :
    ∃ a, x = .ok a ∧ f a = .ok b := by
  cases x with
  | ok a => exact ⟨a, rfl, h⟩
  | throw e => cases h
  | ub => cases h

theorem lift_ok {α : Type} {x : Outcome Empty α} {a : α} (h : lift x = .ok a) : x = .ok a := by
  cases x with
  | ok b => exact congrArg Outcome.ok ((Outcome.ok.injEq _ _).mp h)
  | throw e => exact e.elim
  | ub => cases h

theorem cancel_frame (work : ℕ → ℝ) (rem : ℕ) : ∀ (left i : ℕ) {st st' : St}, cancel work rem left i st = .ok st' →
    ∀ m, i + left ≤ m → st'.V m = st.V m := by
  intro left
  induction left with
  | zero => intro i st st' h m _; cases h; rfl
  | succ left ih =>
    intro i st st' h m hm
    rw [cancel] at h
    obtain ⟨st1, h1, h2⟩ := bind_ok h
    rw [ih (i + 1) h2 m (by omega)]
    rcases lt_or_ge eps |st.f1 * work i| with h | h
    · obtain ⟨f3, f1, f2, -, -, -, -, hs, -⟩ := cancelStep_eq work rem i st h
      rw [hs] at h1
      cases h1
      exact Function.update_of_ne (by omega) _ _
    · unfold cancelStep at h1
      rw [if_neg (not_not.2 h)] at h1
      cases h1
      rfl

/-- What is kept by a try for `k`. -/
structure Kept (n k : ℕ) (st st' : Parts) : Prop where
  above : ∀ m, k < m → st'.V m = st.V m
  left : ∀ r r', Spec.dot n (st'.M r) (st'.M r') = Spec.dot n (st.M r) (st.M r')
  right : ∀ r r', Spec.dot n (st'.S r) (st'.S r') = Spec.dot n (st.S r) (st.S r')
  zero : st'.work 0 = st.work 0

theorem Kept.trans {n k : ℕ} {a b c : Parts} (h : Kept n k a b) (h' : Kept n k b c) : Kept n k a c :=
  ⟨fun m hm => (h'.above m hm).trans (h.above m hm), fun r r' => (h'.left r r').trans (h.left r r'),
    fun r r' => (h'.right r r').trans (h.right r r'), h'.zero.trans h.zero⟩

theorem positive_kept (n k : ℕ) (st : Parts) : Kept n k st (positive k st) ∧ 0 ≤ (positive k st).V k := by
  unfold positive
  split
  next h =>
    refine ⟨⟨fun m hm => Function.update_of_ne (by omega) _ _, fun _ _ => rfl, fun r r' => ?_, rfl⟩, ?_⟩
    · refine sum_congr rfl fun i _ => ?_
      by_cases hi : i = k
      · simp [hi]
      · simp [hi]
    · simp only [Function.update_self]; linarith
  next h => exact ⟨⟨fun _ _ => rfl, fun _ _ => rfl, fun _ _ => rfl, rfl⟩, not_lt.1 h⟩

theorem rest_kept {n L k : ℕ} (hL : L ≤ k) (hk : k < n) {st : Parts} (h0 : st.work 0 = 0) {r : Parts × Bool}
    (h : rest L k st = .ok r) : Kept n k st r.1 ∧ (r.2 = true → 0 ≤ r.1.V k) := by
  unfold rest at h
  split at h
  · cases h
    exact ⟨(positive_kept n k st).1, fun _ => (positive_kept n k st).2⟩
  next hLk =>
    obtain ⟨sw, h1, h2⟩ := bind_ok h
    cases h2
    have h1 := lift_ok h1
    have ho := sweep_orthogonal (n := n) (by omega) hk h1
    obtain ⟨f0, s, -, hl, rfl⟩ := sweep_inv h1
    refine ⟨⟨fun m hm => ?_, fun r r' => (ho r r').1, fun r r' => (ho r r').2, ?_⟩, fun h => by cases h⟩
    · show Function.update s.V k s.q2 m = _
      rw [Function.update_of_ne (by omega)]
      exact (sweepLoop_work (k - L) L hl m (by omega)).2
    · show Function.update (Function.update s.work L 0) k s.f0 0 = _
      rw [Function.update_of_ne (by omega)]
      by_cases hz : L = 0
      · subst hz; rw [Function.update_self, h0]
      · rw [Function.update_of_ne (by omega)]
        exact sweepLoop_work_below (k - L) L hl 0 (by omega)

theorem once_kept {n k : ℕ} (hk : k < n) {st : Parts} (h0 : st.work 0 = 0) {r : Parts × Bool} (h : once k st = .ok r) :
    Kept n k st r.1 ∧ (r.2 = true → 0 ≤ r.1.V k) := by
  obtain ⟨L, hL, -, hs⟩ := search_spec (V := st.V) h0 k
  unfold once at h
  rcases hs with ⟨hs, -⟩ | ⟨hs, hpos, -, -⟩
  · rw [hs] at h
    exact rest_kept hL hk h0 h
  · rw [hs] at h
    obtain ⟨c, h1, h2⟩ := bind_ok h
    have h1 := lift_ok h1
    obtain ⟨c', hc, hd⟩ := cancel_orthogonal st.work (n := n) (rem := L - 1) (k + 1 - L) L ⟨st.V, st.M, 1, 0⟩ (by omega)
      (by omega)
    unfold cancelAll at h1
    rw [hc] at h1
    cases h1
    obtain ⟨ha, hb⟩ := rest_kept (st := ⟨c.V, st.work, c.M, st.S⟩) hL hk h0 h2
    refine ⟨Kept.trans (b := ⟨c.V, st.work, c.M, st.S⟩) ⟨fun m hm => ?_, hd, fun _ _ => rfl, rfl⟩ ha, hb⟩
    exact cancel_frame st.work (L - 1) (k + 1 - L) L hc m (by omega)

theorem tries_kept {n k : ℕ} (hk : k < n) : ∀ (ntry : ℕ) {st st' : Parts}, st.work 0 = 0 → tries k ntry st = .ok st' →
    Kept n k st st' ∧ 0 ≤ st'.V k := by
  intro ntry
  induction ntry with
  | zero => intro st st' _ h; cases h
  | succ ntry ih =>
    intro st st' h0 h
    rw [tries] at h
    obtain ⟨r, h1, h2⟩ := bind_ok h
    obtain ⟨ha, hb⟩ := once_kept hk h0 h1
    by_cases hr : r.2 = true
    · rw [if_pos hr] at h2
      cases h2
      exact ⟨ha, hb hr⟩
    · rw [if_neg hr] at h2
      obtain ⟨hc, hd⟩ := ih (ha.zero.trans h0) h2
      exact ⟨ha.trans hc, hd⟩

/-- When `SVD` returns, no singular value is negative, and the products of all pairs of rows of both matrices of vectors are
those after the first part. -/
theorem second_nonneg {n : ℕ} : ∀ (k : ℕ) {st st' : Parts}, k < n → st.work 0 = 0 → second k st = .ok st' →
    (∀ i ≤ k, 0 ≤ st'.V i) ∧ ∀ r r', Spec.dot n (st'.M r) (st'.M r') = Spec.dot n (st.M r) (st.M r') ∧
      Spec.dot n (st'.S r) (st'.S r') = Spec.dot n (st.S r) (st.S r') := by
  suffices h : ∀ (k : ℕ) {st st' : Parts}, k < n → st.work 0 = 0 → second k st = .ok st' →
      (∀ i ≤ k, 0 ≤ st'.V i) ∧ Kept n k st st' from fun k st st' h1 h2 h3 =>
    ⟨(h k h1 h2 h3).1, fun r r' => ⟨(h k h1 h2 h3).2.left r r', (h k h1 h2 h3).2.right r r'⟩⟩
  intro k
  induction k with
  | zero =>
    intro st st' hk h0 h
    obtain ⟨h1, h2⟩ := tries_kept hk 30 h0 h
    exact ⟨fun i hi => by rwa [Nat.le_zero.1 hi], h1⟩
  | succ k ih =>
    intro st st' hk h0 h
    rw [second] at h
    obtain ⟨st1, h1, h2⟩ := bind_ok h
    obtain ⟨ha, hb⟩ := tries_kept hk 30 h0 h1
    obtain ⟨hc, hd⟩ := ih (by omega) (ha.zero.trans h0) h2
    refine ⟨fun i hi => ?_, ⟨fun m hm => (hd.above m (by omega)).trans (ha.above m hm),
      fun r r' => (hd.left r r').trans (ha.left r r'), fun r r' => (hd.right r r').trans (ha.right r r'),
      hd.zero.trans ha.zero⟩⟩
    rcases Nat.lt_or_ge k i with h | h
    · obtain rfl : i = k + 1 := by omega
      rw [hd.above _ (by omega)]
      exact hb
    · exact hc i h

/-- `SVD` never reads before the first singular value. -/
theorem second_range {n : ℕ} : ∀ (k : ℕ) {st : Parts}, k < n → st.work 0 = 0 → second k st ≠ .throw .range := by
  have h1 : ∀ (k : ℕ) {st : Parts}, st.work 0 = 0 → once k st ≠ .throw .range := by
    intro k st h0 h
    obtain ⟨L, hL, -, hs⟩ := search_spec (V := st.V) h0 k
    have hl : ∀ {α : Type} (x : Outcome Empty α), lift x ≠ .throw .range := fun x => by
      cases x with
      | ok a => exact fun h => by cases h
      | throw e => exact e.elim
      | ub => exact fun h => by cases h
    have hr : ∀ st, rest L k st ≠ .throw .range := by
      intro st h
      unfold rest at h
      split at h
      · cases h
      · cases hx : lift (sweep st.V st.work st.M st.S L k) with
        | ok a => rw [hx] at h; cases h
        | throw e => rw [hx] at h; cases h; exact hl _ hx
        | ub => rw [hx] at h; cases h
    unfold once at h
    rcases hs with ⟨hs, -⟩ | ⟨hs, -, -, -⟩
    · rw [hs] at h; exact hr _ h
    · rw [hs] at h
      cases hx : lift (cancelAll st.work L k st.V st.M) with
      | ok a => simp only [hx] at h; exact hr _ h
      | throw e => simp only [hx] at h; cases h; exact hl _ hx
      | ub => simp only [hx] at h; cases h
  have h2 : ∀ (k : ℕ), k < n → ∀ (ntry : ℕ) {st : Parts}, st.work 0 = 0 → tries k ntry st ≠ .throw .range := by
    intro k hk ntry
    induction ntry with
    | zero => intro st _ h; cases h
    | succ ntry ih =>
      intro st h0 h
      rw [tries] at h
      cases hx : once k st with
      | ok r =>
        rw [hx] at h
        change (if r.2 = true then Outcome.ok r.1 else tries k ntry r.1) = _ at h
        split at h
        · cases h
        · exact ih ((once_kept hk h0 hx).1.zero.trans h0) h
      | throw e => rw [hx] at h; cases h; exact h1 k h0 hx
      | ub => rw [hx] at h; cases h
  intro k
  induction k with
  | zero => intro st hk h0; exact h2 0 hk 30 h0
  | succ k ih =>
    intro st hk h0 h
    rw [second] at h
    cases hx : tries (k + 1) 30 st with
    | ok r => rw [hx] at h; exact ih (by omega) ((tries_kept hk 30 h0 hx).1.zero.trans h0) h
    | throw e => rw [hx] at h; cases h; exact h2 (k + 1) hk 30 h0 hx
    | ub => rw [hx] at h; cases h

/-- A diagonal matrix is decomposed at once: the singular values are the absolute values, and the product of the left
vectors, the diagonal and the right vectors is what it was. -/
theorem second_diagonal {n : ℕ} : ∀ (k : ℕ) (st : Parts), k < n → (∀ i, st.work i = 0) → ∃ st', second k st = .ok st' ∧
    (∀ i, st'.V i = if i ≤ k then |st.V i| else st.V i) ∧ (∀ i, st'.work i = 0) ∧ st'.M = st.M ∧
    ∀ r i, st'.V i * st'.S r i = st.V i * st.S r i := by
  have h1 : ∀ k (st : Parts), (∀ i, st.work i = 0) → tries k 30 st = .ok (positive k st) := by
    intro k st h0
    have hs : search st.V st.work k = .split k := by
      cases k with
      | zero => simp [search, h0, eps_pos.le]
      | succ k => simp [search, h0, eps_pos.le]
    have : once k st = .ok (positive k st, true) := by
      unfold once
      rw [hs]
      exact if_pos rfl
    show tries k (29 + 1) st = _
    rw [tries, this]
    rfl
  have h2 : ∀ k (st : Parts), (∀ i, (positive k st).V i = if i = k then |st.V i| else st.V i) ∧
      (positive k st).work = st.work ∧ (positive k st).M = st.M ∧
      ∀ r i, (positive k st).V i * (positive k st).S r i = st.V i * st.S r i := by
    intro k st
    unfold positive
    split
    next h =>
      refine ⟨fun i => ?_, rfl, rfl, fun r i => ?_⟩
      · by_cases hi : i = k
        · subst hi; simp [abs_of_neg h]
        · simp [hi]
      · by_cases hi : i = k
        · subst hi; simp
        · simp [hi]
    next h =>
      refine ⟨fun i => ?_, rfl, rfl, fun _ _ => rfl⟩
      by_cases hi : i = k
      · subst hi; simp [abs_of_nonneg (not_lt.1 h)]
      · simp [hi]
  intro k
  induction k with
  | zero =>
    intro st hk h0
    obtain ⟨ha, hb, hc, hd⟩ := h2 0 st
    exact ⟨_, h1 0 st h0, fun i => by rw [ha]; simp, fun i => by rw [hb, h0], hc, hd⟩
  | succ k ih =>
    intro st hk h0
    obtain ⟨ha, hb, hc, hd⟩ := h2 (k + 1) st
    obtain ⟨st', he, hV, hw, hM, hS⟩ := ih (positive (k + 1) st) (by omega) (fun i => by rw [hb, h0])
    refine ⟨st', ?_, fun i => ?_, hw, hM.trans hc, fun r i => (hS r i).trans (hd r i)⟩
    · rw [second, h1 _ _ h0]
      exact he
    · rw [hV, ha]
      by_cases h3 : i = k + 1
      · subst h3; simp
      · by_cases h4 : i ≤ k
        · simp [h3, h4, Nat.le_succ_of_le h4]
        · have : ¬ (i ≤ k + 1) := by omega
          simp [h3, h4, this]

/-- The hypotheses of `second_nonneg` are met by the diagonal `1, -2`, which becomes `1, 2`. -/
example : ∃ st', second 1 ⟨fun i => if i = 0 then 1 else -2, fun _ => 0, fun r c => if r = c then 1 else 0,
    fun r c => if r = c then 1 else 0⟩ = .ok st' ∧ st'.V 0 = 1 ∧ st'.V 1 = 2 := by
  obtain ⟨st', h, hV, -⟩ := second_diagonal (n := 2) 1 ⟨fun i => if i = 0 then 1 else -2, fun _ => 0,
    fun r c => if r = c then 1 else 0, fun r c => if r = c then 1 else 0⟩ (by omega) (fun _ => rfl)
  exact ⟨st', h, by rw [hV]; simp, by rw [hV]; simp⟩

theorem cancel_loop {work : ℕ → ℝ} {rem : ℕ} : ∀ (left i : ℕ) {st st' : St} {E : ℕ → ℝ}, rem < i →
    cancel work rem left i st = .ok st' → st.V rem = 0 → E (rem + 1) = 0 → (∀ c, i < c → E c = work c) →
    work (i + left) = 0 → (∀ m, i ≤ m → m < i + left → st'.V m ≠ st.V m) →
    ∃ E' : ℕ → ℝ, (∀ c ≤ i, E' c = E c) ∧ (∀ c, i + left ≤ c → i < c → E' c = work c) ∧
      (∀ m, i < m → m < i + left → E' m * st'.V (m - 1) = work m * st.V (m - 1)) ∧
      (∀ m < i, st'.V m = st.V m) ∧
      ∀ r c, Spec.element st'.V E' (st'.M r) c =
        Spec.element st.V E (st.M r) c + if c = i then st.f1 * work i * st.M r rem else 0 := by
  intro left
  induction left with
  | zero =>
    intro i st st' E _ h _ _ hE hw _
    cases h
    refine ⟨E, fun _ _ => rfl, fun c _ h => hE c h, fun m h1 h2 => by omega, fun _ _ => rfl, fun r c => ?_⟩
    rw [Nat.add_zero] at hw
    simp [hw]
  | succ left ih =>
    intro i st st' E hr h hV0 hE0 hE hw hne
    rw [cancel] at h
    obtain ⟨st1, h1, h2⟩ := bind_ok h
    have hV1 : st'.V i = st1.V i := by
      have hb : ∀ (left i : ℕ) {st st' : St}, cancel work rem left i st = .ok st' → ∀ m < i, st'.V m = st.V m := by
        intro left
        induction left with
        | zero => intro i st st' h m _; cases h; rfl
        | succ left ih =>
          intro i st st' h m hm
          rw [cancel] at h
          obtain ⟨s1, g1, g2⟩ := bind_ok h
          rw [ih (i + 1) g2 m (by omega)]
          rcases lt_or_ge eps |st.f1 * work i| with h | h
          · obtain ⟨f3, f1, f2, -, -, -, -, hs, -⟩ := cancelStep_eq work rem i st h
            rw [hs] at g1
            cases g1
            exact Function.update_of_ne (by omega) _ _
          · unfold cancelStep at g1
            rw [if_neg (not_not.2 h)] at g1
            cases g1
            rfl
      exact hb left (i + 1) h2 i (by omega)
    have hi := hne i le_rfl (by omega)
    rw [hV1] at hi
    rcases lt_or_ge eps |st.f1 * work i| with hs | hs
    swap
    · unfold cancelStep at h1
      rw [if_neg (not_not.2 hs)] at h1
      cases h1
      exact absurd rfl hi
    obtain ⟨f3, f1, f2, hf3, hu, hc, hs', he, -⟩ := cancelStep_eq work rem i st hs
    rw [he] at h1
    cases h1
    obtain ⟨E', e1, e2, e3, e4, e5⟩ := ih (i + 1) (E := Function.update E (i + 1) (f2 * work (i + 1))) (by omega) h2
      (by simpa [Function.update_of_ne (show rem ≠ i by omega)] using hV0)
      (by rw [Function.update_of_ne (by omega)]; exact hE0)
      (fun c hc => by rw [Function.update_of_ne (by omega)]; exact hE c (by omega))
      (by rw [← hw]; congr 1; omega)
      (fun m m1 m2 => by
        have := hne m (by omega) (by omega)
        simpa [Function.update_of_ne (show m ≠ i by omega)] using this)
    simp only at e3 e4 e5
    refine ⟨E', fun c hc => ?_, fun c h1 _ => ?_, fun m m1 m2 => ?_, fun m hm => ?_, fun r c => ?_⟩
    · rw [e1 c (by omega), Function.update_of_ne (by omega)]
    · rcases Nat.eq_or_lt_of_le (show i + 1 ≤ c by omega) with h3 | h3
      · subst h3
        obtain rfl : left = 0 := by omega
        have : work (i + 1) = 0 := by rw [← hw]
        rw [e1 _ le_rfl, Function.update_self, this, mul_zero]
      · exact e2 c (by omega) h3
    · by_cases h3 : m = i + 1
      · subst h3
        rw [e1 _ le_rfl, Function.update_self, Nat.add_sub_cancel, e4 i (by omega), Function.update_self]
        linear_combination work (i + 1) * hc
      · rw [e3 m (by omega) (by omega), Function.update_of_ne (by omega)]
    · rw [e4 m (by omega), Function.update_of_ne (by omega)]
    · rw [e5 r c]
      have n1 : ¬ (rem = i) := by omega
      have n2 : ¬ (i + 1 = i) := by omega
      have n3 : ¬ (i + 1 = rem) := by omega
      have n4 : ¬ (i + 1 = 0) := by omega
      have n5 : ¬ (i = i + 1) := by omega
      unfold Spec.element
      by_cases c1 : c = i
      · subst c1
        have n6 : ¬ (c = 0) := by omega
        have n7 : ¬ (c - 1 = c) := by omega
        simp only [n5, n6, n7, if_true, if_false, Function.update_self, Function.update_of_ne (show c ≠ c + 1 by omega)]
        by_cases c2 : c - 1 = rem
        · have : E c = 0 := by rw [← hE0]; congr 1; omega
          rw [this]
          linear_combination st.M r c * hc - st.M r rem * hs'
        · simp only [c2, if_false]
          linear_combination st.M r c * hc - st.M r rem * hs'
      · by_cases c2 : c = i + 1
        · subst c2
          simp only [n1, n2, n3, n4, if_true, if_false, Function.update_self, Nat.add_sub_cancel,
            Function.update_of_ne (show i + 1 ≠ i by omega), hE (i + 1) (by omega)]
          linear_combination work (i + 1) * st.M r i * hu
        · have n8 : ¬ (c - 1 = i) ∨ c = 0 := by omega
          simp only [c1, c2, if_false, Function.update_of_ne c1, Function.update_of_ne c2, add_zero]
          congr 1
          · by_cases c3 : c = rem
            · subst c3; rw [hV0]; ring
            · simp only [c3, if_false]
          · by_cases c4 : c = 0
            · simp [c4]
            · have n9 : ¬ (c - 1 = i) := by omega
              simp only [c4, n9, if_false]
              by_cases c5 : c - 1 = rem
              · have : E c = 0 := by rw [← hE0]; congr 1; omega
                rw [this]; ring
              · simp only [c5, if_false]

/-- What the loop does if it makes all its rotations: the product of `M` and the bidiagonal matrix is kept if the elements
of `work` after the first are replaced by elements `E`, smaller by the ratio of the old and the new singular value before
them.  The loop leaves `work` as it is. -/
theorem cancel_element {work V : ℕ → ℝ} {L k : ℕ} (hL : 0 < L) (hk : L ≤ k) (hV : V (L - 1) = 0) (hnext : work (k + 1) = 0)
    {M : ℕ → ℕ → ℝ} {st : St} (h : cancelAll work L k V M = .ok st) (hne : ∀ m, L ≤ m → m ≤ k → st.V m ≠ V m) :
    ∃ E : ℕ → ℝ, E L = 0 ∧ (∀ m, L < m → m ≤ k → E m * st.V (m - 1) = work m * V (m - 1)) ∧
      (∀ m, m < L ∨ k < m → E m = work m) ∧
      ∀ r c, Spec.element st.V E (st.M r) c = Spec.element V work (M r) c := by
  obtain ⟨E, e1, e2, e3, -, e5⟩ := cancel_loop (k + 1 - L) L (E := Function.update work L 0) (by omega) h hV
    (by rw [show L - 1 + 1 = L by omega, Function.update_self])
    (fun c hc => Function.update_of_ne (by omega) _ _)
    (by rw [← hnext]; congr 1; omega) (fun m h1 h2 => hne m h1 (by omega))
  refine ⟨E, by rw [e1 L le_rfl, Function.update_self], fun m h1 h2 => e3 m h1 (by omega), fun m hm => ?_, fun r c => ?_⟩
  · rcases hm with hm | hm
    · rw [e1 m (by omega), Function.update_of_ne (by omega)]
    · exact e2 m (by omega) (by omega)
  · rw [e5 r c]
    unfold Spec.element
    by_cases hc : c = L
    · subst hc
      have : ¬ (c = 0) := by omega
      simp [this]
    · simp [hc]

/-- The hypotheses are met by the diagonal `0, 4` with the element `3` between. -/
example : ∃ st, cancelAll (fun i => if i = 1 then 3 else 0) 1 1 (fun i => if i = 1 then 4 else 0)
    (fun r c => if r = c then 1 else 0) = .ok st ∧ ∀ m, 1 ≤ m → m ≤ 1 → st.V m ≠ (fun i => if i = 1 then (4 : ℝ) else 0) m := by
  obtain ⟨f3, f1, f2, -, -, -, -, hs, h3⟩ := cancelStep_eq (fun i => if i = 1 then 3 else 0) 0 1
    ⟨fun i => if i = 1 then 4 else 0, fun r c => if r = c then 1 else 0, 1, 0⟩ (by simp; linarith [eps_lt_one])
  have ha : cancelAll (fun i => if i = 1 then 3 else 0) 1 1 (fun i => if i = 1 then 4 else 0)
      (fun r c => if r = c then 1 else 0) = cancelStep (fun i => if i = 1 then 3 else 0) 0 1
        ⟨fun i => if i = 1 then 4 else 0, fun r c => if r = c then 1 else 0, 1, 0⟩ := by
    show cancel _ 0 (0 + 1) 1 _ = _
    rw [cancel, hs]
    rfl
  refine ⟨_, ha.trans hs, fun m h1 h2 => ?_⟩
  · obtain rfl : m = 1 := by omega
    have : f3 = 5 := by
      rw [h3]
      norm_num
      rw [show (25 : ℝ) = 5 ^ 2 by norm_num, Real.sqrt_sq (by norm_num)]
    simp [this]

/-! ### The first part -/

theorem SIGN_sq (a b : ℝ) : SIGN a b ^ 2 = a ^ 2 := by
  unfold SIGN
  split <;> simp

theorem SIGN_mul (a b : ℝ) : 0 ≤ SIGN a b * b := by
  unfold SIGN
  split
  next h => exact mul_nonneg (abs_nonneg a) h
  next h => rw [not_le] at h; nlinarith [abs_nonneg a]

theorem hsum_nonneg (m n : ℕ) (x : ℕ → ℝ) : 0 ≤ hsum m n x := sum_nonneg fun _ _ => abs_nonneg _

theorem hf1_pos {m n : ℕ} {x : ℕ → ℝ} (h : 0 < hsum m n x) : 0 < hf1 m n x := by
  have h0 : 0 ≤ hf1 m n x := sum_nonneg fun _ _ => mul_self_nonneg _
  rcases h0.lt_or_eq with h1 | h1
  · exact h1
  · exfalso
    unfold hf1 at h1
    have h2 := (sum_eq_zero_iff_of_nonneg fun _ _ => mul_self_nonneg _).1 h1.symm
    have h3 : hsum m n x = 0 := by
      rw [hsum]
      refine sum_eq_zero fun k hk => ?_
      have h4 := mul_self_eq_zero.1 (h2 k hk)
      rcases div_eq_zero_iff.1 h4 with h5 | h5
      · rw [h5, abs_zero]
      · exact absurd h5 h.ne'
    exact h.ne' h3

theorem hF1_sq (m n : ℕ) (x : ℕ → ℝ) : hF1 m n x ^ 2 = hf1 m n x := by
  unfold hF1
  have : 0 ≤ hf1 m n x := sum_nonneg fun _ _ => mul_self_nonneg _
  rw [neg_sq, SIGN_sq, Real.sq_sqrt this]

theorem hf3_eq (m n : ℕ) (x : ℕ → ℝ) : hf3 m n x = hF1 m n x * hu m n x m := by
  unfold hf3 hu
  rw [if_pos rfl, ← hF1_sq]
  ring

/-- No divisor of a reflection that is made is zero. -/
theorem first_divisors {m n : ℕ} {x : ℕ → ℝ} (h : 0 < hsum m n x) : hf3 m n x ≠ 0 ∧ hF1 m n x ≠ 0 ∧ hu m n x m ≠ 0 := by
  have h1 := hf1_pos h
  have h2 : hf3 m n x < 0 := by
    have := SIGN_mul (Real.sqrt (hf1 m n x)) (x m / hsum m n x)
    unfold hf3 hF1
    linarith
  have h3 := hf3_eq m n x
  refine ⟨h2.ne, fun h0 => ?_, fun h0 => ?_⟩
  · rw [h0, zero_mul] at h3; exact h2.ne h3
  · rw [h0, mul_zero] at h3; exact h2.ne h3

example : 0 < hsum 0 2 (fun _ => 1) := by norm_num [hsum]

theorem sum_hu {m n : ℕ} (hm : m < n) (x y : ℕ → ℝ) : ∑ k ∈ Ico m n, hu m n x k * y k =
    ∑ k ∈ Ico m n, x k / hsum m n x * y k - hF1 m n x * y m := by
  rw [sum_eq_sum_Ico_succ_bot hm, sum_eq_sum_Ico_succ_bot hm (fun k => x k / hsum m n x * y k)]
  have : ∑ k ∈ Ico (m + 1) n, hu m n x k * y k = ∑ k ∈ Ico (m + 1) n, x k / hsum m n x * y k :=
    sum_congr rfl fun k hk => by
      have : k ≠ m := by rw [mem_Ico] at hk; omega
      rw [hu, if_neg this]
  rw [this, hu, if_pos rfl]
  ring

theorem sum_hu_hu {m n : ℕ} (hm : m < n) (x : ℕ → ℝ) : ∑ k ∈ Ico m n, hu m n x k * hu m n x k = -2 * hf3 m n x := by
  rw [sum_hu hm]
  have : ∑ k ∈ Ico m n, x k / hsum m n x * hu m n x k = hf1 m n x - hF1 m n x * (x m / hsum m n x) := by
    have h := sum_hu hm x (fun k => x k / hsum m n x)
    rw [← hf1] at h
    rw [← h]
    exact sum_congr rfl fun k _ => mul_comm _ _
  rw [this, hu, if_pos rfl, hf3]
  have := hF1_sq m n x
  linear_combination this

theorem sum_hu_self {m n : ℕ} (hm : m < n) {x : ℕ → ℝ} (h : 0 < hsum m n x) :
    ∑ k ∈ Ico m n, hu m n x k * x k = -(hsum m n x * hf3 m n x) := by
  rw [sum_hu hm]
  have : ∑ k ∈ Ico m n, x k / hsum m n x * x k = hsum m n x * hf1 m n x := by
    rw [hf1, mul_sum]
    exact sum_congr rfl fun k _ => by field_simp
  rw [this, hf3]
  field_simp
  ring

/-- The factor of the reflection which is used when vectors are collected. -/
noncomputable def gg (m n : ℕ) (x : ℕ → ℝ) : ℝ := if |hval m n x| ≤ eps then 0 else 1 / hf3 m n x

theorem hval_big {m n : ℕ} {x : ℕ → ℝ} (h : ¬ (|hval m n x| ≤ eps)) :
    eps < |hsum m n x| ∧ 0 < hsum m n x ∧ hval m n x = hsum m n x * hF1 m n x := by
  have h1 : ¬ (|hsum m n x| ≤ eps) := by
    intro h2
    apply h
    rw [hval, if_pos h2, abs_zero]
    exact eps_pos.le
  refine ⟨not_le.1 h1, ?_, by rw [hval, if_neg h1]⟩
  rw [abs_of_nonneg (hsum_nonneg m n x)] at h1
  exact eps_pos.trans (not_le.1 h1)

theorem refl_gg {m n : ℕ} (hm : m < n) (x : ℕ → ℝ) : Refl m n (hu m n x) (gg m n x) := by
  unfold Refl gg
  split
  · simp
  next h =>
    have := (first_divisors (hval_big h).2.1).1
    rw [sum_hu_hu hm]
    field_simp

/-- The column or row is either beyond the tolerance, or zero. -/
def Clear (m n : ℕ) (x : ℕ → ℝ) : Prop := eps < |hval m n x| ∨ ∀ k ∈ Ico m n, x k = 0

theorem clear_zero {m n : ℕ} {x : ℕ → ℝ} (h : ∀ k ∈ Ico m n, x k = 0) : |hsum m n x| ≤ eps ∧ hval m n x = 0 := by
  have : hsum m n x = 0 := sum_eq_zero fun k hk => by rw [h k hk, abs_zero]
  have h' : |hsum m n x| ≤ eps := by rw [this, abs_zero]; exact eps_pos.le
  exact ⟨h', by rw [hval, if_pos h']⟩

theorem hh_clear {m n : ℕ} (hm : m < n) {x : ℕ → ℝ} (h : Clear m n x) {r : ℕ} (hr : r ∈ Ico m n) :
    hh m n (hu m n x) (gg m n x) x r = if r = m then hval m n x else 0 := by
  rcases h with h | h
  · have hb := not_le.2 h
    obtain ⟨-, h2, h3⟩ := hval_big hb
    have hf := (first_divisors h2).1
    rw [hh, sum_hu_self hm h2, gg, if_neg hb]
    have h4 : 1 / hf3 m n x * -(hsum m n x * hf3 m n x) = -hsum m n x := by field_simp
    rw [h4, h3, hu]
    split
    next h5 => subst h5; field_simp; ring
    next h5 => field_simp; ring
  · obtain ⟨h1, h2⟩ := clear_zero h
    rw [hh, gg, h2, if_pos (by rw [abs_zero]; exact eps_pos.le), h r hr]
    simp

theorem left_frame {n : ℕ} (A : ℕ → ℕ → ℝ) {i r c : ℕ} (h : r < i ∨ c < i) : left n A i r c = A r c := by
  unfold left
  split
  · rfl
  · beta_reduce
    rcases h with h | h
    · rw [if_neg (by omega)]
    · split
      · rw [if_neg (by omega), if_neg (by omega)]
      · rfl

theorem right_frame {n : ℕ} (A : ℕ → ℕ → ℝ) {i r c : ℕ} (h : r < i ∨ c ≤ i) : right n A i r c = A r c := by
  unfold right
  split
  · rfl
  · beta_reduce
    rcases h with h | h
    · split
      · rw [if_neg (by omega), if_neg (by omega)]
      · rfl
    · rw [if_neg (by omega)]

theorem mats_frame {n : ℕ} (A : ℕ → ℕ → ℝ) {i r c : ℕ} (h : r < i ∨ c < i) : ∀ d, mats n A (i + d) r c = mats n A i r c := by
  intro d
  induction d with
  | zero => rfl
  | succ d ih =>
    rw [← Nat.add_assoc, mats, right_frame _ (by omega), left_frame _ (by omega), ih]

theorem left_clear {n : ℕ} {A : ℕ → ℕ → ℝ} {i r c : ℕ} (h : Clear i n fun r => A r i) (hr : i ≤ r) (hc : i < c) :
    left n A i r c = hh i n (hu i n fun r => A r i) (gg i n fun r => A r i) (fun k => A k c) r := by
  unfold left gg hh
  rcases h with h | h
  · have hb := not_le.2 h
    rw [if_neg (not_le.2 (hval_big hb).1), if_pos hr, if_neg (by omega), if_pos hc, if_neg hb]
    ring
  · obtain ⟨h1, h2⟩ := clear_zero h
    rw [if_pos h1, h2, if_pos (by rw [abs_zero]; exact eps_pos.le)]
    ring

theorem right_clear {n : ℕ} {A : ℕ → ℕ → ℝ} {i r c : ℕ} (h : Clear (i + 1) n (A i)) (hr : i < r) (hc : i < c) :
    right n A i r c = hh (i + 1) n (hu (i + 1) n (A i)) (gg (i + 1) n (A i)) (A r) c := by
  unfold right gg hh
  rcases h with h | h
  · have hb := not_le.2 h
    rw [if_neg (not_le.2 (hval_big hb).1), if_pos hc, if_neg (by omega), if_pos hr, if_neg hb]
    have : ∑ k ∈ Ico (i + 1) n, A r k * hu (i + 1) n (A i) k = ∑ k ∈ Ico (i + 1) n, hu (i + 1) n (A i) k * A r k :=
      sum_congr rfl fun k _ => mul_comm _ _
    rw [this]
    ring
  · obtain ⟨h1, h2⟩ := clear_zero h
    rw [if_pos h1, h2, if_pos (by rw [abs_zero]; exact eps_pos.le)]
    ring

theorem stored_col {n : ℕ} (A : ℕ → ℕ → ℝ) {i r : ℕ} (hi : i < n) (hr : i ≤ r) (h : ¬ (|diag n A i| ≤ eps)) :
    mats n A n r i = hu i n (fun r => mats n A i r i) r * hsum i n (fun r => mats n A i r i) := by
  obtain ⟨d, rfl⟩ : ∃ d, n = i + 1 + d := ⟨n - (i + 1), by omega⟩
  rw [mats_frame A (by omega), mats, right_frame _ (by omega), left]
  rw [if_neg (not_le.2 (hval_big h).1), if_pos hr, if_pos rfl]

theorem stored_row {n : ℕ} (A : ℕ → ℕ → ℝ) {i c : ℕ} (hi : i < n) (hc : i < c) (h : ¬ (|above n A (i + 1)| ≤ eps)) :
    mats n A n i c = hu (i + 1) n (left n (mats n A i) i i) c * hsum (i + 1) n (left n (mats n A i) i i) := by
  have h' := (hval_big h).1
  obtain ⟨d, hd⟩ : ∃ d, n = i + 1 + d := ⟨n - (i + 1), by omega⟩
  have := mats_frame (n := n) A (i := i + 1) (r := i) (c := c) (by omega) d
  rw [← hd] at this
  rw [this, mats, right]
  rw [if_neg (not_le.2 h'), if_pos hc, if_pos rfl]

/-- `S` when the columns from `i` on are done. -/
noncomputable def Sx (n : ℕ) (A S : ℕ → ℕ → ℝ) (i : ℕ) : ℕ → ℕ → ℝ := accS n (mats n A n) (above n A) S (n - i)

theorem Sx_step {n : ℕ} (A S : ℕ → ℕ → ℝ) {i : ℕ} (hi : i < n) :
    Sx n A S i = stepS n (mats n A n) (above n A) i (Sx n A S (i + 1)) := by
  unfold Sx
  rw [show n - i = n - (i + 1) + 1 by omega, accS, show n - (n - (i + 1) + 1) = i by omega]

theorem Sx_unit {n : ℕ} (A S : ℕ → ℕ → ℝ) {i : ℕ} (hi : i < n) : Sx n A S i i i = 1 ∧
    (∀ c ∈ Ico (i + 1) n, Sx n A S i i c = 0 ∧ Sx n A S i c i = 0) ∧
    ∀ b ∈ Ico i n, Sx n A S i b i = if b = i then 1 else 0 := by
  have h1 : Sx n A S i i i = 1 := by rw [Sx_step A S hi, stepS, if_pos ⟨rfl, rfl⟩]
  have h2 : ∀ c ∈ Ico (i + 1) n, Sx n A S i i c = 0 ∧ Sx n A S i c i = 0 := by
    intro c hc
    have := (mem_Ico.1 hc).1
    rw [Sx_step A S hi, stepS, stepS]
    refine ⟨?_, ?_⟩
    · rw [if_neg (by omega), if_pos ⟨rfl, by omega⟩]
    · rw [if_neg (by omega), if_neg (by omega), if_pos ⟨by omega, rfl⟩]
  refine ⟨h1, h2, fun b hb => ?_⟩
  rcases Nat.eq_or_lt_of_le (mem_Ico.1 hb).1 with h | h
  · subst h; rw [h1, if_pos rfl]
  · rw [(h2 b (mem_Ico.2 ⟨h, (mem_Ico.1 hb).2⟩)).2, if_neg (by omega)]

theorem Sx_hh {n : ℕ} (A S : ℕ → ℕ → ℝ) {i b c : ℕ} (hi : i < n) (hb : b ∈ Ico (i + 1) n) (hc : c ∈ Ico (i + 1) n) :
    Sx n A S i b c = hh (i + 1) n (hu (i + 1) n (left n (mats n A i) i i)) (gg (i + 1) n (left n (mats n A i) i i))
      (fun k => Sx n A S (i + 1) k c) b := by
  have hb' := (mem_Ico.1 hb).1
  have hc' := (mem_Ico.1 hc).1
  rw [Sx_step A S hi, stepS, if_neg (by omega), if_neg (by omega), if_neg (by omega), if_pos ⟨by omega, by omega⟩, hh, gg]
  by_cases h : |above n A (i + 1)| ≤ eps
  · have h' : |hval (i + 1) n (left n (mats n A i) i i)| ≤ eps := h
    rw [if_pos h, if_pos h']
    ring
  · have h' : ¬ (|hval (i + 1) n (left n (mats n A i) i i)| ≤ eps) := h
    rw [if_neg h, if_neg h']
    obtain ⟨-, h2, h3⟩ := hval_big h'
    obtain ⟨-, d2, d3⟩ := first_divisors h2
    have h4 : ∑ k ∈ Ico (i + 1) n, mats n A n i k * Sx n A S (i + 1) k c = hsum (i + 1) n (left n (mats n A i) i i) *
        ∑ k ∈ Ico (i + 1) n, hu (i + 1) n (left n (mats n A i) i i) k * Sx n A S (i + 1) k c := by
      rw [mul_sum]
      refine sum_congr rfl fun k hk => ?_
      rw [stored_row A hi (by rw [mem_Ico] at hk; omega) h]
      ring
    have h5 : above n A (i + 1) = _ := h3
    rw [h4, stored_row A hi (by omega) h, stored_row A hi (by omega) h, h5, hf3_eq]
    have h6 := h2.ne'
    field_simp

/-- `M` when the columns from `i` on are done. -/
noncomputable def Ux (n : ℕ) (A : ℕ → ℕ → ℝ) (i : ℕ) : ℕ → ℕ → ℝ := accU n (diag n A) (mats n A n) (n - i)

theorem Ux_step {n : ℕ} (A : ℕ → ℕ → ℝ) {i : ℕ} (hi : i < n) : Ux n A i = stepU n (diag n A) i (Ux n A (i + 1)) := by
  unfold Ux
  rw [show n - i = n - (i + 1) + 1 by omega, accU, show n - (n - (i + 1) + 1) = i by omega]

theorem Ux_stored {n : ℕ} (A : ℕ → ℕ → ℝ) (r c : ℕ) : ∀ d i, i + d = n → c < i → Ux n A i r c = mats n A n r c := by
  intro d
  induction d with
  | zero =>
    intro i hi hc
    obtain rfl : i = n := by omega
    unfold Ux
    rw [Nat.sub_self]
    rfl
  | succ d ih =>
    intro i hi hc
    rw [Ux_step A (by omega), stepU]
    beta_reduce
    have h1 : ¬ (r = i ∧ i < c) := by omega
    have h2 : ¬ (i < c) := by omega
    have h3 : ¬ (c = i) := by omega
    rw [if_neg h1, if_neg h2, if_neg h3, ite_self]
    exact ih (i + 1) (by omega) (by omega)

theorem Ux_hh {n : ℕ} (A : ℕ → ℕ → ℝ) {i r : ℕ} (hi : i < n) (hr : r ∈ Ico i n) :
    (∀ c ∈ Ico (i + 1) n, Ux n A i r c = hh i n (hu i n fun r => mats n A i r i) (gg i n fun r => mats n A i r i)
      (fun k => if k = i then 0 else Ux n A (i + 1) k c) r) ∧
    Ux n A i r i = hh i n (hu i n fun r => mats n A i r i) (gg i n fun r => mats n A i r i)
      (fun k => if k = i then 1 else 0) r := by
  have hr' := (mem_Ico.1 hr).1
  have hcol : ∀ k, Ux n A (i + 1) k i = mats n A n k i := fun k => Ux_stored A k i (n - (i + 1)) (i + 1) (by omega) (by omega)
  refine ⟨fun c hc => ?_, ?_⟩
  · have hc' := (mem_Ico.1 hc).1
    have hic : i < c := by omega
    have hZ : ∀ k, (if k = i ∧ i < c then (0 : ℝ) else Ux n A (i + 1) k c) = if k = i then 0 else Ux n A (i + 1) k c := by
      intro k; simp [hic]
    rw [Ux_step A hi, stepU]
    simp only [hZ, and_false, lt_irrefl, if_false, hcol]
    rw [if_pos hr', if_pos hic, hh, gg]
    by_cases h : |diag n A i| ≤ eps
    · have h' : |hval i n fun r => mats n A i r i| ≤ eps := h
      rw [if_pos h, if_pos h']
      ring
    · have h' : ¬ (|hval i n fun r => mats n A i r i| ≤ eps) := h
      rw [if_neg h, if_neg h']
      obtain ⟨-, h2, h3⟩ := hval_big h'
      obtain ⟨-, d2, d3⟩ := first_divisors h2
      have h4 : ∑ k ∈ Ico (i + 1) n, mats n A n k i * (if k = i then 0 else Ux n A (i + 1) k c) =
          hsum i n (fun r => mats n A i r i) * ∑ k ∈ Ico i n, hu i n (fun r => mats n A i r i) k *
            (if k = i then 0 else Ux n A (i + 1) k c) := by
        rw [sum_eq_sum_Ico_succ_bot hi, if_pos rfl, mul_zero, zero_add, mul_sum]
        refine sum_congr rfl fun k hk => ?_
        rw [stored_col A hi (by rw [mem_Ico] at hk; omega) h]
        ring
      have h5 : diag n A i = _ := h3
      rw [h4, stored_col A hi le_rfl h, stored_col A hi hr' h, h5, hf3_eq]
      have h6 := h2.ne'
      field_simp
  · rw [Ux_step A hi, stepU]
    simp only [lt_irrefl, and_false, if_true, if_false, hcol]
    have hs : ∑ k ∈ Ico i n, hu i n (fun r => mats n A i r i) k * (if k = i then 1 else 0) =
        hu i n (fun r => mats n A i r i) i := by
      rw [sum_eq_sum_Ico_succ_bot hi, if_pos rfl, mul_one, sum_eq_zero, add_zero]
      intro k hk
      rw [if_neg (by rw [mem_Ico] at hk; omega), mul_zero]
    rw [if_pos hr', hh, hs, gg]
    by_cases h : |diag n A i| ≤ eps
    · have h' : |hval i n fun r => mats n A i r i| ≤ eps := h
      rw [if_pos h, if_pos h']
      ring
    · have h' : ¬ (|hval i n fun r => mats n A i r i| ≤ eps) := h
      rw [if_neg h, if_neg h']
      obtain ⟨-, h2, h3⟩ := hval_big h'
      obtain ⟨-, d2, d3⟩ := first_divisors h2
      have h5 : diag n A i = _ := h3
      rw [stored_col A hi hr' h, h5, hf3_eq]
      have h6 := h2.ne'
      field_simp
      ring

/-- Every column and row of the first part is, when its turn comes, beyond the tolerance or zero. -/
def AllClear (n : ℕ) (A : ℕ → ℕ → ℝ) : Prop := ∀ i < n, Clear i n (fun r => mats n A i r i) ∧
  Clear (i + 1) n (left n (mats n A i) i i)

/-- The first part of `SVD` makes the matrix bidiagonal: the product of the left vectors, the bidiagonal matrix and the right
vectors is the matrix, in every element. -/
theorem first_product {n : ℕ} {A : ℕ → ℕ → ℝ} (h : AllClear n A) (S : ℕ → ℕ → ℝ) {r b : ℕ} (hr : r < n) (hb : b < n) :
    Spec.product n (first n A S).V (first n A S).work ((first n A S).M r) ((first n A S).S b) = A r b := by
  have key : ∀ d i, i + d = n → ∀ r ∈ Ico i n, ∀ b ∈ Ico i n,
      prodFrom i n (diag n A) (above n A) (Ux n A i) (Sx n A S i) r b = mats n A i r b := by
    intro d
    induction d with
    | zero => intro i hi r hr; rw [mem_Ico] at hr; omega
    | succ d ih =>
      intro i hi
      have hin : i < n := by omega
      obtain ⟨c1, c2⟩ := h i hin
      obtain ⟨s1, s2, -⟩ := Sx_unit A S hin
      by_cases hlast : i + 1 < n
      · refine prodFrom_step (A1 := left n (mats n A i) i) (A2 := mats n A (i + 1)) (U' := Ux n A (i + 1))
          (S' := Sx n A S (i + 1)) hin (refl_gg hin fun r => mats n A i r i)
          (refl_gg hlast (left n (mats n A i) i i)) ?_ ?_ ?_ ?_ (fun r hr => (Ux_hh A hin hr).1) (fun r hr => (Ux_hh A hin hr).2)
          (fun b hb c hc => Sx_hh A S hin hb hc) s1 s2 (Sx_unit A S hlast).2.2 (ih (i + 1) (by omega))
        · intro r hr b hb
          exact left_clear c1 (mem_Ico.1 hr).1 (mem_Ico.1 hb).1
        · intro r hr
          exact hh_clear hin c1 hr
        · intro r hr b hb
          exact right_clear c2 (mem_Ico.1 hr).1 (mem_Ico.1 hb).1
        · intro b hb
          exact hh_clear hlast c2 hb
      · obtain rfl : n = i + 1 := by omega
        intro r hr b hb
        obtain rfl : r = i := by rw [mem_Ico] at hr; omega
        obtain rfl : b = r := by rw [mem_Ico] at hb; omega
        have h1 := (Ux_hh A hin hr).2
        have h2 := hh_clear hin c1 hr
        have h3 := hh_hh (refl_gg hin fun r => mats (b + 1) A b r b) (fun r => mats (b + 1) A b r b) b
        rw [if_pos rfl] at h2
        rw [prodFrom, sum_eq_sum_Ico_succ_bot hin, Ico_self, sum_empty, add_zero, if_pos rfl, add_zero, s1, one_mul, h1,
          ← h3, ← hh_smul]
        refine hh_congr (fun k hk => ?_) hr
        obtain rfl : k = b := by rw [mem_Ico] at hk; omega
        rw [h2, if_pos rfl, mul_one]
        rfl
  have := key n 0 (by omega) r (mem_Ico.2 ⟨by omega, hr⟩) b (mem_Ico.2 ⟨by omega, hb⟩)
  rw [prodFrom, ← range_eq_Ico] at this
  exact this

/-- Reflected columns keep rows orthonormal. -/
theorem orth_step {m n : ℕ} {u : ℕ → ℝ} {g : ℝ} (hu : Refl m n u g) (s : Finset ℕ) {W U : ℕ → ℕ → ℝ}
    (hW : ∀ k ∈ Ico m n, ∀ k' ∈ Ico m n, ∑ c ∈ s, W k c * W k' c = if k = k' then 1 else 0)
    (hU : ∀ r ∈ Ico m n, ∀ c ∈ s, U r c = hh m n u g (fun k => W k c) r) :
    ∀ r ∈ Ico m n, ∀ r' ∈ Ico m n, ∑ c ∈ s, U r c * U r' c = if r = r' then 1 else 0 := by
  intro r hr r' hr'
  have h1 : ∀ k ∈ Ico m n, ∑ c ∈ s, W k c * U r' c = hh m n u g (fun k => if k = r' then 1 else 0) k := by
    intro k hk
    have h2 : ∑ c ∈ s, W k c * U r' c = hh m n u g (fun k' => if k = k' then 1 else 0) r' := by
      have : hh m n u g (fun k' => if k = k' then 1 else 0) r' = hh m n u g (fun k' => ∑ c ∈ s, W k c * W k' c) r' :=
        hh_congr (fun k' hk' => (hW k hk k' hk').symm) hr'
      rw [this, hh_sum]
      refine sum_congr rfl fun c hc => ?_
      rw [hh_smul, hU r' hr' c hc]
    rw [h2]
    unfold hh
    have h3 : ∀ j ∈ Ico m n, ∑ k' ∈ Ico m n, u k' * (if j = k' then (1 : ℝ) else 0) = u j := by
      intro j hj
      rw [sum_eq_single_of_mem j hj fun b _ hb => by rw [if_neg (Ne.symm hb), mul_zero], if_pos rfl, mul_one]
    have h4 : ∑ k' ∈ Ico m n, u k' * (if k' = r' then (1 : ℝ) else 0) = u r' := by
      rw [← h3 r' hr']
      exact sum_congr rfl fun k' _ => by simp only [eq_comm]
    rw [h3 k hk, h4]
    ring
  have h5 : ∑ c ∈ s, U r c * U r' c = hh m n u g (fun k => ∑ c ∈ s, W k c * U r' c) r := by
    rw [hh_sum]
    refine sum_congr rfl fun c hc => ?_
    have : (fun k => W k c * U r' c) = fun k => U r' c * W k c := by funext k; ring
    rw [this, hh_smul, hU r hr c hc, mul_comm]
  rw [h5, hh_congr h1 hr]
  exact hh_hh hu (fun k => if k = r' then 1 else 0) r

/-- A matrix with one row and column more of the unit matrix. -/
theorem orth_border {i n : ℕ} (hi : i < n) {W U' : ℕ → ℕ → ℝ} (h0 : W i i = 1)
    (h1 : ∀ c ∈ Ico (i + 1) n, W i c = 0 ∧ W c i = 0)
    (h2 : ∀ r ∈ Ico (i + 1) n, ∀ c ∈ Ico (i + 1) n, W r c = U' r c)
    (h3 : ∀ r ∈ Ico (i + 1) n, ∀ r' ∈ Ico (i + 1) n, ∑ c ∈ Ico (i + 1) n, U' r c * U' r' c = if r = r' then 1 else 0) :
    ∀ r ∈ Ico i n, ∀ r' ∈ Ico i n, ∑ c ∈ Ico i n, W r c * W r' c = if r = r' then 1 else 0 := by
  have hup : ∀ {r}, r ∈ Ico i n → r = i ∨ r ∈ Ico (i + 1) n := fun hr => by
    rw [mem_Ico] at hr ⊢; omega
  have hne : ∀ {r}, r ∈ Ico (i + 1) n → r ≠ i := fun hr => by rw [mem_Ico] at hr; omega
  intro r hr r' hr'
  rw [sum_eq_sum_Ico_succ_bot hi]
  rcases hup hr with rfl | hr
  · rw [sum_eq_zero fun c hc => by rw [(h1 c hc).1, zero_mul], h0, one_mul, add_zero]
    rcases hup hr' with rfl | hr'
    · rw [h0, if_pos rfl]
    · rw [(h1 r' hr').2, if_neg (hne hr').symm]
  · rw [(h1 r hr).2, zero_mul, zero_add]
    rcases hup hr' with rfl | hr'
    · rw [sum_eq_zero fun c hc => by rw [(h1 c hc).1, mul_zero], if_neg (hne hr)]
    · rw [← h3 r hr r' hr']
      exact sum_congr rfl fun c hc => by rw [h2 r hr c hc, h2 r' hr' c hc]

/-- The left vectors are orthonormal after the first part, and so are the right ones, for every matrix. -/
theorem first_orthonormal (n : ℕ) (A S : ℕ → ℕ → ℝ) {r r' : ℕ} (hr : r < n) (hr' : r' < n) :
    Spec.dot n ((first n A S).M r) ((first n A S).M r') = (if r = r' then 1 else 0) ∧
    Spec.dot n ((first n A S).S r) ((first n A S).S r') = if r = r' then 1 else 0 := by
  have key : ∀ d i, i + d = n →
      (∀ r ∈ Ico i n, ∀ r' ∈ Ico i n, ∑ c ∈ Ico i n, Ux n A i r c * Ux n A i r' c = if r = r' then 1 else 0) ∧
      ∀ r ∈ Ico i n, ∀ r' ∈ Ico i n, ∑ c ∈ Ico i n, Sx n A S i r c * Sx n A S i r' c = if r = r' then 1 else 0 := by
    intro d
    induction d with
    | zero =>
      intro i hi
      exact ⟨fun r hr => by rw [mem_Ico] at hr; omega, fun r hr => by rw [mem_Ico] at hr; omega⟩
    | succ d ih =>
      intro i hi
      have hin : i < n := by omega
      obtain ⟨a1, a2⟩ := ih (i + 1) (by omega)
      constructor
      · refine orth_step (refl_gg hin fun r => mats n A i r i) (Ico i n)
          (W := fun k c => if c = i then (if k = i then 1 else 0) else if k = i then 0 else Ux n A (i + 1) k c) ?_ ?_
        · refine orth_border hin (by simp) (fun c hc => ?_) (fun r hr c hc => ?_) a1
          · have : c ≠ i := by rw [mem_Ico] at hc; omega
            simp [this]
          · have h1 : c ≠ i := by rw [mem_Ico] at hc; omega
            have h2 : r ≠ i := by rw [mem_Ico] at hr; omega
            simp [h1, h2]
        · intro r hr c hc
          by_cases h1 : c = i
          · subst h1
            simp only [if_true]
            exact (Ux_hh A hin hr).2
          · simp only [h1, if_false]
            exact (Ux_hh A hin hr).1 c (by rw [mem_Ico] at hc ⊢; omega)
      · obtain ⟨s1, s2, -⟩ := Sx_unit A S hin
        refine orth_border hin s1 s2 (fun _ _ _ _ => rfl) ?_
        by_cases hlast : i + 1 < n
        · exact orth_step (refl_gg hlast _) (Ico (i + 1) n) a2 fun r hr c hc => Sx_hh A S hin hr hc
        · intro r hr
          rw [mem_Ico] at hr; omega
  have h := key n 0 (by omega)
  have h1 := h.1 r (mem_Ico.2 ⟨by omega, hr⟩) r' (mem_Ico.2 ⟨by omega, hr'⟩)
  have h2 := h.2 r (mem_Ico.2 ⟨by omega, hr⟩) r' (mem_Ico.2 ⟨by omega, hr'⟩)
  rw [← range_eq_Ico] at h1 h2
  exact ⟨h1, h2⟩

/-- Whenever `SVD` of a square matrix returns, the left and the right vectors are orthonormal and no singular value is
negative. -/
theorem svd_orthonormal {n : ℕ} {A S : ℕ → ℕ → ℝ} {st : Parts} (h : svd n A S = .ok st) :
    (∀ i ≤ n, 0 ≤ st.V i) ∧ ∀ r ≤ n, ∀ r' ≤ n,
      Spec.dot (n + 1) (st.M r) (st.M r') = (if r = r' then 1 else 0) ∧
      Spec.dot (n + 1) (st.S r) (st.S r') = if r = r' then 1 else 0 := by
  obtain ⟨h1, h2⟩ := second_nonneg (n := n + 1) n (by omega) rfl h
  refine ⟨h1, fun r hr r' hr' => ?_⟩
  obtain ⟨h3, h4⟩ := first_orthonormal (n + 1) A S (r := r) (r' := r') (by omega) (by omega)
  exact ⟨(h2 r r').1.trans h3, (h2 r r').2.trans h4⟩

theorem clear_of_one {m n k : ℕ} {x : ℕ → ℝ} (hk : k ∈ Ico m n) (h : 1 ≤ |x k|) : Clear m n x := by
  have h1 : 1 ≤ hsum m n x := h.trans (single_le_sum (f := fun k => |x k|) (fun _ _ => abs_nonneg _) hk)
  have h2 : hval m n x = hsum m n x * hF1 m n x := by
    rw [hval, if_neg]
    rw [abs_of_pos (by linarith)]
    linarith [eps_lt_one]
  have h3 : hval m n x ^ 2 = ∑ k ∈ Ico m n, x k * x k := by
    rw [h2, mul_pow, hF1_sq, hf1, mul_sum]
    refine sum_congr rfl fun k _ => ?_
    have : hsum m n x ≠ 0 := by linarith
    field_simp
  have h4 : 1 ≤ hval m n x ^ 2 := by
    rw [h3]
    refine le_trans ?_ (single_le_sum (f := fun k => x k * x k) (fun _ _ => mul_self_nonneg _) hk)
    show 1 ≤ x k * x k
    rw [← abs_mul_abs_self]
    nlinarith
  refine .inl (eps_lt_one.trans_le ?_)
  rw [← sq_abs] at h4
  nlinarith [abs_nonneg (hval m n x)]

/-- The hypothesis of `first_product` is met by the matrix with the rows `4, 2` and `0, 3`. -/
example : AllClear 2 fun r c => if r = 0 then (if c = 0 then 4 else 2) else if c = 0 then 0 else 3 := by
  generalize hA : (fun r c => if r = 0 then (if c = 0 then 4 else 2) else if c = 0 then 0 else 3 : ℕ → ℕ → ℝ) = A
  have e00 : A 0 0 = 4 := by simp [← hA]
  have e01 : A 0 1 = 2 := by simp [← hA]
  have e10 : A 1 0 = 0 := by simp [← hA]
  have e11 : A 1 1 = 3 := by simp [← hA]
  have he := eps_lt_one
  have I0 : Ico 0 2 = {0, 1} := rfl
  have I1 : Ico 1 2 = {1} := rfl
  have a1 : hsum 0 2 (fun r => A r 0) = 4 := by norm_num [hsum, I0, e00, e01, e10, e11]
  have a2 : hF1 0 2 (fun r => A r 0) = -1 := by norm_num [hF1, hf1, a1, I0, e00, e01, e10, e11, SIGN]
  have a3 : hf3 0 2 (fun r => A r 0) = -2 := by norm_num [hf3, hf1, a2, a1, I0, e00, e01, e10, e11]
  have a4 : hu 0 2 (fun r => A r 0) 0 = 2 ∧ hu 0 2 (fun r => A r 0) 1 = 0 := by norm_num [hu, a2, a1, e00, e01, e10, e11]
  have a5 : ¬ (|(4 : ℝ)| ≤ eps) := by rw [abs_of_pos (by norm_num)]; linarith
  have b1 : left 2 A 0 0 1 = -2 := by
    unfold left
    rw [a1, if_neg a5]
    norm_num [a3, a4, I0, e00, e01, e10, e11]
  have b2 : left 2 A 0 1 1 = 3 := by
    unfold left
    rw [a1, if_neg a5]
    norm_num [a3, a4, I0, e00, e01, e10, e11]
  have c1 : hsum 1 2 (left 2 A 0 0) = 2 := by norm_num [hsum, I1, b1]
  have c2 : hF1 1 2 (left 2 A 0 0) = 1 := by norm_num [hF1, hf1, c1, I1, b1, SIGN]
  have c3 : hf3 1 2 (left 2 A 0 0) = -2 := by norm_num [hf3, hf1, c2, c1, I1, b1]
  have c4 : hu 1 2 (left 2 A 0 0) 1 = -2 := by norm_num [hu, c2, c1, b1]
  have c5 : ¬ (|(2 : ℝ)| ≤ eps) := by rw [abs_of_pos (by norm_num)]; linarith
  have d1 : mats 2 A 1 1 1 = -3 := by
    show right 2 (left 2 A 0) 0 1 1 = -3
    unfold right
    rw [c1, if_neg c5]
    norm_num [c3, c4, I1, b2]
  intro i hi
  rcases (show i = 0 ∨ i = 1 by omega) with rfl | rfl
  · refine ⟨clear_of_one (k := 0) (by simp) ?_, clear_of_one (k := 1) (by simp) ?_⟩
    · show (1 : ℝ) ≤ |A 0 0|
      rw [e00]; norm_num
    · show (1 : ℝ) ≤ |left 2 A 0 0 1|
      rw [b1]; norm_num
  · refine ⟨clear_of_one (k := 1) (by simp) ?_, .inr fun k hk => by simp at hk⟩
    show (1 : ℝ) ≤ |mats 2 A 1 1 1|
    rw [d1]; norm_num

/-- `SVD` returns for the matrix with the rows `2, 0` and `0, 3`. -/
example (S : ℕ → ℕ → ℝ) : ∃ st, svd 1 (fun r c => if r = c then (if r = 0 then 2 else 3) else 0) S = .ok st := by
  generalize hA : (fun r c => if r = c then (if r = 0 then 2 else 3) else 0 : ℕ → ℕ → ℝ) = A
  have e00 : A 0 0 = 2 := by simp [← hA]
  have e01 : A 0 1 = 0 := by simp [← hA]
  have e10 : A 1 0 = 0 := by simp [← hA]
  have e11 : A 1 1 = 3 := by simp [← hA]
  have he := eps_lt_one
  have I0 : Ico 0 2 = {0, 1} := rfl
  have a1 : hsum 0 2 (fun r => A r 0) = 2 := by norm_num [hsum, I0, e00, e01, e10, e11]
  have a2 : hF1 0 2 (fun r => A r 0) = -1 := by norm_num [hF1, hf1, a1, I0, e00, e01, e10, e11, SIGN]
  have a4 : hu 0 2 (fun r => A r 0) 0 = 2 ∧ hu 0 2 (fun r => A r 0) 1 = 0 := by norm_num [hu, a2, a1, e00, e01, e10, e11]
  have a5 : ¬ (|(2 : ℝ)| ≤ eps) := by rw [abs_of_pos (by norm_num)]; linarith
  have b1 : left 2 A 0 0 1 = 0 := by
    unfold left
    rw [a1, if_neg a5]
    norm_num [a4, I0, e00, e01, e10, e11]
  obtain ⟨st, h, -⟩ := second_diagonal (n := 2) 1 (first 2 A S) (by omega) (fun i => by
    cases i with
    | zero => rfl
    | succ i =>
      refine (clear_zero fun k hk => ?_).2
      have hk := mem_Ico.1 hk
      obtain rfl : i = 0 := by omega
      obtain rfl : k = 1 := by omega
      exact b1)
  exact ⟨st, h⟩

theorem hh_dot {m n : ℕ} {u : ℕ → ℝ} {g : ℝ} (h : Refl m n u g) (y z : ℕ → ℝ) :
    ∑ k ∈ Ico m n, hh m n u g y k * hh m n u g z k = ∑ k ∈ Ico m n, y k * z k := by
  have : ∀ k, hh m n u g y k * hh m n u g z k = y k * z k + g * (∑ k ∈ Ico m n, u k * z k) * (u k * y k) +
      g * (∑ k ∈ Ico m n, u k * y k) * (u k * z k) +
      g * g * (∑ k ∈ Ico m n, u k * y k) * (∑ k ∈ Ico m n, u k * z k) * (u k * u k) := fun k => by unfold hh; ring
  rw [sum_congr rfl fun k _ => this k, sum_add_distrib, sum_add_distrib, sum_add_distrib, ← mul_sum, ← mul_sum, ← mul_sum]
  unfold Refl at h
  linear_combination (∑ k ∈ Ico m n, u k * y k) * (∑ k ∈ Ico m n, u k * z k) * h

/-- A column longer than the tolerance is beyond it, and its length is kept. -/
theorem clear_of_norm {m n : ℕ} {x : ℕ → ℝ} (h : eps ^ 2 < ∑ k ∈ Ico m n, x k * x k) :
    eps < |hval m n x| ∧ hval m n x ^ 2 = ∑ k ∈ Ico m n, x k * x k := by
  have h0 := hsum_nonneg m n x
  have h1 : ∑ k ∈ Ico m n, x k * x k ≤ hsum m n x ^ 2 := by
    rw [pow_two, hsum, sum_mul]
    refine sum_le_sum fun k hk => ?_
    rw [← abs_mul_abs_self]
    exact mul_le_mul_of_nonneg_left (single_le_sum (f := fun k => |x k|) (fun _ _ => abs_nonneg _) hk) (abs_nonneg _)
  have h2 : eps < hsum m n x := lt_of_pow_lt_pow_left₀ 2 h0 (h.trans_le h1)
  have h3 : hval m n x = hsum m n x * hF1 m n x := by
    rw [hval, if_neg]
    rw [abs_of_nonneg h0]
    exact not_le.2 h2
  have h4 : hval m n x ^ 2 = ∑ k ∈ Ico m n, x k * x k := by
    rw [h3, mul_pow, hF1_sq, hf1, mul_sum]
    refine sum_congr rfl fun k _ => ?_
    have : hsum m n x ≠ 0 := by linarith [eps_pos]
    field_simp
  refine ⟨lt_of_pow_lt_pow_left₀ 2 (abs_nonneg _) ?_, h4⟩
  rw [sq_abs, h4]
  exact h

/-- What holds of the columns from `i` on after `i` steps, if the columns are orthogonal. -/
theorem mats_columns {n : ℕ} {A : ℕ → ℕ → ℝ} (h0 : ∀ c < n, ∀ c' < n, c ≠ c' → ∑ r ∈ range n, A r c * A r c' = 0)
    (h1 : ∀ c < n, eps ^ 2 < ∑ r ∈ range n, A r c * A r c) : ∀ i ≤ n,
    (∀ c ∈ Ico i n, ∀ c' ∈ Ico i n, ∑ r ∈ Ico i n, mats n A i r c * mats n A i r c' = ∑ r ∈ range n, A r c * A r c') ∧
    ∀ j < i, diag n A j ^ 2 = ∑ r ∈ range n, A r j * A r j ∧ eps < |diag n A j| ∧
      ∀ k ∈ Ico (j + 1) n, left n (mats n A j) j j k = 0 := by
  intro i
  induction i with
  | zero =>
    intro _
    refine ⟨fun c _ c' _ => ?_, fun j hj => by omega⟩
    rw [range_eq_Ico]
    rfl
  | succ i ih =>
    intro hi
    obtain ⟨g1, g2⟩ := ih (by omega)
    have hin : i < n := by omega
    have hmem : i ∈ Ico i n := mem_Ico.2 ⟨le_rfl, hin⟩
    have hii := g1 i hmem i hmem
    obtain ⟨b1, b2⟩ := clear_of_norm (m := i) (n := n) (x := fun r => mats n A i r i) (by
      show eps ^ 2 < ∑ k ∈ Ico i n, mats n A i k i * mats n A i k i
      rw [hii]; exact h1 i hin)
    have hcl : Clear i n fun r => mats n A i r i := .inl b1
    have hR := refl_gg hin (fun r => mats n A i r i)
    have hsub : ∀ {k}, k ∈ Ico (i + 1) n → k ∈ Ico i n := fun hk => by
      rw [mem_Ico] at hk ⊢; omega
    have hleft : ∀ c ∈ Ico (i + 1) n, ∀ r ∈ Ico i n, left n (mats n A i) i r c =
        hh i n (hu i n fun r => mats n A i r i) (gg i n fun r => mats n A i r i) (fun k => mats n A i k c) r :=
      fun c hc r hr => left_clear hcl (mem_Ico.1 hr).1 (by have := mem_Ico.1 hc; omega)
    have hrow : ∀ k ∈ Ico (i + 1) n, left n (mats n A i) i i k = 0 := by
      intro k hk
      have hd := hh_dot hR (fun r => mats n A i r i) (fun r => mats n A i r k)
      rw [g1 i hmem k (hsub hk), h0 i hin k (mem_Ico.1 hk).2 (by have := mem_Ico.1 hk; omega)] at hd
      rw [sum_congr rfl fun r hr => by rw [hh_clear hin hcl hr, ← hleft k hk r hr], sum_eq_sum_Ico_succ_bot hin,
        if_pos rfl, sum_eq_zero, add_zero] at hd
      · rcases mul_eq_zero.1 hd with h | h
        · rw [h, abs_zero] at b1
          exact absurd b1 (not_lt.2 eps_pos.le)
        · exact h
      · intro r hr
        rw [if_neg (by have := mem_Ico.1 hr; omega), zero_mul]
    have hnext : ∀ r c, mats n A (i + 1) r c = left n (mats n A i) i r c := by
      intro r c
      show right n (left n (mats n A i) i) i r c = _
      unfold right
      rw [if_pos (clear_zero hrow).1]
    refine ⟨fun c hc c' hc' => ?_, fun j hj => ?_⟩
    · rw [← g1 c (hsub hc) c' (hsub hc'), ← hh_dot hR (fun r => mats n A i r c) (fun r => mats n A i r c')]
      rw [sum_eq_sum_Ico_succ_bot hin, ← hleft c hc i hmem, hrow c hc, zero_mul, zero_add]
      refine sum_congr rfl fun r hr => ?_
      rw [hnext, hnext, hleft c hc r (hsub hr), hleft c' hc' r (hsub hr)]
    · rcases Nat.lt_succ_iff_lt_or_eq.1 hj with h | rfl
      · exact g2 j h
      · exact ⟨b2.trans hii, b1, hrow⟩

/-- A square matrix of orthogonal columns, each longer than the tolerance, is decomposed without a failure: the singular
values are the lengths of the columns, and the product of the left vectors, the singular values and the right vectors is the
matrix. -/
theorem svd_columns {n : ℕ} {A : ℕ → ℕ → ℝ} (h0 : ∀ c ≤ n, ∀ c' ≤ n, c ≠ c' → ∑ r ∈ range (n + 1), A r c * A r c' = 0)
    (h1 : ∀ c ≤ n, eps ^ 2 < ∑ r ∈ range (n + 1), A r c * A r c) (S : ℕ → ℕ → ℝ) : ∃ st, svd n A S = .ok st ∧
    (∀ c ≤ n, st.V c = Real.sqrt (∑ r ∈ range (n + 1), A r c * A r c)) ∧
    ∀ r ≤ n, ∀ b ≤ n, ∑ c ∈ range (n + 1), st.M r c * st.V c * st.S b c = A r b := by
  obtain ⟨-, h2⟩ := mats_columns (n := n + 1) (fun c hc c' hc' => h0 c (by omega) c' (by omega))
    (fun c hc => h1 c (by omega)) (n + 1) le_rfl
  have hclear : AllClear (n + 1) A := fun i hi => ⟨.inl (h2 i hi).2.1, .inr (h2 i hi).2.2⟩
  have hwork : ∀ i, above (n + 1) A i = 0 := by
    intro i
    cases i with
    | zero => rfl
    | succ i =>
      refine (clear_zero fun k hk => ?_).2
      have := mem_Ico.1 hk
      exact (h2 i (by omega)).2.2 k hk
  obtain ⟨st, hs, hV, -, hM, hS⟩ := second_diagonal (n := n + 1) n (first (n + 1) A S) (by omega) hwork
  refine ⟨st, hs, fun c hc => ?_, fun r hr b hb => ?_⟩
  · rw [hV, if_pos hc, ← (h2 c (by omega)).1, Real.sqrt_sq_eq_abs]
    rfl
  · rw [← first_product hclear S (r := r) (b := b) (by omega) (by omega), Spec.product]
    refine sum_congr rfl fun c _ => ?_
    rw [mul_assoc, hS, hM, Spec.element]
    have : ∀ i, (first (n + 1) A S).work i = 0 := hwork
    simp only [this]
    simp
    ring

/-- The hypotheses of `svd_columns` are met by the matrix with the rows `3, -4` and `4, 3`, whose singular values are both
`5`. -/
example (S : ℕ → ℕ → ℝ) : ∃ st, svd 1 (fun r c => if r = c then 3 else if r = 0 then -4 else 4) S = .ok st ∧
    st.V 0 = 5 ∧ st.V 1 = 5 := by
  have he := eps_lt_one
  have hp := eps_pos
  have hs : Real.sqrt 25 = 5 := by
    rw [show (25 : ℝ) = 5 ^ 2 by norm_num]
    exact Real.sqrt_sq (by norm_num)
  obtain ⟨st, h, hV, -⟩ := svd_columns (n := 1) (A := fun r c => if r = c then 3 else if r = 0 then -4 else 4)
    (fun c hc c' hc' hne => by
      rcases (show c = 0 ∧ c' = 1 ∨ c = 1 ∧ c' = 0 by omega) with ⟨rfl, rfl⟩ | ⟨rfl, rfl⟩ <;>
        norm_num [sum_range_succ])
    (fun c hc => by
      rcases (show c = 0 ∨ c = 1 by omega) with rfl | rfl <;> norm_num [sum_range_succ] <;> nlinarith) S
  refine ⟨st, h, ?_, ?_⟩
  · rw [hV 0 (by omega)]
    norm_num [sum_range_succ, hs]
  · rw [hV 1 (by omega)]
    norm_num [sum_range_succ, hs]

theorem svd_factors {n : ℕ} {A S : ℕ → ℕ → ℝ} {st : Parts} (h : svd n A S = .ok st)
    (hA : ∀ r ≤ n, ∀ b ≤ n, ∑ c ∈ range (n + 1), st.M r c * st.V c * st.S b c = A r b) :
    Spec.matrix (n + 1) st.M * (Spec.matrix (n + 1) st.M).transpose = 1 ∧
    Spec.matrix (n + 1) st.S * (Spec.matrix (n + 1) st.S).transpose = 1 ∧
    Spec.matrix (n + 1) A = Spec.matrix (n + 1) st.M * Matrix.diagonal (fun i : Fin (n + 1) => st.V i) *
      (Spec.matrix (n + 1) st.S).transpose := by
  obtain ⟨-, ho⟩ := svd_orthonormal h
  refine ⟨?_, ?_, ?_⟩
  · ext i j
    rw [Matrix.mul_apply, Matrix.one_apply]
    have := (ho i (by omega) j (by omega)).1
    rw [Spec.dot, ← Fin.sum_univ_eq_sum_range (fun k => st.M i k * st.M j k)] at this
    simp only [Fin.ext_iff]
    exact this
  · ext i j
    rw [Matrix.mul_apply, Matrix.one_apply]
    have := (ho i (by omega) j (by omega)).2
    rw [Spec.dot, ← Fin.sum_univ_eq_sum_range (fun k => st.S i k * st.S j k)] at this
    simp only [Fin.ext_iff]
    exact this
  · ext i j
    rw [Matrix.mul_apply]
    simp only [Matrix.mul_diagonal, Matrix.transpose_apply]
    have := hA i (by omega) j (by omega)
    rw [← Fin.sum_univ_eq_sum_range (fun k => st.M i k * st.V k * st.S j k)] at this
    exact this.symm

/-- `SVDsolve` (TLASimp.h 383-391) with what `SVD` has made of a square matrix gives a least-squares solution, and an exact
one if no singular value is zero, provided that the product of the three is the matrix. -/
theorem svd_solve {n : ℕ} {A S : ℕ → ℕ → ℝ} {st : Parts} (h : svd n A S = .ok st)
    (hA : ∀ r ≤ n, ∀ b ≤ n, ∑ c ∈ range (n + 1), st.M r c * st.V c * st.S b c = A r b) (b : Fin (n + 1) → ℝ) :
    let x := LU.svdSolve (Spec.matrix (n + 1) st.M) (fun i => st.V i) (Spec.matrix (n + 1) st.S) b
    (∀ y, LU.Spec.residual (Spec.matrix (n + 1) A) x b ≤ LU.Spec.residual (Spec.matrix (n + 1) A) y b) ∧
    ((∀ c ≤ n, st.V c ≠ 0) → (Spec.matrix (n + 1) A).mulVec x = b) := by
  obtain ⟨hU, hS, hp⟩ := svd_factors h hA
  refine ⟨fun y => LU.svd_least_squares _ _ _ _ b (mul_eq_one_comm.1 hU) (mul_eq_one_comm.1 hS) hp y, fun hV => ?_⟩
  rw [hp, LU.svd_apply _ _ _ b (mul_eq_one_comm.1 hS)]
  have : (fun i : Fin (n + 1) => if st.V i = 0 then 0 else (Spec.matrix (n + 1) st.M).transpose.mulVec b i) =
      (Spec.matrix (n + 1) st.M).transpose.mulVec b := by
    funext i
    rw [if_neg (hV i (by omega))]
  rw [this, Matrix.mulVec_mulVec, hU, Matrix.one_mulVec]

/-- For a matrix of orthogonal columns each longer than the tolerance, `SVD` and `SVDsolve` together give the exact
solution. -/
theorem svd_solve_columns {n : ℕ} {A : ℕ → ℕ → ℝ}
    (h0 : ∀ c ≤ n, ∀ c' ≤ n, c ≠ c' → ∑ r ∈ range (n + 1), A r c * A r c' = 0)
    (h1 : ∀ c ≤ n, eps ^ 2 < ∑ r ∈ range (n + 1), A r c * A r c) (S : ℕ → ℕ → ℝ) (b : Fin (n + 1) → ℝ) :
    ∃ st, svd n A S = .ok st ∧ (Spec.matrix (n + 1) A).mulVec
      (LU.svdSolve (Spec.matrix (n + 1) st.M) (fun i => st.V i) (Spec.matrix (n + 1) st.S) b) = b := by
  obtain ⟨st, h, hV, hA⟩ := svd_columns h0 h1 S
  refine ⟨st, h, (svd_solve h hA b).2 fun c hc => ?_⟩
  rw [hV c hc]
  exact (Real.sqrt_pos.2 ((by have := eps_pos; positivity : 0 < eps ^ 2).trans (h1 c hc))).ne'

/-- The hypotheses of `svd_solve_columns`, and through `svd_columns` those of `svd_solve`, are met by the matrix with the rows
`3, -4` and `4, 3`. -/
example (S : ℕ → ℕ → ℝ) (b : Fin 2 → ℝ) : ∃ st,
    svd 1 (fun r c => if r = c then 3 else if r = 0 then -4 else 4) S = .ok st ∧
    (Spec.matrix 2 fun r c => if r = c then 3 else if r = 0 then -4 else 4).mulVec
      (LU.svdSolve (Spec.matrix 2 st.M) (fun i => st.V i) (Spec.matrix 2 st.S) b) = b := by
  have he := eps_lt_one
  have hp := eps_pos
  exact svd_solve_columns (n := 1)
    (fun c hc c' hc' hne => by
      rcases (show c = 0 ∧ c' = 1 ∨ c = 1 ∧ c' = 0 by omega) with ⟨rfl, rfl⟩ | ⟨rfl, rfl⟩ <;>
        norm_num [sum_range_succ])
    (fun c hc => by
      rcases (show c = 0 ∨ c = 1 by omega) with rfl | rfl <;> norm_num [sum_range_succ] <;> nlinarith) S b

end Verif.SVD
