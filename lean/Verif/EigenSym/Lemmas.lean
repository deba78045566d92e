import Mathlib.Algebra.BigOperators.Intervals
import Mathlib.Tactic.Linarith
import Mathlib.Tactic.LinearCombination
import Mathlib.Tactic.FieldSimp
import Mathlib.Tactic.Ring
import Verif.EigenSym.Model
import Verif.EigenSym.Spec

/-! # Sweeps as rotations of a tridiagonal matrix with one element beside it -/

namespace Verif.EigenSym

open Finset

theorem pythag_sq (a b : ℝ) : pythag a b ^ 2 = a ^ 2 + b ^ 2 := by
  unfold pythag
  split
  next h =>
    have : 0 < |a| := lt_of_le_of_lt (abs_nonneg b) h
    rw [mul_pow, Real.sq_sqrt (by positivity), div_pow, sq_abs, sq_abs]
    have : a ≠ 0 := abs_pos.1 this
    field_simp
  next h =>
    split
    next hb =>
      have hb' : b = 0 := abs_eq_zero.1 hb
      have ha : a = 0 := abs_eq_zero.1 (le_antisymm (by linarith) (abs_nonneg a))
      simp [hb', ha]
    next hb =>
      rw [mul_pow, Real.sq_sqrt (by positivity), div_pow, sq_abs, sq_abs]
      have : b ≠ 0 := fun h => hb (by simp [h])
      field_simp
      ring

theorem pythag_nonneg (a b : ℝ) : 0 ≤ pythag a b := by
  unfold pythag
  split
  · positivity
  · split <;> positivity

/-- The form of the matrix whose elements are kept as `tqli` keeps them, with the row `u` and the row `v`. -/
def Q (n : ℕ) (d e u v : ℕ → ℝ) : ℝ :=
  ∑ k ∈ range n, (d k * (u k * v k) + e k * (u k * v (k + 1) + u (k + 1) * v k))

/-- The sum of squares. -/
def N (n : ℕ) (d e : ℕ → ℝ) : ℝ := ∑ k ∈ range n, (d k ^ 2 + 2 * e k ^ 2)

/-- No elements below `j`. -/
noncomputable def mask (j : ℕ) (e : ℕ → ℝ) : ℕ → ℝ := fun k => if k < j then 0 else e k

/-- The terms from `q` on, without the element `m`. -/
noncomputable def tail (n m q : ℕ) (d e u v : ℕ → ℝ) : ℝ :=
  ∑ k ∈ Ico q n, (d k * (u k * v k) + (if k = m then 0 else e k) * (u k * v (k + 1) + u (k + 1) * v k))

/-- The terms from `j` up to `j + k`. -/
noncomputable def low (j k : ℕ) (d e u v : ℕ → ℝ) : ℝ :=
  ∑ k ∈ range j, d k * (u k * v k) +
    ∑ t ∈ range k, (d (j + t) * (u (j + t) * v (j + t)) +
      e (j + t) * (u (j + t) * v (j + t + 1) + u (j + t + 1) * v (j + t)))

/-- The form of the matrix within a sweep, at `q = j + k`. -/
noncomputable def V (n m j : ℕ) (d e u v : ℕ → ℝ) (L : Loc) : ℕ → ℝ
  | 0 => low j 0 d e u v + (d j - L.p) * (u j * v j)
      + (if j < m then L.g else 0) * (u j * v (j + 1) + u (j + 1) * v j) + tail n m (j + 1) d e u v
  | k + 1 => low j k d e u v + d (j + k) * (u (j + k) * v (j + k))
      + L.c * e (j + k) * (u (j + k) * v (j + k + 1) + u (j + k + 1) * v (j + k))
      + (if j + k + 1 < m then L.s * e (j + k) else 0) * (u (j + k) * v (j + k + 2) + u (j + k + 2) * v (j + k))
      + (d (j + k + 1) - L.p) * (u (j + k + 1) * v (j + k + 1))
      + (if j + k + 1 < m then L.g else 0) * (u (j + k + 1) * v (j + k + 2) + u (j + k + 2) * v (j + k + 1))
      + tail n m (j + k + 2) d e u v

theorem low_succ (j k : ℕ) (d e u v : ℕ → ℝ) : low j (k + 1) d e u v = low j k d e u v +
    (d (j + k) * (u (j + k) * v (j + k)) + e (j + k) * (u (j + k) * v (j + k + 1) + u (j + k + 1) * v (j + k))) := by
  simp only [low, sum_range_succ]
  ring

theorem low_congr {j k : ℕ} {d e u v d' e' u' v' : ℕ → ℝ} (hd : ∀ t < j + k, d' t = d t) (he : ∀ t < j + k, e' t = e t)
    (hu : ∀ t, t < j ∨ (k ≠ 0 ∧ t ≤ j + k) → u' t = u t) (hv : ∀ t, t < j ∨ (k ≠ 0 ∧ t ≤ j + k) → v' t = v t) :
    low j k d' e' u' v' = low j k d e u v := by
  unfold low
  congr 1
  · refine sum_congr rfl fun t ht => ?_
    have := mem_range.1 ht
    rw [hd t (by omega), hu t (by omega), hv t (by omega)]
  · refine sum_congr rfl fun t ht => ?_
    have := mem_range.1 ht
    rw [hd _ (by omega), he _ (by omega), hu (j + t) (by omega), hv (j + t) (by omega), hu (j + t + 1) (by omega),
      hv (j + t + 1) (by omega)]

theorem tail_congr {n m q : ℕ} {d e u v d' e' u' v' : ℕ → ℝ} (hd : ∀ t, q ≤ t → d' t = d t)
    (he : ∀ t, q ≤ t → t ≠ m → e' t = e t) (hu : ∀ t, q ≤ t → u' t = u t) (hv : ∀ t, q ≤ t → v' t = v t) :
    tail n m q d' e' u' v' = tail n m q d e u v := by
  unfold tail
  refine sum_congr rfl fun t ht => ?_
  have := mem_Ico.1 ht
  by_cases h : t = m
  · simp only [h, if_true, zero_mul]
    subst h
    rw [hd _ (by omega), hu _ (by omega), hv _ (by omega)]
  · simp only [h, if_false]
    rw [hd _ (by omega), he _ (by omega) h, hu t (by omega), hv t (by omega), hu (t + 1) (by omega),
      hv (t + 1) (by omega)]

theorem tail_first {n m q : ℕ} (h : q < n) (d e u v : ℕ → ℝ) : tail n m q d e u v =
    d q * (u q * v q) + (if q = m then 0 else e q) * (u q * v (q + 1) + u (q + 1) * v q)
      + tail n m (q + 1) d e u v := by
  unfold tail
  rw [sum_eq_sum_Ico_succ_bot h]

/-- A row rotated. -/
noncomputable def rotRow (s c : ℝ) (i : ℕ) (u : ℕ → ℝ) : ℕ → ℝ := fun l =>
  if l = i + 1 then s * u i + c * u (i + 1) else if l = i then c * u i - s * u (i + 1) else u l

theorem rotate_row {n k : ℕ} (h : k < n) (s c : ℝ) (i : ℕ) (Z : ℕ → ℕ → ℝ) :
    rotate n s c i Z k = rotRow s c i (Z k) := by
  funext l
  simp [rotate, rotRow, h]

/-- The rotation of two rows and columns. -/
theorem block (s c d G b x y z w : ℝ) (h : s ^ 2 + c ^ 2 = 1) :
    (d - s * ((d - G) * s + 2 * c * b)) * ((c * x - s * y) * (c * z - s * w))
      + (c * ((d - G) * s + 2 * c * b) - b) * ((c * x - s * y) * (s * z + c * w) + (s * x + c * y) * (c * z - s * w))
      + (G + s * ((d - G) * s + 2 * c * b)) * ((s * x + c * y) * (s * z + c * w))
    = d * (x * z) + b * (x * w + y * z) + G * (y * w) := by
  grind

theorem V_step {n m j k : ℕ} {d e u v : ℕ → ℝ} {L : Loc} {r s c : ℝ} (hm : j + k + 1 ≤ m) (hn : m < n)
    (h1 : s ^ 2 + c ^ 2 = 1) (hc : c * r = L.g) {i : ℕ} (hi : i = j + k) (hs : s * r = L.s * e i)
    {G R : ℝ} (hG : G = d (i + 1) - L.p) (hR : R = (d i - G) * s + 2 * c * (L.c * e i)) :
    V n m j (Function.update d (i + 1) (G + s * R)) (Function.update e (i + 1) r) (rotRow s c i u) (rotRow s c i v)
      ⟨s, c, s * R, c * R - L.c * e i⟩ k = V n m j d e u v L (k + 1) := by
  have hr2 : ∀ w : ℕ → ℝ, rotRow s c i w (i + 1 + 1) = w (i + 2) := fun w => by
    simp only [rotRow]; rw [if_neg (by omega), if_neg (by omega)]
  have hr1 : ∀ w : ℕ → ℝ, rotRow s c i w (i + 1) = s * w i + c * w (i + 1) := fun w => by simp [rotRow]
  have ht : tail n m (i + 1) (Function.update d (i + 1) (G + s * R)) (Function.update e (i + 1) r)
      (rotRow s c i u) (rotRow s c i v) = (G + s * R) * ((s * u i + c * u (i + 1)) * (s * v i + c * v (i + 1)))
      + (if i + 1 < m then r else 0) * ((s * u i + c * u (i + 1)) * v (i + 2) + u (i + 2) * (s * v i + c * v (i + 1)))
      + tail n m (i + 2) d e u v := by
    rw [tail_first (by omega)]
    congr 1
    · have hlt : (i + 1 < m) ↔ ¬ (i + 1 = m) := by omega
      rw [hr1, hr1, hr2, hr2, Function.update_self, Function.update_self]
      simp only [hlt, ite_not]
    · refine tail_congr (fun t h => ?_) (fun t h _ => ?_) (fun t h => ?_) (fun t h => ?_)
      · rw [Function.update_of_ne (by omega)]
      · rw [Function.update_of_ne (by omega)]
      · simp only [rotRow]; rw [if_neg (by omega), if_neg (by omega)]
      · simp only [rotRow]; rw [if_neg (by omega), if_neg (by omega)]
  have hb := block s c (d i) G (L.c * e i) (u i) (u (i + 1)) (v i) (v (i + 1)) h1
  rw [← hR] at hb
  have hr0 : ∀ w : ℕ → ℝ, rotRow s c i w i = c * w i - s * w (i + 1) := fun w => by simp [rotRow]
  have hrl : ∀ (w : ℕ → ℝ) (t : ℕ), t < i → rotRow s c i w t = w t := fun w t h => by
    simp only [rotRow]; rw [if_neg (by omega), if_neg (by omega)]
  have hbr : ∀ x y z w x' w' : ℝ,
      (if i + 1 < m then r else 0) * ((s * x + c * y) * w' + x' * (s * z + c * w)) =
      (if i + 1 < m then L.s * e i else 0) * (x * w' + x' * z) + (if i + 1 < m then L.g else 0) * (y * w' + x' * w) := by
    intro x y z w x' w'
    split
    · rw [← hs, ← hc]; ring
    · ring
  have hb' := hbr (u i) (u (i + 1)) (v i) (v (i + 1)) (u (i + 2)) (v (i + 2))
  cases k with
  | zero =>
    obtain rfl : i = j := hi
    have hl : low i 0 (Function.update d (i + 1) (G + s * R)) (Function.update e (i + 1) r)
        (rotRow s c i u) (rotRow s c i v) = low i 0 d e u v := by
      refine low_congr (fun t h => ?_) (fun t h => ?_) (fun t h => ?_) (fun t h => ?_)
      · rw [Function.update_of_ne (by omega)]
      · rw [Function.update_of_ne (by omega)]
      · exact hrl _ _ (by omega)
      · exact hrl _ _ (by omega)
    simp only [V, hl, Nat.add_zero]
    rw [ht, Function.update_of_ne (by omega), hr0, hr0, hr1, hr1, if_pos (by omega), ← hG]
    linear_combination hb + hb'
  | succ k =>
    have hl : low j k (Function.update d (i + 1) (G + s * R)) (Function.update e (i + 1) r)
        (rotRow s c i u) (rotRow s c i v) = low j k d e u v := by
      refine low_congr (fun t h => ?_) (fun t h => ?_) (fun t h => ?_) (fun t h => ?_)
      · rw [Function.update_of_ne (by omega)]
      · rw [Function.update_of_ne (by omega)]
      · exact hrl _ _ (by omega)
      · exact hrl _ _ (by omega)
    have hi' : j + k + 1 = i := by omega
    have hi2 : j + k + 2 = i + 1 := by omega
    have hi3 : j + (k + 1) = i := by omega
    have hlt : j + k < i := by omega
    simp only [V, hl, low_succ, hi', hi2, hi3]
    rw [ht, Function.update_of_ne (by omega), Function.update_of_ne (by omega), Function.update_of_ne (by omega),
      hr0, hr0, hr1, hr1, hrl _ _ hlt, hrl _ _ hlt, if_pos (by omega), if_pos (by omega), ← hG]
    linear_combination hb + hb' + e (j + k) * (u (j + k) * v i + u i * v (j + k)) * h1

/-! ## Squares and the trace -/

/-- The squares from `q` on, without the element `m`. -/
noncomputable def tailN (n m q : ℕ) (d e : ℕ → ℝ) : ℝ :=
  ∑ k ∈ Ico q n, (d k ^ 2 + 2 * (if k = m then 0 else e k) ^ 2)

/-- The squares up to `j + k`. -/
noncomputable def lowN (j k : ℕ) (d e : ℕ → ℝ) : ℝ :=
  ∑ k ∈ range j, d k ^ 2 + ∑ t ∈ range k, (d (j + t) ^ 2 + 2 * e (j + t) ^ 2)

/-- The sum of squares within a sweep. -/
noncomputable def NV (n m j : ℕ) (d e : ℕ → ℝ) (L : Loc) : ℕ → ℝ
  | 0 => lowN j 0 d e + (d j - L.p) ^ 2 + 2 * (if j < m then L.g else 0) ^ 2 + tailN n m (j + 1) d e
  | k + 1 => lowN j k d e + d (j + k) ^ 2 + 2 * (L.c * e (j + k)) ^ 2
      + 2 * (if j + k + 1 < m then L.s * e (j + k) else 0) ^ 2 + (d (j + k + 1) - L.p) ^ 2
      + 2 * (if j + k + 1 < m then L.g else 0) ^ 2 + tailN n m (j + k + 2) d e

theorem lowN_congr {j k : ℕ} {d e d' e' : ℕ → ℝ} (hd : ∀ t < j + k, d' t = d t) (he : ∀ t < j + k, e' t = e t) :
    lowN j k d' e' = lowN j k d e := by
  unfold lowN
  congr 1
  · exact sum_congr rfl fun t ht => by rw [hd t (by have := mem_range.1 ht; omega)]
  · exact sum_congr rfl fun t ht => by
      have := mem_range.1 ht
      rw [hd _ (by omega), he _ (by omega)]

theorem tailN_congr {n m q : ℕ} {d e d' e' : ℕ → ℝ} (hd : ∀ t, q ≤ t → d' t = d t)
    (he : ∀ t, q ≤ t → t ≠ m → e' t = e t) : tailN n m q d' e' = tailN n m q d e := by
  unfold tailN
  refine sum_congr rfl fun t ht => ?_
  have := mem_Ico.1 ht
  by_cases h : t = m
  · simp only [h, if_true]
    rw [hd _ (by omega)]
  · simp only [h, if_false]
    rw [hd _ (by omega), he _ (by omega) h]

theorem blockN (s c d G b : ℝ) (h : s ^ 2 + c ^ 2 = 1) :
    (d - s * ((d - G) * s + 2 * c * b)) ^ 2 + 2 * (c * ((d - G) * s + 2 * c * b) - b) ^ 2
      + (G + s * ((d - G) * s + 2 * c * b)) ^ 2 = d ^ 2 + 2 * b ^ 2 + G ^ 2 := by
  grind

theorem NV_step {n m j k : ℕ} {d e : ℕ → ℝ} {L : Loc} {r s c : ℝ} (hm : j + k + 1 ≤ m) (hn : m < n)
    (h1 : s ^ 2 + c ^ 2 = 1) (hc : c * r = L.g) {i : ℕ} (hi : i = j + k) (hs : s * r = L.s * e i)
    {G R : ℝ} (hG : G = d (i + 1) - L.p) (hR : R = (d i - G) * s + 2 * c * (L.c * e i)) :
    NV n m j (Function.update d (i + 1) (G + s * R)) (Function.update e (i + 1) r)
      ⟨s, c, s * R, c * R - L.c * e i⟩ k = NV n m j d e L (k + 1) := by
  have ht : tailN n m (i + 1) (Function.update d (i + 1) (G + s * R)) (Function.update e (i + 1) r) =
      (G + s * R) ^ 2 + 2 * (if i + 1 < m then r else 0) ^ 2 + tailN n m (i + 2) d e := by
    unfold tailN
    rw [sum_eq_sum_Ico_succ_bot (by omega)]
    congr 1
    · have hlt : (i + 1 < m) ↔ ¬ (i + 1 = m) := by omega
      rw [Function.update_self, Function.update_self]
      simp only [hlt, ite_not]
    · refine tailN_congr (fun t h => ?_) (fun t h _ => ?_)
      · rw [Function.update_of_ne (by omega)]
      · rw [Function.update_of_ne (by omega)]
  have hb := blockN s c (d i) G (L.c * e i) h1
  rw [← hR] at hb
  have hb' : (if i + 1 < m then r else 0) ^ 2 =
      (if i + 1 < m then L.s * e i else 0) ^ 2 + (if i + 1 < m then L.g else 0) ^ 2 := by
    split
    · rw [← hs, ← hc]; linear_combination - r ^ 2 * h1
    · ring
  cases k with
  | zero =>
    obtain rfl : i = j := hi
    have hl : lowN i 0 (Function.update d (i + 1) (G + s * R)) (Function.update e (i + 1) r) = lowN i 0 d e := by
      refine lowN_congr (fun t h => ?_) (fun t h => ?_) <;> rw [Function.update_of_ne (by omega)]
    simp only [NV, hl, Nat.add_zero]
    rw [ht, Function.update_of_ne (by omega), if_pos (by omega), ← hG]
    linear_combination hb + 2 * hb'
  | succ k =>
    have hl : lowN j k (Function.update d (i + 1) (G + s * R)) (Function.update e (i + 1) r) = lowN j k d e := by
      refine lowN_congr (fun t h => ?_) (fun t h => ?_) <;> rw [Function.update_of_ne (by omega)]
    have hls : lowN j (k + 1) d e = lowN j k d e + (d (j + k) ^ 2 + 2 * e (j + k) ^ 2) := by
      simp only [lowN, sum_range_succ]; ring
    have hi' : j + k + 1 = i := by omega
    have hi2 : j + k + 2 = i + 1 := by omega
    have hi3 : j + (k + 1) = i := by omega
    simp only [NV, hl, hls, hi', hi2, hi3]
    rw [ht, Function.update_of_ne (by omega), Function.update_of_ne (by omega), Function.update_of_ne (by omega),
      if_pos (by omega), if_pos (by omega), ← hG]
    linear_combination hb + 2 * hb' + 2 * e (j + k) ^ 2 * h1

theorem sum_update {n i : ℕ} (h : i < n) (d : ℕ → ℝ) (x : ℝ) :
    ∑ k ∈ range n, Function.update d i x k = ∑ k ∈ range n, d k + x - d i := by
  rw [sum_update_of_mem (mem_range.2 h), ← sum_sdiff (singleton_subset_iff.2 (mem_range.2 h)) (f := d)]
  simp
  ring

theorem dot_rot {n i : ℕ} (h : i + 1 < n) {s c : ℝ} (h1 : s ^ 2 + c ^ 2 = 1) (u v : ℕ → ℝ) :
    Spec.dot n (rotRow s c i u) (rotRow s c i v) = Spec.dot n u v := by
  unfold Spec.dot
  have key : ∀ f : ℕ → ℝ, ∑ k ∈ range n, f k =
      ∑ k ∈ (range n).filter (fun k => k ≠ i ∧ k ≠ i + 1), f k + (f i + f (i + 1)) := by
    intro f
    rw [← sum_filter_add_sum_filter_not (range n) (fun k => k ≠ i ∧ k ≠ i + 1)]
    congr 1
    have : (range n).filter (fun k => ¬ (k ≠ i ∧ k ≠ i + 1)) = {i, i + 1} := by
      ext k; simp only [mem_filter, mem_range, mem_insert, mem_singleton]; omega
    rw [this, sum_pair (by omega)]
  rw [key, key (fun k => u k * v k)]
  congr 1
  · refine sum_congr rfl fun k hk => ?_
    have := (mem_filter.1 hk).2
    simp only [rotRow]
    rw [if_neg this.2, if_neg this.1, if_neg this.2, if_neg this.1]
  · have h2 : ¬ (i = i + 1) := by omega
    simp only [rotRow, h2, if_true, if_false]
    linear_combination (u i * v i + u (i + 1) * v (i + 1)) * h1

/-! ## A sweep -/

theorem chase_spec {n m j : ℕ} (hn : m < n) : ∀ (k : ℕ) (st : St) (L : Loc), j + k ≤ m → L.s ≠ 0 →
    (∀ t, j ≤ t → t < j + k → st.e t ≠ 0) →
    ∃ st' L', chase n m j k st L = .done st' L' ∧
      (∀ a < n, ∀ b < n, V n m j st'.d st'.e (st'.Z a) (st'.Z b) L' 0 = V n m j st.d st.e (st.Z a) (st.Z b) L k) ∧
      NV n m j st'.d st'.e L' 0 = NV n m j st.d st.e L k ∧
      ∑ t ∈ range n, st'.d t - L'.p = ∑ t ∈ range n, st.d t - L.p ∧
      (∀ a < n, ∀ b < n, Spec.dot n (st'.Z a) (st'.Z b) = Spec.dot n (st.Z a) (st.Z b)) ∧
      (∀ t, m < t → st'.e t = st.e t) := by
  intro k
  induction k with
  | zero => intro st L _ _ _; exact ⟨st, L, rfl, fun _ _ _ _ => rfl, rfl, rfl, fun _ _ _ _ => rfl, fun _ _ => rfl⟩
  | succ k ih =>
    intro st L hm hs he
    have hf : L.s * st.e (j + k) ≠ 0 := mul_ne_zero hs (he _ (by omega) (by omega))
    have hsq := pythag_sq (L.s * st.e (j + k)) L.g
    have hr : pythag (L.s * st.e (j + k)) L.g ≠ 0 := by
      intro h
      rw [h] at hsq
      have := sq_nonneg L.g
      have : 0 < (L.s * st.e (j + k)) ^ 2 := by positivity
      linarith
    simp only [chase, hr, if_false]
    generalize pythag (L.s * st.e (j + k)) L.g = r at hsq hr
    have h1 : (L.s * st.e (j + k) / r) ^ 2 + (L.g / r) ^ 2 = 1 := by
      rw [div_pow, div_pow, ← add_div, ← hsq]
      exact div_self (pow_ne_zero 2 hr)
    obtain ⟨st', L', hc, hV, hN, hT, hD, hE⟩ := ih
      ⟨Function.update st.d (j + k + 1) (st.d (j + k + 1) - L.p + L.s * st.e (j + k) / r *
          ((st.d (j + k) - (st.d (j + k + 1) - L.p)) * (L.s * st.e (j + k) / r) + 2 * (L.g / r) * (L.c * st.e (j + k)))),
        Function.update st.e (j + k + 1) r, rotate n (L.s * st.e (j + k) / r) (L.g / r) (j + k) st.Z⟩
      ⟨L.s * st.e (j + k) / r, L.g / r, L.s * st.e (j + k) / r *
          ((st.d (j + k) - (st.d (j + k + 1) - L.p)) * (L.s * st.e (j + k) / r) + 2 * (L.g / r) * (L.c * st.e (j + k))),
        L.g / r *
          ((st.d (j + k) - (st.d (j + k + 1) - L.p)) * (L.s * st.e (j + k) / r) + 2 * (L.g / r) * (L.c * st.e (j + k)))
          - L.c * st.e (j + k)⟩
      (by omega) (div_ne_zero hf hr) (fun t h h' => by
        show Function.update st.e (j + k + 1) r t ≠ 0
        rw [Function.update_of_ne (by omega)]; exact he t h (by omega))
    refine ⟨st', L', hc, fun a ha b hb => ?_, ?_, ?_, fun a ha b hb => ?_, fun t ht => ?_⟩
    · rw [hV a ha b hb]
      simp only [rotate_row ha, rotate_row hb]
      exact V_step (by omega) hn h1 (div_mul_cancel₀ _ hr) rfl (div_mul_cancel₀ _ hr) rfl rfl
    · rw [hN]
      exact NV_step (by omega) hn h1 (div_mul_cancel₀ _ hr) rfl (div_mul_cancel₀ _ hr) rfl rfl
    · rw [hT]
      simp only
      rw [sum_update (by omega)]
      ring
    · rw [hD a ha b hb]
      simp only [rotate_row ha, rotate_row hb]
      exact dot_rot (by omega) h1 _ _
    · rw [hE t ht]
      show Function.update st.e (j + k + 1) r t = st.e t
      rw [Function.update_of_ne (by omega)]

theorem split3 {j q n : ℕ} (h : j ≤ q) (h' : q ≤ n) (f : ℕ → ℝ) : ∑ k ∈ range n, f k =
    ∑ k ∈ range j, f k + ∑ t ∈ range (q - j), f (j + t) + ∑ k ∈ Ico q n, f k := by
  rw [← sum_range_add_sum_Ico f h', ← sum_range_add_sum_Ico f h, sum_Ico_eq_sum_range]

theorem Q_split {n m j q : ℕ} (h : j ≤ q) (hq : q ≤ m) (hn : m < n) (d e u v : ℕ → ℝ) :
    Q n d (mask j (Function.update e m 0)) u v = low j (q - j) d e u v + tail n m q d e u v := by
  unfold Q low tail
  rw [split3 h (by omega)]
  congr 1
  · congr 1
    · refine sum_congr rfl fun k hk => ?_
      have := mem_range.1 hk
      simp [mask, this]
    · refine sum_congr rfl fun t ht => ?_
      have := mem_range.1 ht
      have h1 : ¬ (j + t < j) := by omega
      simp only [mask, h1, if_false]
      rw [Function.update_of_ne (by omega)]
  · refine sum_congr rfl fun k hk => ?_
    have := mem_Ico.1 hk
    have h1 : ¬ (k < j) := by omega
    by_cases hkm : k = m
    · subst hkm; simp [mask, h1]
    · simp [mask, h1, hkm]

theorem N_split {n m j q : ℕ} (h : j ≤ q) (hq : q ≤ m) (hn : m < n) (d e : ℕ → ℝ) :
    N n d (mask j (Function.update e m 0)) = lowN j (q - j) d e + tailN n m q d e := by
  unfold N lowN tailN
  rw [split3 h (by omega)]
  congr 1
  · congr 1
    · refine sum_congr rfl fun k hk => ?_
      have := mem_range.1 hk
      simp [mask, this]
    · refine sum_congr rfl fun t ht => ?_
      have := mem_range.1 ht
      have h1 : ¬ (j + t < j) := by omega
      simp only [mask, h1, if_false]
      rw [Function.update_of_ne (by omega)]
  · refine sum_congr rfl fun k hk => ?_
    have := mem_Ico.1 hk
    have h1 : ¬ (k < j) := by omega
    by_cases hkm : k = m
    · subst hkm; simp [mask, h1]
    · simp [mask, h1, hkm]

theorem den_ne (g : ℝ) : g + sign (pythag g 1) g ≠ 0 := by
  have hsq := pythag_sq g 1
  have h0 := pythag_nonneg g 1
  have hpos : 0 < pythag g 1 := by
    rcases h0.lt_or_eq with h | h
    · exact h
    · rw [← h] at hsq; have := sq_nonneg g; linarith
  unfold sign
  rw [abs_of_pos hpos]
  split <;> intro h <;> linarith

/-- A sweep is an exact similarity of the matrix without the element `m`. -/
theorem sweep_spec {n m j : ℕ} {st : St} (hj : j < m) (hn : m < n) (he : ∀ t, j ≤ t → t < m → st.e t ≠ 0) :
    ∃ st', sweep n m j st = .ok st' ∧
      (∀ a < n, ∀ b < n, Q n st'.d (mask j st'.e) (st'.Z a) (st'.Z b) =
        Q n st.d (mask j (Function.update st.e m 0)) (st.Z a) (st.Z b)) ∧
      N n st'.d (mask j st'.e) = N n st.d (mask j (Function.update st.e m 0)) ∧
      ∑ t ∈ range n, st'.d t = ∑ t ∈ range n, st.d t ∧
      (∀ a < n, ∀ b < n, Spec.dot n (st'.Z a) (st'.Z b) = Spec.dot n (st.Z a) (st.Z b)) ∧
      st'.e m = 0 ∧ (∀ t, m < t → st'.e t = st.e t) := by
  have hej : st.e j ≠ 0 := he j le_rfl hj
  have h2 : ¬ (2 * st.e j = 0) := by simpa using hej
  unfold sweep
  rw [if_neg h2]
  simp only [den_ne, if_false]
  generalize st.d m - st.d j + st.e j / _ = g
  obtain ⟨st', L', hc, hV, hN, hT, hD, hE⟩ := chase_spec (n := n) (m := m) (j := j) hn (m - j) st ⟨1, 1, 0, g⟩ (by omega)
    one_ne_zero (fun t h h' => he t h (by omega))
  obtain ⟨k, hk⟩ : ∃ k, m - j = k + 1 := ⟨m - j - 1, by omega⟩
  have hk1 : j + k + 1 = m := by omega
  rw [hc]
  refine ⟨_, rfl, fun a ha b hb => ?_, ?_, ?_, hD, ?_, fun t ht => ?_⟩
  · have hV' := hV a ha b hb
    simp only [finish]
    rw [Q_split le_rfl hj.le hn, Q_split hj.le le_rfl hn, Nat.sub_self, tail_first (q := j) (by omega),
      tail_first (q := m) (by omega), hk,
      low_succ]
    rw [hk] at hV'
    simp only [V, if_pos hj, hk1, lt_irrefl, if_false] at hV'
    rw [show j + k + 2 = m + 1 by omega] at hV'
    have hl : low j 0 (Function.update st'.d j (st'.d j - L'.p)) (Function.update st'.e j L'.g) (st'.Z a) (st'.Z b) =
        low j 0 st'.d st'.e (st'.Z a) (st'.Z b) :=
      low_congr (fun t h => Function.update_of_ne (by omega) _ _) (fun t h => Function.update_of_ne (by omega) _ _)
        (fun _ _ => rfl) (fun _ _ => rfl)
    have htl : tail n m (j + 1) (Function.update st'.d j (st'.d j - L'.p)) (Function.update st'.e j L'.g) (st'.Z a)
        (st'.Z b) = tail n m (j + 1) st'.d st'.e (st'.Z a) (st'.Z b) :=
      tail_congr (fun t h => Function.update_of_ne (by omega) _ _) (fun t h _ => Function.update_of_ne (by omega) _ _)
        (fun _ _ => rfl) (fun _ _ => rfl)
    rw [hl, htl, Function.update_self, Function.update_self, if_neg (by omega : ¬ (j = m)), if_pos rfl, hk1]
    linear_combination hV'
  · simp only [finish]
    rw [N_split le_rfl hj.le hn, N_split hj.le le_rfl hn, Nat.sub_self, hk]
    unfold tailN
    rw [sum_eq_sum_Ico_succ_bot (a := j) (by omega), sum_eq_sum_Ico_succ_bot (a := m) (by omega)]
    rw [hk] at hN
    simp only [NV, if_pos hj, hk1, lt_irrefl, if_false] at hN
    rw [show j + k + 2 = m + 1 by omega] at hN
    have hl : lowN j 0 (Function.update st'.d j (st'.d j - L'.p)) (Function.update st'.e j L'.g) = lowN j 0 st'.d st'.e :=
      lowN_congr (fun t h => Function.update_of_ne (by omega) _ _) (fun t h => Function.update_of_ne (by omega) _ _)
    have htl : tailN n m (j + 1) (Function.update st'.d j (st'.d j - L'.p)) (Function.update st'.e j L'.g) =
        tailN n m (j + 1) st'.d st'.e :=
      tailN_congr (fun t h => Function.update_of_ne (by omega) _ _) (fun t h _ => Function.update_of_ne (by omega) _ _)
    have hls : lowN j (k + 1) st.d st.e = lowN j k st.d st.e + (st.d (j + k) ^ 2 + 2 * st.e (j + k) ^ 2) := by
      simp only [lowN, sum_range_succ]; ring
    change _ + (_ + tailN n m (j + 1) _ _) = _ + (_ + tailN n m (m + 1) _ _)
    rw [hl, htl, hls, Function.update_self, Function.update_self, if_neg (by omega : ¬ (j = m)), if_pos rfl]
    linear_combination hN
  · simp only [finish]
    rw [sum_update (by omega)]
    simp only at hT
    linear_combination hT
  · simp [finish]
  · simp only [finish]
    rw [Function.update_of_ne (by omega), Function.update_of_ne (by omega)]
    exact hE t ht

/-! ## Elements dropped -/

theorem mask_succ_eq (j : ℕ) (e : ℕ → ℝ) : mask (j + 1) e = Function.update (mask j e) j 0 := by
  funext k
  by_cases h : k = j
  · subst h; simp [mask]
  · rw [Function.update_of_ne h]
    have : k < j + 1 ↔ k < j := by omega
    simp [mask, this]

theorem mask_update {j m : ℕ} (h : j ≤ m) (e : ℕ → ℝ) :
    mask j (Function.update e m 0) = Function.update (mask j e) m 0 := by
  funext k
  by_cases hk : k = m
  · subst hk; simp [mask]
  · simp [mask, Function.update_of_ne hk]

theorem two_le {n i : ℕ} (h : i + 1 < n) (u : ℕ → ℝ) : u i ^ 2 + u (i + 1) ^ 2 ≤ Spec.dot n u u := by
  have h1 : ∑ k ∈ {i, i + 1}, u k * u k ≤ ∑ k ∈ range n, u k * u k := by
    refine sum_le_sum_of_subset_of_nonneg (fun k hk => ?_) (fun k _ _ => mul_self_nonneg _)
    simp only [mem_insert, mem_singleton] at hk
    exact mem_range.2 (by omega)
  rw [sum_pair (by omega)] at h1
  unfold Spec.dot
  linarith [sq (u i), sq (u (i + 1))]

theorem Q_drop {n m : ℕ} (hm : m < n) (d e u v : ℕ → ℝ) :
    Q n d e u v - Q n d (Function.update e m 0) u v = e m * (u m * v (m + 1) + u (m + 1) * v m) := by
  unfold Q
  rw [← sum_sub_distrib, sum_eq_single m]
  · simp
  · intro k _ hk
    rw [Function.update_of_ne hk]; ring
  · intro h; exact absurd (mem_range.2 hm) h

theorem N_drop {n m : ℕ} (hm : m < n) (d e : ℕ → ℝ) :
    N n d e - N n d (Function.update e m 0) = 2 * e m ^ 2 := by
  unfold N
  rw [← sum_sub_distrib, sum_eq_single m]
  · simp
  · intro k _ hk
    rw [Function.update_of_ne hk]; ring
  · intro h; exact absurd (mem_range.2 hm) h

/-- What dropping a small element does to the form. -/
theorem drop_le {n m : ℕ} (hm : m < n) {d e : ℕ → ℝ} {F : ℝ} (hF : N n d e ≤ F ^ 2) (hF0 : 0 ≤ F)
    (he : m + 1 = n ∧ e m = 0 ∨ |e m| ≤ 1 / 10 ^ 12 * (|d m| + |d (m + 1)|) ∧ m + 1 < n) (u v : ℕ → ℝ) :
    |Q n d e u v - Q n d (Function.update e m 0) u v| ≤ 1 / 10 ^ 12 * F * (Spec.dot n u u + Spec.dot n v v) := by
  rw [Q_drop hm]
  have hdot : ∀ w : ℕ → ℝ, 0 ≤ Spec.dot n w w := fun w => sum_nonneg fun k _ => mul_self_nonneg _
  rcases he with ⟨-, h⟩ | ⟨h, hm'⟩
  · rw [h, zero_mul, abs_zero]
    have := hdot u; have := hdot v
    positivity
  · have hd : ∀ k < n, |d k| ≤ F := by
      intro k hk
      refine abs_le_of_sq_le_sq (le_trans ?_ hF) hF0
      calc d k ^ 2 ≤ d k ^ 2 + 2 * e k ^ 2 := by nlinarith [sq_nonneg (e k)]
        _ ≤ N n d e := single_le_sum (f := fun k => d k ^ 2 + 2 * e k ^ 2) (fun k _ => by positivity) (mem_range.2 hk)
    have h1 := hd m hm
    have h2 := hd (m + 1) hm'
    have h3 : |e m| ≤ 1 / 10 ^ 12 * (2 * F) := le_trans h (by linarith)
    have h4 : |u m * v (m + 1) + u (m + 1) * v m| ≤ (Spec.dot n u u + Spec.dot n v v) / 2 := by
      have := two_le hm' u
      have := two_le hm' v
      refine abs_le.2 ⟨?_, ?_⟩
      · nlinarith [sq_nonneg (u m + v (m + 1)), sq_nonneg (u (m + 1) + v m)]
      · nlinarith [sq_nonneg (u m - v (m + 1)), sq_nonneg (u (m + 1) - v m)]
    rw [abs_mul]
    calc |e m| * |u m * v (m + 1) + u (m + 1) * v m|
        ≤ (1 / 10 ^ 12 * (2 * F)) * ((Spec.dot n u u + Spec.dot n v v) / 2) :=
          mul_le_mul h3 h4 (abs_nonneg _) (by positivity)
      _ = _ := by ring

theorem findM_spec (d e : ℕ → ℝ) : ∀ (left m : ℕ), m ≤ findM d e left m ∧ findM d e left m ≤ m + left ∧
    (∀ t, m ≤ t → t < findM d e left m → ¬ Small d e t) ∧
    (findM d e left m < m + left → Small d e (findM d e left m)) := by
  intro left
  induction left with
  | zero => intro m; exact ⟨le_rfl, le_rfl, fun t h h' => absurd h' (by simp [findM]; omega), fun h => absurd h (by simp [findM])⟩
  | succ left ih =>
    intro m
    unfold findM
    split
    next h => exact ⟨le_rfl, by omega, fun t h1 h2 => by omega, fun _ => h⟩
    next h =>
      obtain ⟨h1, h2, h3, h4⟩ := ih (m + 1)
      refine ⟨by omega, by omega, fun t ht ht' => ?_, fun ht => h4 (by omega)⟩
      by_cases htm : t = m
      · exact htm ▸ h
      · exact h3 t (by omega) ht'

theorem ne_of_not_small {d e : ℕ → ℝ} {t : ℕ} (h : ¬ Small d e t) : e t ≠ 0 := by
  intro he
  refine h ?_
  unfold Small
  rw [he, abs_zero]
  positivity

/-- What a level keeps. -/
structure Kept (n j j' cnt : ℕ) (F : ℝ) (st st' : St) : Prop where
  last : st'.e (n - 1) = 0
  form : ∀ a < n, ∀ b < n, |Q n st'.d (mask j' st'.e) (st'.Z a) (st'.Z b) - Q n st.d (mask j st.e) (st.Z a) (st.Z b)| ≤
    cnt * (1 / 10 ^ 12 * F * (Spec.dot n (st.Z a) (st.Z a) + Spec.dot n (st.Z b) (st.Z b)))
  squares : N n st'.d (mask j' st'.e) ≤ N n st.d (mask j st.e)
  trace : ∑ t ∈ range n, st'.d t = ∑ t ∈ range n, st.d t
  dot : ∀ a < n, ∀ b < n, Spec.dot n (st'.Z a) (st'.Z b) = Spec.dot n (st.Z a) (st.Z b)

theorem Kept.trans {n j j' j'' c c' : ℕ} {F : ℝ} {st st' st'' : St} (h : Kept n j j' c F st st')
    (h' : Kept n j' j'' c' F st' st'') : Kept n j j'' (c + c') F st st'' where
  last := h'.last
  form a ha b hb := by
    have h1 := h.form a ha b hb
    have h2 := h'.form a ha b hb
    rw [h.dot a ha a ha, h.dot b hb b hb] at h2
    have := abs_sub_le (Q n st''.d (mask j'' st''.e) (st''.Z a) (st''.Z b))
      (Q n st'.d (mask j' st'.e) (st'.Z a) (st'.Z b)) (Q n st.d (mask j st.e) (st.Z a) (st.Z b))
    push_cast
    linarith
  squares := h'.squares.trans h.squares
  trace := h'.trace.trans h.trace
  dot a ha b hb := (h'.dot a ha b hb).trans (h.dot a ha b hb)

theorem Kept.more {n j j' c c' : ℕ} {F : ℝ} {st st' : St} (h : Kept n j j' c F st st') (hF : 0 ≤ F) (hc : c ≤ c') :
    Kept n j j' c' F st st' where
  last := h.last
  form a ha b hb := (h.form a ha b hb).trans (by
    have hdot : ∀ w : ℕ → ℝ, 0 ≤ Spec.dot n w w := fun w => sum_nonneg fun k _ => mul_self_nonneg _
    have := hdot (st.Z a); have := hdot (st.Z b)
    have : (c : ℝ) ≤ c' := by exact_mod_cast hc
    exact mul_le_mul_of_nonneg_right this (by positivity))
  squares := h.squares
  trace := h.trace
  dot := h.dot

theorem last_drop {n j : ℕ} (hj : j < n) {F : ℝ} (hF0 : 0 ≤ F) {st : St} (hl : st.e (n - 1) = 0)
    (hN : N n st.d (mask j st.e) ≤ F ^ 2) (hm : findM st.d st.e (n - 1 - j) j = j)
    (h4 : findM st.d st.e (n - 1 - j) j < j + (n - 1 - j) → Small st.d st.e (findM st.d st.e (n - 1 - j) j)) :
    Kept n j (j + 1) 1 F st st := by
  rw [hm] at h4
  have hmask : mask j st.e j = st.e j := by simp [mask]
  refine ⟨hl, fun a ha b hb => ?_, ?_, rfl, fun _ _ _ _ => rfl⟩
  · rw [mask_succ_eq, abs_sub_comm, Nat.cast_one, one_mul]
    refine drop_le hj hN hF0 ?_ _ _
    rw [hmask]
    rcases Nat.lt_or_ge j (n - 1) with h | h
    · exact .inr ⟨h4 (by omega), by omega⟩
    · exact .inl ⟨by omega, by rw [show j = n - 1 by omega, hl]⟩
  · rw [mask_succ_eq]
    have := N_drop (n := n) (m := j) hj st.d (mask j st.e)
    have := sq_nonneg (mask j st.e j)
    linarith

theorem level_spec {n j : ℕ} (hj : j < n) {F : ℝ} (hF0 : 0 ≤ F) : ∀ (left : ℕ) (st : St), st.e (n - 1) = 0 →
    N n st.d (mask j st.e) ≤ F ^ 2 → (∃ e, level n j left st = .throw e) ∨
    ∃ st', level n j left st = .ok st' ∧ Kept n j (j + 1) (left + 1) F st st' := by
  intro left
  induction left with
  | zero =>
    intro st hl hN
    unfold level
    obtain ⟨h1, h2, h3, h4⟩ := findM_spec st.d st.e (n - 1 - j) j
    by_cases hm : findM st.d st.e (n - 1 - j) j = j
    · right
      rw [if_pos hm]
      exact ⟨st, rfl, last_drop hj hF0 hl hN hm h4⟩
    · left
      rw [if_neg hm]
      exact ⟨_, rfl⟩
  | succ left ih =>
    intro st hl hN
    unfold level
    obtain ⟨h1, h2, h3, h4⟩ := findM_spec st.d st.e (n - 1 - j) j
    by_cases hm : findM st.d st.e (n - 1 - j) j = j
    · right
      rw [if_pos hm]
      exact ⟨st, rfl, (last_drop hj hF0 hl hN hm h4).more hF0 (by omega)⟩
    · rw [if_neg hm]
      generalize findM st.d st.e (n - 1 - j) j = m at *
      obtain ⟨st1, hs, hQ, hN1, hT, hD, hem, heh⟩ := sweep_spec (n := n) (m := m) (j := j) (st := st) (by omega) (by omega)
        (fun t ht ht' => ne_of_not_small (h3 t ht ht'))
      have hmask : mask j st.e m = st.e m := by simp [mask]; omega
      have k1 : Kept n j j 1 F st st1 := by
        refine ⟨?_, fun a ha b hb => ?_, ?_, hT, hD⟩
        · rcases Nat.lt_or_ge m (n - 1) with h | h
          · rw [heh _ h, hl]
          · rw [show n - 1 = m by omega, hem]
        · rw [hQ a ha b hb, mask_update h1, abs_sub_comm, Nat.cast_one, one_mul]
          refine drop_le (by omega) hN hF0 ?_ _ _
          rw [hmask]
          rcases Nat.lt_or_ge m (n - 1) with h | h
          · exact .inr ⟨h4 (by omega), by omega⟩
          · exact .inl ⟨by omega, by rw [show m = n - 1 by omega, hl]⟩
        · rw [hN1, mask_update h1]
          have := N_drop (n := n) (m := m) (by omega) st.d (mask j st.e)
          have := sq_nonneg (mask j st.e m)
          linarith
      rw [hs]
      rcases ih st1 k1.last (k1.squares.trans hN) with ⟨e, h⟩ | ⟨st', h, k2⟩
      · exact .inl ⟨e, h⟩
      · exact .inr ⟨st', h, (k1.trans k2).more hF0 (by omega)⟩

end Verif.EigenSym
