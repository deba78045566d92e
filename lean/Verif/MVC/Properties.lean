import Mathlib.Tactic.Linarith
import Mathlib.Tactic.NormNum
import Mathlib.Tactic.Ring
import Verif.MVC.Model

/-! # Properties of means and covariances -/

namespace Verif.MVC

theorem tri_succ (n : ℕ) : (n + 1) * (n + 1 + 1) / 2 = n * (n + 1) / 2 + (n + 1) := by
  rw [show (n + 1) * (n + 1 + 1) = n * (n + 1) + (n + 1) * 2 by ring, Nat.add_mul_div_right _ _ (by omega)]

theorem tri_lt : ∀ d i : ℕ, i * (i + 1) / 2 + i < (i + 1 + d) * (i + 1 + d + 1) / 2 := by
  intro d
  induction d with
  | zero => intro i; rw [Nat.add_zero, tri_succ]; omega
  | succ d ih =>
    intro i
    have := ih i
    rw [show i + 1 + (d + 1) = i + 1 + d + 1 by omega, tri_succ]
    omega

theorem tri_inj {i j i' j' : ℕ} (hj : j ≤ i) (hj' : j' ≤ i') (h : i * (i + 1) / 2 + j = i' * (i' + 1) / 2 + j') :
    i = i' ∧ j = j' := by
  rcases Nat.lt_trichotomy i i' with h1 | h1 | h1
  · obtain ⟨d, rfl⟩ := Nat.exists_eq_add_of_le (Nat.succ_le_of_lt h1)
    have := tri_lt d i
    simp only [Nat.succ_eq_add_one] at h
    omega
  · subst h1; exact ⟨rfl, by omega⟩
  · obtain ⟨d, rfl⟩ := Nat.exists_eq_add_of_le (Nat.succ_le_of_lt h1)
    have := tri_lt d i'
    simp only [Nat.succ_eq_add_one] at h
    omega

theorem index_symm (i j : ℕ) : index i j = index j i := by
  unfold index
  rcases Nat.lt_trichotomy i j with h | h | h
  · rw [if_pos h, if_neg (by omega)]
  · subst h; rfl
  · rw [if_neg (by omega), if_pos h]

theorem index_inj {i j i' j' : ℕ} (h : index i j = index i' j') : i = i' ∧ j = j' ∨ i = j' ∧ j = i' := by
  unfold index at h
  split at h <;> split at h
  · have := tri_inj (by omega) (by omega) h; omega
  · have := tri_inj (by omega) (by omega) h; omega
  · have := tri_inj (by omega) (by omega) h; omega
  · have := tri_inj (by omega) (by omega) h; omega

theorem index_self (i : ℕ) : index1 i = index i i := by
  unfold index1 index
  rw [if_neg (by omega), show i * (i + 3) = i * (i + 1) + i * 2 by ring, Nat.add_mul_div_right _ _ (by omega)]

/-- The elements just fill the array: every pair below `N` has a place in it, and every place has a pair. -/
theorem index_range (N p : ℕ) : p < N * (1 + N) / 2 ↔ ∃ i < N, ∃ j ≤ i, p = index i j := by
  have hi : ∀ i j, j ≤ i → index i j = i * (i + 1) / 2 + j := fun i j h => by rw [index, if_neg (by omega)]
  rw [Nat.add_comm 1 N]
  induction N with
  | zero => simp
  | succ N ih =>
    rw [tri_succ]
    constructor
    · intro h
      by_cases hp : p < N * (N + 1) / 2
      · obtain ⟨i, h1, j, h2, h3⟩ := ih.1 hp
        exact ⟨i, by omega, j, h2, h3⟩
      · exact ⟨N, by omega, p - N * (N + 1) / 2, by omega, by rw [hi _ _ (by omega)]; omega⟩
    · rintro ⟨i, h1, j, h2, rfl⟩
      rcases Nat.lt_succ_iff_lt_or_eq.1 h1 with h | rfl
      · have := ih.2 ⟨i, h, j, h2, rfl⟩
        omega
      · rw [hi _ _ h2]; omega

/-- What is written to an element is read there and in the transposed place, no other element and no mean changes, and the
variances are the elements on the diagonal. -/
theorem set_get {N : ℕ} (M : Mtx) {i j : ℕ} (hi : i < N) (hj : j < N) (v : ℝ) : ∃ M', set N M i j v = .ok M' ∧
    get N M' i j = .ok v ∧ get N M' j i = .ok v ∧
    (∀ i' j', (i', j') ≠ (i, j) → (i', j') ≠ (j, i) → get N M' i' j' = get N M i' j') ∧
    (∀ n, mean N M' n = mean N M n) ∧ ∀ n, variance N M' n = get N M' n n := by
  refine ⟨⟨M.m1, fun p => if p = index i j then v else M.m2 p⟩, if_pos ⟨hi, hj⟩, ?_, ?_, fun i' j' h1 h2 => ?_, fun n => rfl,
    fun n => ?_⟩
  · unfold get
    rw [if_pos ⟨hi, hj⟩]; simp
  · unfold get
    rw [if_pos ⟨hj, hi⟩, index_symm j i]; simp
  · unfold get
    have hne : index i' j' ≠ index i j := by
      intro he
      rcases index_inj he with ⟨rfl, rfl⟩ | ⟨rfl, rfl⟩
      · exact h1 rfl
      · exact h2 rfl
    simp only [if_neg hne]
  · unfold variance get
    simp only [and_self, index_self]

example : ∃ M', set 6 ⟨fun _ => 0, fun _ => 0⟩ 4 1 7 = .ok M' ∧ get 6 M' 1 4 = .ok 7 := by
  obtain ⟨M', h, -, h2, -⟩ := set_get (N := 6) ⟨fun _ => 0, fun _ => 0⟩ (i := 4) (j := 1) (by decide) (by decide) 7
  exact ⟨M', h, h2⟩

/-- Two objects are equal just if all means and all elements are. -/
theorem eq_iff (N : ℕ) (M M' : Mtx) : eq N M M' ↔ (∀ n, mean N M n = mean N M' n) ∧ ∀ i j, get N M i j = get N M' i j := by
  unfold eq
  constructor
  · rintro ⟨h1, h2⟩
    refine ⟨fun n => ?_, fun i j => ?_⟩
    · unfold mean
      split
      next h => rw [h1 n (List.mem_range.2 h)]
      next h => rfl
    · unfold get
      split
      next h =>
        have : index i j < N * (1 + N) / 2 := by
          rw [index_range]
          rcases Nat.le_total j i with h' | h'
          · exact ⟨i, h.1, j, h', rfl⟩
          · exact ⟨j, h.2, i, h', index_symm _ _⟩
        rw [h2 _ (List.mem_range.2 this)]
      next h => rfl
  · rintro ⟨h1, h2⟩
    refine ⟨fun n hn => ?_, fun p hp => ?_⟩
    · have := h1 n
      unfold mean at this
      rw [if_pos (List.mem_range.1 hn), if_pos (List.mem_range.1 hn)] at this
      exact Outcome.ok.inj this
    · obtain ⟨i, hi, j, hj, rfl⟩ := (index_range N p).1 (List.mem_range.1 hp)
      have := h2 i j
      unfold get at this
      rw [if_pos ⟨hi, by omega⟩, if_pos ⟨hi, by omega⟩] at this
      exact Outcome.ok.inj this

/-- The correlation of two coordinates with positive variances is defined, is the same in both orders, and is the covariance
divided by the standard deviations. -/
theorem r_eq {N : ℕ} {M : Mtx} {n m : ℕ} {a b c : ℝ} (hne : n ≠ m) (ha : variance N M n = .ok a) (hb : variance N M m = .ok b)
    (hc : get N M n m = .ok c) (ha0 : 0 < a) (hb0 : 0 < b) : r N M n m = .ok (c / (Real.sqrt a * Real.sqrt b)) ∧
    r N M m n = r N M n m ∧ std N M n = .ok (Real.sqrt a) := by
  unfold variance at ha hb
  unfold get at hc
  split at ha
  · split at hb
    · split at hc
      next h1 h2 h3 =>
        have ea := Outcome.ok.inj ha
        have eb := Outcome.ok.inj hb
        have ec := Outcome.ok.inj hc
        have h4 : ¬ (a * b ≤ 0) := not_le.2 (mul_pos ha0 hb0)
        have h5 : ¬ (b * a ≤ 0) := not_le.2 (mul_pos hb0 ha0)
        unfold r std
        rw [index_symm m n, ea, eb, ec, if_pos h3, if_neg hne, if_neg h4, if_pos h3.symm, if_neg hne.symm, if_neg h5, if_pos ⟨h1, ha0.le⟩,
          mul_comm b a, Real.sqrt_mul ha0.le]
        exact ⟨rfl, rfl, rfl⟩
      · cases hc
    · cases hb
  · cases ha

/-- The hypotheses of `r_eq` are met if all elements are one. -/
example : r 2 ⟨fun _ => 0, fun _ => 1⟩ 0 1 = .ok (1 / (Real.sqrt 1 * Real.sqrt 1)) :=
  (r_eq (N := 2) (M := ⟨fun _ => 0, fun _ => 1⟩) (n := 0) (m := 1) (a := 1) (b := 1) (c := 1) (by decide)
    (if_pos (by decide)) (if_pos (by decide)) (if_pos (by decide)) one_pos one_pos).1

end Verif.MVC
