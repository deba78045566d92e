import Mathlib.Tactic.NormNum
import Verif.EigenSym.Householder
import Verif.EigenSym.Lemmas

/-! # Properties of the eigenvalues of tridiagonal matrices -/

namespace Verif.EigenSym

open Finset

theorem levels_spec {n : ℕ} {F : ℝ} (hF0 : 0 ≤ F) : ∀ (k j : ℕ) (st : St), j + k = n → 0 < n → st.e (n - 1) = 0 →
    N n st.d (mask j st.e) ≤ F ^ 2 → (∃ e, levels n (List.range' j k) st = .throw e) ∨
    ∃ st', levels n (List.range' j k) st = .ok st' ∧ Kept n j n (32 * k) F st st' := by
  intro k
  induction k with
  | zero =>
    intro j st hj _ hl hN
    refine .inr ⟨st, rfl, hl, fun a ha b hb => ?_, ?_, rfl, fun _ _ _ _ => rfl⟩
    · obtain rfl : j = n := hj; simp
    · obtain rfl : j = n := hj; exact le_rfl
  | succ k ih =>
    intro j st hj hn hl hN
    rw [List.range'_succ, levels]
    rcases level_spec (by omega) hF0 31 st hl hN with ⟨e, h⟩ | ⟨st1, h, k1⟩
    · exact .inl ⟨e, by rw [h]; rfl⟩
    · rw [h]
      rcases ih (j + 1) st1 (by omega) hn k1.last (k1.squares.trans hN) with ⟨e, h'⟩ | ⟨st', h', k2⟩
      · exact .inl ⟨e, h'⟩
      · exact .inr ⟨st', h', (k1.trans k2).more hF0 (by omega)⟩

theorem Q_moved {n : ℕ} (hn : 0 < n) (d e u v : ℕ → ℝ) : Q n d (mask 0 (moved n e)) u v = Spec.form n d e u v := by
  obtain ⟨n, rfl⟩ : ∃ k, n = k + 1 := ⟨n - 1, by omega⟩
  unfold Q Spec.form
  rw [sum_add_distrib]
  congr 1
  rw [sum_range_succ]
  simp only [mask, moved, not_lt_zero, if_false, lt_irrefl, if_true, zero_mul, add_zero, Nat.add_sub_cancel]
  refine sum_congr rfl fun k hk => ?_
  rw [if_pos (by have := mem_range.1 hk; omega)]

theorem N_moved {n : ℕ} (hn : 0 < n) (d e : ℕ → ℝ) : N n d (mask 0 (moved n e)) = Spec.squares n d e := by
  obtain ⟨n, rfl⟩ : ∃ k, n = k + 1 := ⟨n - 1, by omega⟩
  unfold N Spec.squares
  rw [sum_add_distrib]
  congr 1
  rw [sum_range_succ, mul_sum]
  simp only [mask, moved, not_lt_zero, if_false, lt_irrefl, if_true, Nat.add_sub_cancel]
  rw [sum_congr rfl fun k hk => by rw [if_pos (by have := mem_range.1 hk; omega)]]
  simp

theorem Q_masked (n : ℕ) (d e : ℕ → ℝ) (Z : ℕ → ℕ → ℝ) (a b : ℕ) :
    Q n d (mask n e) (Z a) (Z b) = Spec.recombined n d Z a b := by
  unfold Q Spec.recombined
  refine sum_congr rfl fun k hk => ?_
  simp [mask, mem_range.1 hk]

theorem tqli_kept {n : ℕ} (hn : 0 < n) (st : St) : (∃ e, tqli n st = .throw e) ∨
    ∃ st', tqli n st = .ok st' ∧ Kept n 0 n (32 * n) (Real.sqrt (Spec.squares n st.d st.e))
      ⟨st.d, moved n st.e, st.Z⟩ st' := by
  unfold tqli
  rw [if_neg (by omega), List.range_eq_range']
  refine levels_spec (Real.sqrt_nonneg _) n 0 _ (by omega) hn ?_ ?_
  · simp only [moved]
    rw [if_neg (by omega), if_pos (by omega)]
  · rw [N_moved hn, Real.sq_sqrt]
    unfold Spec.squares
    exact add_nonneg (sum_nonneg fun _ _ => sq_nonneg _) (mul_nonneg two_pos.le (sum_nonneg fun _ _ => sq_nonneg _))

/-- `pythag` is the length of the hypotenuse, whatever the arguments. -/
theorem pythag_eq (a b : ℝ) : pythag a b = Real.sqrt (a ^ 2 + b ^ 2) := by
  rw [← pythag_sq, Real.sqrt_sq (pythag_nonneg a b)]

example : pythag 3 (-4) = 5 := by
  rw [pythag_eq, show (3 : ℝ) ^ 2 + (-4) ^ 2 = 5 ^ 2 by norm_num, Real.sqrt_sq (by norm_num)]

/-- No division by zero is met, whatever the matrix: `tqli` returns or throws. -/
theorem tqli_defined (n : ℕ) (st : St) : tqli n st ≠ .ub := by
  rcases Nat.eq_zero_or_pos n with rfl | hn
  · simp [tqli]
  · rcases tqli_kept hn st with ⟨e, h⟩ | ⟨st', h, -⟩ <;> rw [h] <;> simp

/-- What is returned: the products of the rows of `M` are those given, so an orthogonal matrix remains orthogonal. -/
theorem tqli_orthogonal {n : ℕ} (hn : 0 < n) {st st' : St} (h : tqli n st = .ok st') {a b : ℕ} (ha : a < n) (hb : b < n) :
    Spec.dot n (st'.Z a) (st'.Z b) = Spec.dot n (st.Z a) (st.Z b) := by
  rcases tqli_kept hn st with ⟨e, h'⟩ | ⟨st1, h', k⟩
  · rw [h] at h'; cases h'
  · rw [h] at h'; cases h'; exact k.dot a ha b hb

/-- The sum of the eigenvalues is the trace. -/
theorem tqli_trace {n : ℕ} (hn : 0 < n) {st st' : St} (h : tqli n st = .ok st') :
    ∑ k ∈ range n, st'.d k = ∑ k ∈ range n, st.d k := by
  rcases tqli_kept hn st with ⟨e, h'⟩ | ⟨st1, h', k⟩
  · rw [h] at h'; cases h'
  · rw [h] at h'; cases h'; exact k.trace

/-- The eigenvalues and vectors give back the matrix: every element of `Z' D Z'ᵀ` is that of `Z T Zᵀ` up to the elements
taken as small, which are at most `32 n` times `10⁻¹²` of the root of the sum of squares of `T`. -/
theorem tqli_recombined {n : ℕ} (hn : 0 < n) {st st' : St} (h : tqli n st = .ok st') {a b : ℕ} (ha : a < n) (hb : b < n) :
    |Spec.recombined n st'.d st'.Z a b - Spec.form n st.d st.e (st.Z a) (st.Z b)| ≤
      32 * n * (1 / 10 ^ 12) * Real.sqrt (Spec.squares n st.d st.e) *
        (Spec.dot n (st.Z a) (st.Z a) + Spec.dot n (st.Z b) (st.Z b)) := by
  rcases tqli_kept hn st with ⟨e, h'⟩ | ⟨st1, h', k⟩
  · rw [h] at h'; cases h'
  · rw [h] at h'; cases h'
    have := k.form a ha b hb
    rw [Q_moved hn, Q_masked] at this
    refine this.trans (le_of_eq ?_)
    push_cast
    ring

/-- With vectors of length one the eigenvalues are those of the matrix: `Z' D Z'ᵀ = T` up to `64 n 10⁻¹²`. -/
theorem tqli_unit {n : ℕ} (hn : 0 < n) {st st' : St} (h : tqli n st = .ok st')
    (hZ : ∀ a < n, ∀ b < n, st.Z a b = if a = b then 1 else 0) {a b : ℕ} (ha : a < n) (hb : b < n) :
    |Spec.recombined n st'.d st'.Z a b -
        (if a = b then st.d a else if b = a + 1 then st.e b else if a = b + 1 then st.e a else 0)| ≤
      64 * n * (1 / 10 ^ 12) * Real.sqrt (Spec.squares n st.d st.e) := by
  have h1 := tqli_recombined hn h ha hb
  have hd : ∀ c < n, Spec.dot n (st.Z c) (st.Z c) = 1 := by
    intro c hc
    unfold Spec.dot
    rw [sum_eq_single c]
    · rw [hZ c hc c hc]; simp
    · intro k hk hkc
      rw [hZ c hc k (mem_range.1 hk), if_neg (Ne.symm hkc)]; simp
    · intro h; exact absurd (mem_range.2 hc) h
  have hf : Spec.form n st.d st.e (st.Z a) (st.Z b) =
      if a = b then st.d a else if b = a + 1 then st.e b else if a = b + 1 then st.e a else 0 := by
    have hs1 : ∑ k ∈ range n, st.d k * (st.Z a k * st.Z b k) = if a = b then st.d a else 0 := by
      rw [sum_eq_single a]
      · rw [hZ a ha a ha, hZ b hb a ha]
        by_cases hab : a = b
        · simp [hab]
        · simp [hab, Ne.symm hab]
      · intro k hk hka
        rw [hZ a ha k (mem_range.1 hk), if_neg (Ne.symm hka)]; simp
      · intro h; exact absurd (mem_range.2 ha) h
    have hs2 : ∑ k ∈ range (n - 1), st.e (k + 1) * (st.Z a k * st.Z b (k + 1) + st.Z a (k + 1) * st.Z b k) =
        (if b = a + 1 then st.e b else 0) + (if a = b + 1 then st.e a else 0) := by
      have hsplit : ∀ k ∈ range (n - 1),
          st.e (k + 1) * (st.Z a k * st.Z b (k + 1) + st.Z a (k + 1) * st.Z b k) =
          (if k = a then (if b = a + 1 then st.e b else 0) else 0) +
          (if k = b then (if a = b + 1 then st.e a else 0) else 0) := by
        intro k hk
        have hk' := mem_range.1 hk
        rw [hZ a ha k (by omega), hZ b hb (k + 1) (by omega), hZ a ha (k + 1) (by omega), hZ b hb k (by omega)]
        rw [mul_add]
        congr 1
        · by_cases h1 : k = a
          · subst h1
            by_cases h2 : b = k + 1
            · simp [h2]
            · simp [h2]
          · simp [h1, Ne.symm h1]
        · by_cases h1 : k = b
          · subst h1
            by_cases h2 : a = k + 1
            · simp [h2]
            · simp [h2]
          · simp [h1, Ne.symm h1]
      rw [sum_congr rfl hsplit, sum_add_distrib, sum_ite_eq', sum_ite_eq']
      congr 1
      · by_cases h2 : b = a + 1
        · rw [if_pos (mem_range.2 (by omega))]
        · simp [h2]
      · by_cases h2 : a = b + 1
        · rw [if_pos (mem_range.2 (by omega))]
        · simp [h2]
    unfold Spec.form
    rw [hs1, hs2]
    by_cases h1 : a = b
    · subst h1; simp
    · by_cases h2 : b = a + 1
      · have h3 : ¬ (a = b + 1) := by omega
        rw [if_neg h1, if_pos h2, if_neg h3, if_neg h1, if_pos h2]; simp
      · simp [h1, h2]
  rw [hd a ha, hd b hb, hf] at h1
  refine h1.trans (le_of_eq ?_)
  ring

/-- The shift is an eigenvalue of a matrix of two rows, so the first sweep leaves nothing beside the diagonal. -/
theorem sweep_two {st st' : St} (he : st.e 0 ≠ 0) (h : sweep 2 1 0 st = .ok st') : st'.e 0 = 0 := by
  have h2 : ¬ (2 * st.e 0 = 0) := by simpa using he
  unfold sweep at h
  rw [if_neg h2] at h
  simp only [den_ne, if_false, Nat.sub_zero, Nat.zero_add] at h
  generalize hg0 : (st.d 1 - st.d 0) / (2 * st.e 0) = g0 at h
  have hd : st.d 1 - st.d 0 = 2 * g0 * st.e 0 := by rw [← hg0]; field_simp
  have hden := den_ne g0
  have hq : (g0 + sign (pythag g0 1) g0) ^ 2 = 1 + 2 * g0 * (g0 + sign (pythag g0 1) g0) := by
    have hs : sign (pythag g0 1) g0 ^ 2 = g0 ^ 2 + 1 := by
      have := pythag_sq g0 1
      unfold sign
      split <;> simp [this]
    linear_combination hs
  generalize g0 + sign (pythag g0 1) g0 = D at h hden hq
  have hsq := pythag_sq (1 * st.e 0) (st.d 1 - st.d 0 + st.e 0 / D)
  have hr : pythag (1 * st.e 0) (st.d 1 - st.d 0 + st.e 0 / D) ≠ 0 := by
    intro h0
    rw [h0, one_mul] at hsq
    have := sq_nonneg (st.d 1 - st.d 0 + st.e 0 / D)
    have : 0 < st.e 0 ^ 2 := by positivity
    linarith
  simp only [chase, Nat.add_zero, Nat.zero_add, hr, if_false, finish] at h
  generalize pythag (1 * st.e 0) (st.d 1 - st.d 0 + st.e 0 / D) = r at h hsq hr
  injection h with h
  rw [← h]
  simp only [Function.update_of_ne (show (0 : ℕ) ≠ 1 by decide), Function.update_self]
  have hd1 : st.d 1 = st.d 0 + 2 * g0 * st.e 0 := by linear_combination hd
  have hg : g0 = (D ^ 2 - 1) / (2 * D) := by field_simp; linear_combination - hq
  rw [hd1, hg] at hsq ⊢
  field_simp at hsq ⊢
  grind

/-- A matrix of two rows is always treated, and exactly if its element beside the diagonal is not taken as small. -/
theorem tqli_two (st : St) : ∃ st', tqli 2 st = .ok st' ∧
    (1 / 10 ^ 12 * (|st.d 0| + |st.d 1|) < |st.e 1| → ∀ a < 2, ∀ b < 2,
      Spec.recombined 2 st'.d st'.Z a b = Spec.form 2 st.d st.e (st.Z a) (st.Z b)) := by
  have hl1 : ∀ s : St, level 2 1 31 s = .ok s := fun s => by simp [level, findM]
  have hm0 : moved 2 st.e 0 = st.e 1 := by simp [moved]
  have hm1 : moved 2 st.e 1 = 0 := by simp [moved]
  by_cases hs : Small st.d (moved 2 st.e) 0
  · refine ⟨⟨st.d, moved 2 st.e, st.Z⟩, ?_, fun h => absurd hs ?_⟩
    · have : level 2 0 31 ⟨st.d, moved 2 st.e, st.Z⟩ = .ok ⟨st.d, moved 2 st.e, st.Z⟩ := by simp [level, findM, hs]
      simp [tqli, List.range_succ, levels, this, hl1, Outcome.bind]
    · simp only [Small, hm0, zero_add, not_le]; exact h
  · have he : moved 2 st.e 0 ≠ 0 := ne_of_not_small hs
    obtain ⟨st1, h1, hQ, -, -, -, hem, -⟩ := sweep_spec (n := 2) (m := 1) (j := 0)
      (st := ⟨st.d, moved 2 st.e, st.Z⟩) (by omega) (by omega) (fun t _ ht => by
        obtain rfl : t = 0 := by omega
        exact he)
    have h0 := sweep_two (st := ⟨st.d, moved 2 st.e, st.Z⟩) he h1
    have hsm : Small st1.d st1.e 0 := by
      unfold Small
      rw [h0, abs_zero]; positivity
    refine ⟨st1, ?_, fun _ a ha b hb => ?_⟩
    · have hl0 : level 2 0 30 st1 = .ok st1 := by
        unfold level
        simp [findM, hsm]
      have : level 2 0 31 ⟨st.d, moved 2 st.e, st.Z⟩ = .ok st1 := by
        unfold level
        simp only [findM, hs, if_false, Nat.sub_zero, Nat.add_one_sub_one, Nat.zero_add, Nat.one_ne_zero]
        rw [h1]
        exact hl0
      simp [tqli, List.range_succ, levels, this, hl1, Outcome.bind]
    · have hQ' := hQ a ha b hb
      rw [← Q_moved (by omega)]
      have hu : Function.update (moved 2 st.e) 1 0 = moved 2 st.e := by
        funext k
        by_cases hk : k = 1
        · subst hk; simp [hm1]
        · rw [Function.update_of_ne hk]
      simp only [hu] at hQ'
      rw [← hQ', ← Q_masked 2 st1.d st1.e]
      unfold Q
      refine sum_congr rfl fun k hk => ?_
      have hk2 := mem_range.1 hk
      have h0' : st1.e k = 0 := by
        rcases (by omega : k = 0 ∨ k = 1) with rfl | rfl
        · exact h0
        · exact hem
      simp [mask, hk2, h0']

/-- The hypotheses are met by the matrix with the rows `(1, 2)` and `(2, 1)`, whose eigenvectors are given back. -/
example : ∃ st', tqli 2 ⟨fun _ => 1, fun _ => 2, fun a b => if a = b then 1 else 0⟩ = .ok st' ∧
    Spec.recombined 2 st'.d st'.Z 0 0 = 1 ∧ Spec.recombined 2 st'.d st'.Z 0 1 = 2 ∧ st'.d 0 + st'.d 1 = 2 := by
  obtain ⟨st', h, hr⟩ := tqli_two ⟨fun _ => 1, fun _ => 2, fun a b => if a = b then 1 else 0⟩
  have hr' := hr (by norm_num)
  have ht := tqli_trace (by omega) h
  refine ⟨st', h, ?_, ?_, ?_⟩
  · rw [hr' 0 (by omega) 0 (by omega)]; norm_num [Spec.form, sum_range_succ]
  · rw [hr' 0 (by omega) 1 (by omega)]; norm_num [Spec.form, sum_range_succ]
  · norm_num [sum_range_succ] at ht; linarith

/-! ## Symmetric matrices -/

/-- `tred2` always returns for a matrix with rows: the tridiagonal matrix in `d` and `e` and the orthogonal matrix left in
`a` recombine exactly to the symmetric matrix given by its lower triangle, and the sum of squares is kept. -/
theorem tred2_recombined {n : ℕ} (hn : 0 < n) (t : Tri) : ∃ T, tred2 n t = .ok T ∧
    (∀ r < n, ∀ c < n, Spec.form n T.d T.e (T.a r) (T.a c) = Spec.lower t.a r c) ∧
    (∀ r < n, ∀ c < n, Spec.dot n (T.a r) (T.a c) = if r = c then 1 else 0) ∧
    Spec.squares n T.d T.e = ∑ r ∈ range n, ∑ c ∈ range n, Spec.lower t.a r c ^ 2 := by
  obtain ⟨n, rfl⟩ : ∃ k, n = k + 1 := ⟨n - 1, by omega⟩
  obtain ⟨t2, h, hG, -⟩ := rounds_good n t
  refine ⟨gathers (n + 1) (cleared t2), ?_, fun r hr c hc => (hG.form r hr c hc).symm, hG.dot, hG.squares.symm⟩
  rw [tred2, if_neg (by omega), Nat.add_sub_cancel, h]
  rfl

/-- What `EigenSystemSymmetricMatrix` gives: orthogonal vectors, and eigenvalues with which they recombine to the matrix up
to `64 n 10⁻¹²` of the root of the sum of its squares. -/
theorem eigenSystem_recombined {n : ℕ} (hn : 0 < n) {a : ℕ → ℕ → ℝ} {st : St} (h : eigenSystem n a = .ok st) {r c : ℕ}
    (hr : r < n) (hc : c < n) :
    |Spec.recombined n st.d st.Z r c - Spec.lower a r c| ≤
      64 * n * (1 / 10 ^ 12) * Real.sqrt (∑ r ∈ range n, ∑ c ∈ range n, Spec.lower a r c ^ 2) := by
  obtain ⟨T, hT, hf, ho, hs⟩ := tred2_recombined hn ⟨a, fun _ => 0, fun _ => 0⟩
  rw [eigenSystem, hT] at h
  have h1 := tqli_recombined hn (st := ⟨T.d, T.e, T.a⟩) h hr hc
  simp only at h1
  rw [hf r hr c hc, ho r hr r hr, ho c hc c hc, if_pos rfl, if_pos rfl, hs] at h1
  refine h1.trans (le_of_eq ?_)
  ring

theorem eigenSystem_orthogonal {n : ℕ} (hn : 0 < n) {a : ℕ → ℕ → ℝ} {st : St} (h : eigenSystem n a = .ok st) {r c : ℕ}
    (hr : r < n) (hc : c < n) : Spec.dot n (st.Z r) (st.Z c) = if r = c then 1 else 0 := by
  obtain ⟨T, hT, -, ho, -⟩ := tred2_recombined hn ⟨a, fun _ => 0, fun _ => 0⟩
  rw [eigenSystem, hT] at h
  rw [tqli_orthogonal hn (st := ⟨T.d, T.e, T.a⟩) h hr hc, ho r hr c hc]

/-- It returns or throws, for every matrix. -/
theorem eigenSystem_defined (n : ℕ) (a : ℕ → ℕ → ℝ) : eigenSystem n a ≠ .ub := by
  rcases Nat.eq_zero_or_pos n with rfl | hn
  · simp [eigenSystem, tred2, Outcome.bind]
  · obtain ⟨T, hT, -⟩ := tred2_recombined hn ⟨a, fun _ => 0, fun _ => 0⟩
    rw [eigenSystem, hT]
    exact tqli_defined n _

/-- A matrix of two rows is always treated. -/
theorem eigenSystem_two (a : ℕ → ℕ → ℝ) : ∃ st, eigenSystem 2 a = .ok st := by
  obtain ⟨T, hT, -⟩ := tred2_recombined (by omega : 0 < 2) ⟨a, fun _ => 0, fun _ => 0⟩
  obtain ⟨st, h, -⟩ := tqli_two ⟨T.d, T.e, T.a⟩
  exact ⟨st, by rw [eigenSystem, hT]; exact h⟩

example : ∃ st, eigenSystem 2 (fun r c => if r = c then 1 else 2) = .ok st ∧
    |Spec.recombined 2 st.d st.Z 0 1 - 2| ≤ 1 / 10 ^ 9 ∧ Spec.dot 2 (st.Z 0) (st.Z 1) = 0 := by
  obtain ⟨st, h⟩ := eigenSystem_two (fun r c => if r = c then 1 else 2)
  refine ⟨st, h, ?_, ?_⟩
  · have h1 := eigenSystem_recombined (by omega) h (show 0 < 2 by omega) (show 1 < 2 by omega)
    have h2 : Spec.lower (fun r c => if r = c then (1 : ℝ) else 2) 0 1 = 2 := by simp [Spec.lower]
    have h3 : ∑ r ∈ range 2, ∑ c ∈ range 2, Spec.lower (fun r c => if r = c then (1 : ℝ) else 2) r c ^ 2 = 10 := by
      norm_num [sum_range_succ, Spec.lower]
    rw [h2, h3] at h1
    have h4 : Real.sqrt 10 ≤ 4 := Real.sqrt_le_iff.2 ⟨by norm_num, by norm_num⟩
    refine h1.trans ?_
    push_cast
    linarith
  · rw [eigenSystem_orthogonal (by omega) h (by omega) (by omega)]; simp

end Verif.EigenSym
