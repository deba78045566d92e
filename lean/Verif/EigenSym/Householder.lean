import Mathlib.Tactic.FieldSimp
import Mathlib.Tactic.Linarith
import Mathlib.Tactic.LinearCombination
import Mathlib.Tactic.Ring
import Verif.EigenSym.Model
import Verif.EigenSym.Spec

/-! # The reduction to a tridiagonal matrix as a product of reflections -/

namespace Verif.EigenSym

open Finset

theorem form_congr {n : ℕ} {d e u v d' e' u' v' : ℕ → ℝ} (hd : ∀ k < n, d' k = d k) (he : ∀ k < n, e' k = e k)
    (hu : ∀ k < n, u' k = u k) (hv : ∀ k < n, v' k = v k) : Spec.form n d' e' u' v' = Spec.form n d e u v := by
  unfold Spec.form
  congr 1
  · refine sum_congr rfl fun k hk => ?_
    have := mem_range.1 hk
    rw [hd k this, hu k this, hv k this]
  · refine sum_congr rfl fun k hk => ?_
    have := mem_range.1 hk
    rw [he (k + 1) (by omega), hu k (by omega), hv k (by omega), hu (k + 1) (by omega), hv (k + 1) (by omega)]

theorem form_symm (n : ℕ) (d e u v : ℕ → ℝ) : Spec.form n d e u v = Spec.form n d e v u := by
  unfold Spec.form
  congr 1
  · exact sum_congr rfl fun k _ => by ring
  · exact sum_congr rfl fun k _ => by ring

theorem form_sub (n : ℕ) (d e u w v : ℕ → ℝ) (x : ℝ) :
    Spec.form n d e (fun c => u c - w c * x) v = Spec.form n d e u v - x * Spec.form n d e w v := by
  unfold Spec.form
  rw [mul_add, mul_sum, mul_sum, add_sub_add_comm, ← sum_sub_distrib, ← sum_sub_distrib]
  congr 1
  · exact sum_congr rfl fun k _ => by ring
  · exact sum_congr rfl fun k _ => by ring

theorem form_sum (n : ℕ) (d e : ℕ → ℝ) (s : Finset ℕ) (y : ℕ → ℝ) (Z : ℕ → ℕ → ℝ) (v : ℕ → ℝ) :
    Spec.form n d e (fun c => ∑ k ∈ s, y k * Z k c) v = ∑ k ∈ s, y k * Spec.form n d e (Z k) v := by
  unfold Spec.form
  simp only [mul_add, sum_add_distrib, mul_sum]
  congr 1
  · rw [sum_comm]
    refine sum_congr rfl fun k _ => ?_
    rw [sum_mul, mul_sum]
    exact sum_congr rfl fun l _ => by ring
  · congr 1
    · rw [sum_comm]
      refine sum_congr rfl fun k _ => ?_
      rw [sum_mul, mul_sum]
      exact sum_congr rfl fun l _ => by ring
    · rw [sum_comm]
      refine sum_congr rfl fun k _ => ?_
      rw [sum_mul, mul_sum]
      exact sum_congr rfl fun l _ => by ring

theorem dot_eq_form (n : ℕ) (u v : ℕ → ℝ) : Spec.dot n u v = Spec.form n (fun _ => 1) (fun _ => 0) u v := by
  simp [Spec.form, Spec.dot]

theorem form_succ {n : ℕ} (hn : 0 < n) (d e u v : ℕ → ℝ) : Spec.form (n + 1) d e u v =
    Spec.form n d e u v + d n * (u n * v n) + e n * (u (n - 1) * v n + u n * v (n - 1)) := by
  obtain ⟨n, rfl⟩ : ∃ k, n = k + 1 := ⟨n - 1, by omega⟩
  unfold Spec.form
  rw [sum_range_succ (fun k => d k * (u k * v k)) (n + 1), show n + 1 + 1 - 1 = n + 1 by omega,
    sum_range_succ (fun k => e (k + 1) * (u k * v (k + 1) + u (k + 1) * v k)) n, Nat.add_sub_cancel]
  ring

theorem squares_succ {n : ℕ} (hn : 0 < n) (d e : ℕ → ℝ) :
    Spec.squares (n + 1) d e = Spec.squares n d e + d n ^ 2 + 2 * e n ^ 2 := by
  obtain ⟨n, rfl⟩ : ∃ k, n = k + 1 := ⟨n - 1, by omega⟩
  unfold Spec.squares
  rw [sum_range_succ (fun k => d k ^ 2) (n + 1), show n + 1 + 1 - 1 = n + 1 by omega,
    sum_range_succ (fun k => e (k + 1) ^ 2) n, Nat.add_sub_cancel]
  ring

theorem squares_congr {n : ℕ} {d e d' e' : ℕ → ℝ} (hd : ∀ k < n, d' k = d k) (he : ∀ k < n, e' k = e k) :
    Spec.squares n d' e' = Spec.squares n d e := by
  unfold Spec.squares
  congr 1
  · exact sum_congr rfl fun k hk => by rw [hd k (mem_range.1 hk)]
  · congr 1
    exact sum_congr rfl fun k hk => by rw [he (k + 1) (by have := mem_range.1 hk; omega)]

/-! ## Reflections -/

section
variable {a : ℕ → ℕ → ℝ} {i : ℕ}

theorem h0_pos (h : ∑ l ∈ range i, |a i l| ≠ 0) : 0 < h0 a i := by
  have hn : ∀ k ∈ range i, 0 ≤ scaled a i k * scaled a i k := fun k _ => mul_self_nonneg _
  rcases (sum_nonneg hn).lt_or_eq with h' | h'
  · exact h'
  · exfalso
    refine h (sum_eq_zero fun k hk => ?_)
    have := (sum_eq_zero_iff_of_nonneg hn).1 h'.symm k hk
    have h2 : scaled a i k = 0 := mul_self_eq_zero.1 this
    unfold scaled at h2
    rcases div_eq_zero_iff.1 h2 with h3 | h3
    · rw [h3, abs_zero]
    · exact absurd h3 h

theorem g0_sq (h : ∑ l ∈ range i, |a i l| ≠ 0) : g0 a i ^ 2 = h0 a i := by
  have := Real.sq_sqrt (h0_pos h).le
  unfold g0
  split
  · rw [neg_sq, this]
  · rw [neg_neg, this]

theorem hh_pos (h : ∑ l ∈ range i, |a i l| ≠ 0) : 0 < hh a i := by
  have h1 := h0_pos h
  have : scaled a i (i - 1) * g0 a i ≤ 0 := by
    unfold g0
    split
    next hs => nlinarith [Real.sqrt_nonneg (h0 a i)]
    next hs => nlinarith [Real.sqrt_nonneg (h0 a i), not_le.1 hs]
  unfold hh
  linarith

theorem refl_eq (k : ℕ) : refl a i k = scaled a i k - if k = i - 1 then g0 a i else 0 := by
  unfold refl
  split
  next h => rw [h]
  next h => ring

/-- The vector has the length for which the reflection is one. -/
theorem refl_sq (hi : 0 < i) (h : ∑ l ∈ range i, |a i l| ≠ 0) :
    ∑ k ∈ range i, refl a i k * refl a i k = 2 * hh a i := by
  have hx : ∀ k ∈ range i, refl a i k * refl a i k =
      scaled a i k * scaled a i k + if k = i - 1 then g0 a i ^ 2 - 2 * scaled a i (i - 1) * g0 a i else 0 := by
    intro k _
    rw [refl_eq]
    split
    next hk => subst hk; ring
    next hk => ring
  rw [sum_congr rfl hx, sum_add_distrib, sum_ite_eq', if_pos (mem_range.2 (by omega)), g0_sq h]
  change h0 a i + _ = _
  unfold hh
  ring

end

theorem low2_symm (a : ℕ → ℕ → ℝ) (r c : ℕ) : Spec.lower a r c = Spec.lower a c r := by
  unfold Spec.lower
  by_cases h : c ≤ r <;> by_cases h' : r ≤ c
  · obtain rfl : r = c := by omega
    rfl
  · simp [h, h']
  · simp [h, h']
  · omega

theorem prod_eq {a : ℕ → ℕ → ℝ} {i j : ℕ} (hj : j < i) (h : hh a i ≠ 0) :
    ∑ k ∈ range i, refl a i k * Spec.lower a j k = hh a i * prod a i j := by
  unfold prod
  rw [mul_div_cancel₀ _ h, ← sum_range_add_sum_Ico _ (show j + 1 ≤ i by omega)]
  congr 1
  · refine sum_congr rfl fun k hk => ?_
    have := mem_range.1 hk
    rw [Spec.lower, if_pos (by omega), mul_comm]
  · refine sum_congr rfl fun k hk => ?_
    have := mem_Ico.1 hk
    rw [Spec.lower, if_neg (by omega), mul_comm]

theorem low2_reduced {a : ℕ → ℕ → ℝ} {i r c : ℕ} (hr : r < i) (hc : c < i) :
    Spec.lower (reduced a i) r c = Spec.lower a r c - (refl a i r * corr a i c + corr a i r * refl a i c) := by
  unfold Spec.lower reduced
  by_cases h : c ≤ r
  · rw [if_pos h, if_pos h, if_neg (by omega), if_neg (by omega), if_pos (by omega)]
  · rw [if_neg h, if_neg h, if_neg (by omega), if_neg (by omega), if_pos (by omega)]
    ring

/-- A row of the product with the reflection. -/
noncomputable def mirrored (u : ℕ → ℝ) (h : ℝ) (N : ℕ) (Q : ℕ → ℕ → ℝ) (r : ℕ) : ℕ → ℝ := fun c =>
  Q r c - (∑ k ∈ range N, u k * Q k c) * (u r / h)

theorem form_mirrored (n N : ℕ) (d e u : ℕ → ℝ) (h : ℝ) (Q : ℕ → ℕ → ℝ) (r c : ℕ) :
    Spec.form n d e (mirrored u h N Q r) (mirrored u h N Q c) = Spec.form n d e (Q r) (Q c)
      - u r / h * ∑ k ∈ range N, u k * Spec.form n d e (Q c) (Q k)
      - u c / h * ∑ k ∈ range N, u k * Spec.form n d e (Q r) (Q k)
      + u r / h * (u c / h) * ∑ k ∈ range N, u k * ∑ l ∈ range N, u l * Spec.form n d e (Q k) (Q l) := by
  unfold mirrored
  rw [form_sub, form_sum, form_symm n d e (Q r), form_sub, form_sum]
  have h1 : ∀ k ∈ range N, u k * Spec.form n d e (Q k) (fun c' => Q c c' - (∑ k ∈ range N, u k * Q k c') * (u c / h)) =
      u k * Spec.form n d e (Q c) (Q k) - u c / h * (u k * ∑ l ∈ range N, u l * Spec.form n d e (Q k) (Q l)) := by
    intro k _
    rw [form_symm n d e (Q k), form_sub, form_sum]
    have : ∑ l ∈ range N, u l * Spec.form n d e (Q l) (Q k) = ∑ l ∈ range N, u l * Spec.form n d e (Q k) (Q l) :=
      sum_congr rfl fun l _ => by rw [form_symm]
    rw [this]
    ring
  rw [sum_congr rfl h1, sum_sub_distrib, ← mul_sum, form_symm n d e (Q c) (Q r)]
  have : ∑ l ∈ range N, u l * Spec.form n d e (Q l) (Q r) = ∑ l ∈ range N, u l * Spec.form n d e (Q r) (Q l) :=
    sum_congr rfl fun l _ => by rw [form_symm]
  rw [this]
  ring

/-- The reflection undoes what the round has done to the matrix. -/
theorem mirrored_form {a : ℕ → ℕ → ℝ} {N : ℕ} (hN : 0 < N) (hs : ∑ l ∈ range N, |a N l| ≠ 0) {n : ℕ} {d e : ℕ → ℝ}
    {Q : ℕ → ℕ → ℝ} (hQ : ∀ r < N, ∀ c < N, Spec.lower (reduced a N) r c = Spec.form n d e (Q r) (Q c)) {r c : ℕ} (hr : r < N)
    (hc : c < N) :
    Spec.form n d e (mirrored (refl a N) (hh a N) N Q r) (mirrored (refl a N) (hh a N) N Q c) = Spec.lower a r c := by
  have hh0 : hh a N ≠ 0 := (hh_pos hs).ne'
  have hu := refl_sq hN hs
  have hpu : ∑ k ∈ range N, refl a N k * corr a N k = 0 := by
    have : ∀ k ∈ range N, refl a N k * corr a N k = prod a N k * refl a N k -
        (∑ k ∈ range N, prod a N k * refl a N k) / (hh a N + hh a N) * (refl a N k * refl a N k) := by
      intro k _; unfold corr; ring
    rw [sum_congr rfl this, sum_sub_distrib, ← mul_sum, hu]
    field_simp
    ring
  have hAu : ∀ b < N, ∑ k ∈ range N, refl a N k * Spec.form n d e (Q b) (Q k) =
      hh a N * prod a N b - 2 * hh a N * corr a N b := by
    intro b hb
    have : ∀ k ∈ range N, refl a N k * Spec.form n d e (Q b) (Q k) = refl a N k * Spec.lower a b k
        - refl a N b * (refl a N k * corr a N k) - corr a N b * (refl a N k * refl a N k) := by
      intro k hk
      rw [← hQ b hb k (mem_range.1 hk), low2_reduced hb (mem_range.1 hk)]
      ring
    rw [sum_congr rfl this, sum_sub_distrib, sum_sub_distrib, ← mul_sum, ← mul_sum, hpu, hu, prod_eq hb hh0]
    ring
  have hs2 : ∑ k ∈ range N, refl a N k * ∑ l ∈ range N, refl a N l * Spec.form n d e (Q k) (Q l) =
      hh a N * ∑ k ∈ range N, prod a N k * refl a N k := by
    have : ∀ k ∈ range N, refl a N k * ∑ l ∈ range N, refl a N l * Spec.form n d e (Q k) (Q l) =
        hh a N * (prod a N k * refl a N k) - 2 * hh a N * (refl a N k * corr a N k) := by
      intro k hk
      rw [hAu k (mem_range.1 hk)]
      ring
    rw [sum_congr rfl this, sum_sub_distrib, ← mul_sum, ← mul_sum, hpu]
    ring
  rw [form_mirrored, hAu r hr, hAu c hc, hs2, ← hQ r hr c hc, low2_reduced hr hc]
  unfold corr
  field_simp
  ring

/-- Rows of length one remain so. -/
theorem mirrored_dot {a : ℕ → ℕ → ℝ} {N : ℕ} (hN : 0 < N) (hs : ∑ l ∈ range N, |a N l| ≠ 0) {n : ℕ}
    {Q : ℕ → ℕ → ℝ} (hQ : ∀ r < N, ∀ c < N, Spec.dot n (Q r) (Q c) = if r = c then 1 else 0) {r c : ℕ} (hr : r < N)
    (hc : c < N) :
    Spec.dot n (mirrored (refl a N) (hh a N) N Q r) (mirrored (refl a N) (hh a N) N Q c) = if r = c then 1 else 0 := by
  have hh0 : hh a N ≠ 0 := (hh_pos hs).ne'
  have hu := refl_sq hN hs
  have h1 : ∀ b < N, ∑ k ∈ range N, refl a N k * Spec.form n (fun _ => 1) (fun _ => 0) (Q b) (Q k) = refl a N b := by
    intro b hb
    rw [sum_eq_single b]
    · rw [← dot_eq_form, hQ b hb b hb, if_pos rfl, mul_one]
    · intro k hk hkb
      rw [← dot_eq_form, hQ b hb k (mem_range.1 hk), if_neg (Ne.symm hkb), mul_zero]
    · intro h; exact absurd (mem_range.2 hb) h
  have h2 : ∑ k ∈ range N, refl a N k * ∑ l ∈ range N, refl a N l *
      Spec.form n (fun _ => 1) (fun _ => 0) (Q k) (Q l) = 2 * hh a N := by
    rw [sum_congr rfl fun k hk => by rw [h1 k (mem_range.1 hk)], hu]
  rw [dot_eq_form, form_mirrored, h1 r hr, h1 c hc, h2, ← dot_eq_form, hQ r hr c hc]
  field_simp
  ring

/-- The last column of the reflection is the row divided by what is left of it. -/
theorem mirrored_last {a : ℕ → ℕ → ℝ} {N : ℕ} (hN : 0 < N) (hs : ∑ l ∈ range N, |a N l| ≠ 0) {Q : ℕ → ℕ → ℝ}
    (hQ : ∀ k < N, Q k (N - 1) = if k = N - 1 then 1 else 0) {r : ℕ} (hr : r < N) :
    (∑ l ∈ range N, |a N l|) * g0 a N * mirrored (refl a N) (hh a N) N Q r (N - 1) = a N r := by
  have hh0 : hh a N ≠ 0 := (hh_pos hs).ne'
  have hs1 : ∑ k ∈ range N, refl a N k * Q k (N - 1) = refl a N (N - 1) := by
    rw [sum_eq_single (N - 1)]
    · rw [hQ _ (by omega), if_pos rfl, mul_one]
    · intro k hk hkb
      rw [hQ k (mem_range.1 hk), if_neg hkb, mul_zero]
    · intro h; exact absurd (mem_range.2 (by omega)) h
  have hg := g0_sq hs
  have hx : (∑ l ∈ range N, |a N l|) * scaled a N r = a N r := by
    unfold scaled; exact mul_div_cancel₀ _ hs
  have key : g0 a N * mirrored (refl a N) (hh a N) N Q r (N - 1) = scaled a N r := by
    unfold mirrored
    rw [hs1, hQ r hr, refl_eq (N - 1), if_pos rfl, refl_eq r]
    have hh1 : hh a N = h0 a N - scaled a N (N - 1) * g0 a N := rfl
    have hgu : g0 a N * (scaled a N (N - 1) - g0 a N) = - hh a N := by rw [hh1, ← hg]; ring
    by_cases hrN : r = N - 1
    · rw [if_pos hrN, if_pos hrN]
      field_simp
      linear_combination (-(scaled a N r - g0 a N)) * hgu
    · rw [if_neg hrN, if_neg hrN]
      field_simp
      linear_combination (-scaled a N r) * hgu
  rw [mul_assoc, key, hx]

theorem corr_refl {a : ℕ → ℕ → ℝ} {N : ℕ} (hN : 0 < N) (hs : ∑ l ∈ range N, |a N l| ≠ 0) :
    ∑ k ∈ range N, refl a N k * corr a N k = 0 := by
  have hh0 : hh a N ≠ 0 := (hh_pos hs).ne'
  have : ∀ k ∈ range N, refl a N k * corr a N k = prod a N k * refl a N k -
      (∑ k ∈ range N, prod a N k * refl a N k) / (hh a N + hh a N) * (refl a N k * refl a N k) := by
    intro k _; unfold corr; ring
  rw [sum_congr rfl this, sum_sub_distrib, ← mul_sum, refl_sq hN hs]
  field_simp
  ring

/-- A round keeps the sum of squares. -/
theorem frob_reduced {a : ℕ → ℕ → ℝ} {N : ℕ} (hN : 0 < N) (hs : ∑ l ∈ range N, |a N l| ≠ 0) :
    ∑ r ∈ range N, ∑ c ∈ range N, Spec.lower (reduced a N) r c ^ 2 =
      ∑ r ∈ range N, ∑ c ∈ range N, Spec.lower a r c ^ 2 := by
  have hh0 : hh a N ≠ 0 := (hh_pos hs).ne'
  have hu := refl_sq hN hs
  have hq := corr_refl hN hs
  have hpq : ∑ k ∈ range N, corr a N k * prod a N k = ∑ k ∈ range N, corr a N k * corr a N k := by
    have : ∀ k ∈ range N, corr a N k * prod a N k = corr a N k * corr a N k +
        (∑ k ∈ range N, prod a N k * refl a N k) / (hh a N + hh a N) * (refl a N k * corr a N k) := by
      intro k _
      have : prod a N k = corr a N k + (∑ k ∈ range N, prod a N k * refl a N k) / (hh a N + hh a N) * refl a N k := by
        unfold corr; ring
      linear_combination corr a N k * this
    rw [sum_congr rfl this, sum_add_distrib, ← mul_sum, hq, mul_zero, add_zero]
  have hrow : ∀ r ∈ range N, ∑ c ∈ range N, Spec.lower (reduced a N) r c ^ 2 = ∑ c ∈ range N, Spec.lower a r c ^ 2
      - 2 * ∑ c ∈ range N, corr a N c * (refl a N r * Spec.lower a c r) - 2 * hh a N * (corr a N r * prod a N r)
      + (∑ k ∈ range N, corr a N k * corr a N k) * (refl a N r * refl a N r)
      + 2 * hh a N * (corr a N r * corr a N r) := by
    intro r hr
    have hr' := mem_range.1 hr
    have : ∀ c ∈ range N, Spec.lower (reduced a N) r c ^ 2 = Spec.lower a r c ^ 2
        - 2 * (corr a N c * (refl a N r * Spec.lower a c r)) - 2 * corr a N r * (refl a N c * Spec.lower a r c)
        + refl a N r * refl a N r * (corr a N c * corr a N c)
        + 2 * refl a N r * corr a N r * (refl a N c * corr a N c)
        + corr a N r * corr a N r * (refl a N c * refl a N c) := by
      intro c hc
      rw [low2_reduced hr' (mem_range.1 hc), low2_symm a c r]
      ring
    rw [sum_congr rfl this]
    simp only [sum_add_distrib, sum_sub_distrib, ← mul_sum]
    rw [hu, hq, prod_eq hr' hh0]
    ring
  rw [sum_congr rfl hrow]
  simp only [sum_add_distrib, sum_sub_distrib, ← mul_sum]
  rw [hu, hpq]
  have : ∀ c ∈ range N, ∑ r ∈ range N, corr a N c * (refl a N r * Spec.lower a c r) =
      hh a N * (corr a N c * prod a N c) := by
    intro c hc
    rw [← mul_sum, prod_eq (mem_range.1 hc) hh0]
    ring
  have h5 : ∑ r ∈ range N, ∑ c ∈ range N, corr a N c * (refl a N r * Spec.lower a c r) =
      hh a N * ∑ k ∈ range N, corr a N k * corr a N k := by
    rw [sum_comm, sum_congr rfl this, ← mul_sum, hpq]
  rw [h5]
  ring

/-- The squares of the row are that of what is left of it. -/
theorem row_squares {a : ℕ → ℕ → ℝ} {N : ℕ} (hs : ∑ l ∈ range N, |a N l| ≠ 0) :
    ∑ k ∈ range N, a N k ^ 2 = ((∑ l ∈ range N, |a N l|) * g0 a N) ^ 2 := by
  have : ∀ k ∈ range N, a N k ^ 2 = (∑ l ∈ range N, |a N l|) ^ 2 * (scaled a N k * scaled a N k) := by
    intro k _
    have : (∑ l ∈ range N, |a N l|) * scaled a N k = a N k := by unfold scaled; exact mul_div_cancel₀ _ hs
    rw [← this]; ring
  rw [sum_congr rfl this, ← mul_sum, mul_pow, g0_sq hs]
  rfl

/-- The sum of squares with one more row. -/
theorem frob_succ (a : ℕ → ℕ → ℝ) (N : ℕ) : ∑ r ∈ range (N + 1), ∑ c ∈ range (N + 1), Spec.lower a r c ^ 2 =
    ∑ r ∈ range N, ∑ c ∈ range N, Spec.lower a r c ^ 2 + a N N ^ 2 + 2 * ∑ k ∈ range N, a N k ^ 2 := by
  rw [sum_range_succ, sum_congr rfl fun r _ => sum_range_succ (fun c => Spec.lower a r c ^ 2) N, sum_add_distrib,
    sum_range_succ]
  have h1 : ∑ r ∈ range N, Spec.lower a r N ^ 2 = ∑ k ∈ range N, a N k ^ 2 :=
    sum_congr rfl fun k hk => by rw [Spec.lower, if_neg (by have := mem_range.1 hk; omega)]
  have h2 : ∑ r ∈ range N, Spec.lower a N r ^ 2 = ∑ k ∈ range N, a N k ^ 2 :=
    sum_congr rfl fun k hk => by rw [Spec.lower, if_pos (by have := mem_range.1 hk; omega)]
  have h3 : Spec.lower a N N = a N N := by simp [Spec.lower]
  rw [h1, h2, h3]
  ring

/-! ## The loops -/

theorem gathers_frame (t : Tri) : ∀ n : ℕ, (∀ r c, n ≤ r ∨ n ≤ c → (gathers n t).a r c = t.a r c) ∧
    (∀ k, n ≤ k → (gathers n t).d k = t.d k) ∧ (gathers n t).e = t.e := by
  intro n
  induction n with
  | zero => exact ⟨fun _ _ _ => rfl, fun _ _ => rfl, rfl⟩
  | succ n ih =>
    obtain ⟨h1, h2, h3⟩ := ih
    refine ⟨fun r c h => ?_, fun k h => ?_, h3⟩
    · show (if r = n ∧ c = n then (1 : ℝ) else if (r = n ∧ c < n) ∨ (c = n ∧ r < n) then 0
        else multiplied (gathers n t).a (gathers n t).d n r c) = t.a r c
      rw [if_neg (by omega), if_neg (by omega), multiplied, if_neg (by omega), h1 r c (by omega)]
    · show Function.update (gathers n t).d n _ k = t.d k
      rw [Function.update_of_ne (by omega), h2 k (by omega)]

/-- `d(0) = 0` and `e(0) = 0`. -/
noncomputable def cleared (t : Tri) : Tri := ⟨t.a, Function.update t.d 0 0, Function.update t.e 0 0⟩

/-- What the two loops give for the first `n` rows. -/
structure Good (n : ℕ) (a : ℕ → ℕ → ℝ) (T : Tri) : Prop where
  form : ∀ r < n, ∀ c < n, Spec.lower a r c = Spec.form n T.d T.e (T.a r) (T.a c)
  dot : ∀ r < n, ∀ c < n, Spec.dot n (T.a r) (T.a c) = if r = c then 1 else 0
  last : ∀ k < n, T.a k (n - 1) = if k = n - 1 then 1 else 0
  squares : ∑ r ∈ range n, ∑ c ∈ range n, Spec.lower a r c ^ 2 = Spec.squares n T.d T.e

/-- One more row. -/
theorem assemble {N : ℕ} (hN : 0 < N) {a : ℕ → ℕ → ℝ} {T : Tri} (hnn : T.a N N = 1) (hrow : ∀ c < N, T.a N c = 0)
    (hcol : ∀ r < N, T.a r N = 0) (hb : ∀ r < N, ∀ c < N, Spec.lower a r c = Spec.form N T.d T.e (T.a r) (T.a c))
    (ho : ∀ r < N, ∀ c < N, Spec.dot N (T.a r) (T.a c) = if r = c then 1 else 0) (hd : T.d N = a N N)
    (he : ∀ r < N, T.e N * T.a r (N - 1) = a N r)
    (hf : ∑ r ∈ range N, ∑ c ∈ range N, Spec.lower a r c ^ 2 = Spec.squares N T.d T.e)
    (he2 : ∑ k ∈ range N, a N k ^ 2 = T.e N ^ 2) : Good (N + 1) a T := by
  have h0row : ∀ v : ℕ → ℝ, Spec.form N T.d T.e (T.a N) v = 0 := by
    intro v
    have : Spec.form N T.d T.e (T.a N) v = Spec.form N T.d T.e (fun _ => 0) v :=
      form_congr (fun _ _ => rfl) (fun _ _ => rfl) hrow (fun _ _ => rfl)
    rw [this]; simp [Spec.form]
  have hdsucc : ∀ u v : ℕ → ℝ, Spec.dot (N + 1) u v = Spec.dot N u v + u N * v N := by
    intro u v; simp [Spec.dot, sum_range_succ]
  have hdrow : ∀ v : ℕ → ℝ, Spec.dot N (T.a N) v = 0 := by
    intro v
    exact sum_eq_zero fun k hk => by rw [hrow k (mem_range.1 hk), zero_mul]
  have hdcomm : ∀ u v : ℕ → ℝ, Spec.dot N u v = Spec.dot N v u := fun u v => sum_congr rfl fun k _ => mul_comm _ _
  have hlast : T.a N (N - 1) = 0 := hrow _ (by omega)
  refine ⟨fun r hr c hc => ?_, fun r hr c hc => ?_, fun k hk => ?_, ?_⟩
  · rw [form_succ hN]
    rcases Nat.lt_succ_iff_lt_or_eq.1 hr with hr' | rfl <;> rcases Nat.lt_succ_iff_lt_or_eq.1 hc with hc' | rfl
    · rw [hcol r hr', hcol c hc', hb r hr' c hc']; ring
    · rw [hcol r hr', hnn, form_symm, h0row, Spec.lower, if_neg (by omega), ← he r hr']; ring
    · rw [hcol c hc', hnn, h0row, Spec.lower, if_pos (by omega), ← he c hc']; ring
    · rw [hnn, h0row, hlast, Spec.lower, if_pos le_rfl, hd]; ring
  · rw [hdsucc]
    rcases Nat.lt_succ_iff_lt_or_eq.1 hr with hr' | rfl <;> rcases Nat.lt_succ_iff_lt_or_eq.1 hc with hc' | rfl
    · rw [hcol r hr', ho r hr' c hc', zero_mul, add_zero]
    · rw [hcol r hr', hdcomm, hdrow, if_neg (by omega), zero_mul, add_zero]
    · rw [hcol c hc', hdrow, if_neg (by omega), mul_zero, add_zero]
    · rw [hnn, hdrow, if_pos rfl, mul_one, zero_add]
  · rw [Nat.add_sub_cancel]
    rcases Nat.lt_succ_iff_lt_or_eq.1 hk with hk' | rfl
    · rw [hcol k hk', if_neg (by omega)]
    · rw [hnn, if_pos rfl]
  · rw [frob_succ, squares_succ hN, hf, he2, hd]

theorem rounds_good : ∀ (N : ℕ) (t : Tri), ∃ t2, rounds N t = .ok t2 ∧
    Good (N + 1) t.a (gathers (N + 1) (cleared t2)) ∧
    (∀ r c, N < r ∨ N < c ∨ r = c ∧ N ≤ r → t2.a r c = t.a r c) ∧ (∀ k, N < k → t2.d k = t.d k) ∧
    (∀ k, N < k → t2.e k = t.e k) := by
  intro N
  induction N with
  | zero =>
    intro t
    refine ⟨t, rfl, ⟨fun r hr c hc => ?_, fun r hr c hc => ?_, fun k hk => ?_, ?_⟩, fun _ _ _ => rfl,
      fun _ _ => rfl, fun _ _ => rfl⟩
    · obtain rfl : r = 0 := by omega
      obtain rfl : c = 0 := by omega
      simp [Spec.lower, Spec.form, gathers, gather, cleared, multiplied]
    · obtain rfl : r = 0 := by omega
      obtain rfl : c = 0 := by omega
      simp [Spec.dot, gathers, gather]
    · obtain rfl : k = 0 := by omega
      simp [gathers, gather]
    · simp [Spec.lower, Spec.squares, gathers, gather, cleared, multiplied]
  | succ N ih =>
    intro t
    rw [rounds]
    by_cases hs : 1 < N + 1 ∧ ∑ l ∈ range (N + 1), |t.a (N + 1) l| ≠ 0
    · have hh0 : hh t.a (N + 1) ≠ 0 := (hh_pos hs.2).ne'
      rw [round, if_pos hs, if_neg hh0]
      generalize ht1 : (⟨reduced t.a (N + 1), Function.update t.d (N + 1) (hh t.a (N + 1)), fun j => if j < N + 1 then
        corr t.a (N + 1) j else if j = N + 1 then (∑ l ∈ range (N + 1), |t.a (N + 1) l|) * g0 t.a (N + 1)
        else t.e j⟩ : Tri) = t1
      have a1 : t1.a = reduced t.a (N + 1) := by rw [← ht1]
      have d1 : t1.d = Function.update t.d (N + 1) (hh t.a (N + 1)) := by rw [← ht1]
      have e1 : t1.e (N + 1) = (∑ l ∈ range (N + 1), |t.a (N + 1) l|) * g0 t.a (N + 1) := by rw [← ht1]; simp
      have e1' : ∀ k, N + 1 < k → t1.e k = t.e k := by
        intro k hk
        rw [← ht1]
        simp only
        rw [if_neg (by omega), if_neg (by omega)]
      obtain ⟨t2, h2, hG, fa, fd, fe⟩ := ih t1
      refine ⟨t2, h2, ?_, fun r c h => ?_, fun k h => ?_, fun k h => ?_⟩
      · obtain ⟨ga, gd, ge⟩ := gathers_frame (cleared t2) (N + 1)
        rw [gathers]
        generalize hT : gathers (N + 1) (cleared t2) = T at hG ga gd ge
        have hrowT : ∀ k < N + 1, T.a (N + 1) k = refl t.a (N + 1) k := by
          intro k hk
          rw [ga _ _ (by omega)]
          show t2.a (N + 1) k = _
          rw [fa _ _ (by omega), a1, reduced, if_pos ⟨rfl, hk⟩]
        have hcolT : ∀ k < N + 1, T.a k (N + 1) = refl t.a (N + 1) k / hh t.a (N + 1) := by
          intro k hk
          rw [ga _ _ (by omega)]
          show t2.a k (N + 1) = _
          rw [fa _ _ (by omega), a1, reduced, if_neg (by omega), if_pos ⟨rfl, hk⟩]
        have hdT : T.d (N + 1) = hh t.a (N + 1) := by
          rw [gd _ (by omega)]
          show Function.update t2.d 0 0 (N + 1) = _
          rw [Function.update_of_ne (by omega), fd _ (by omega), d1, Function.update_self]
        have heT : T.e (N + 1) = (∑ l ∈ range (N + 1), |t.a (N + 1) l|) * g0 t.a (N + 1) := by
          rw [ge]
          show Function.update t2.e 0 0 (N + 1) = _
          rw [Function.update_of_ne (by omega), fe _ (by omega), e1]
        have hnnT : T.a (N + 1) (N + 1) = t.a (N + 1) (N + 1) := by
          rw [ga _ _ (by omega)]
          show t2.a (N + 1) (N + 1) = _
          rw [fa _ _ (by omega), a1, reduced, if_neg (by omega), if_neg (by omega), if_neg (by omega)]
        have hm : ∀ r < N + 1, ∀ c < N + 1, (gather (N + 1) T).a r c =
            mirrored (refl t.a (N + 1)) (hh t.a (N + 1)) (N + 1) T.a r c := by
          intro r hr c hc
          show (if r = N + 1 ∧ c = N + 1 then (1 : ℝ) else if (r = N + 1 ∧ c < N + 1) ∨ (c = N + 1 ∧ r < N + 1) then 0
            else multiplied T.a T.d (N + 1) r c) = _
          rw [if_neg (by omega), if_neg (by omega), multiplied, if_pos ⟨by rw [hdT]; exact hh0, hr, hc⟩, hcolT r hr]
          unfold mirrored
          rw [sum_congr rfl fun k hk => by rw [hrowT k (mem_range.1 hk)]]
        have hdd : ∀ k < N + 1, (gather (N + 1) T).d k = T.d k := fun k hk =>
          Function.update_of_ne (by omega) _ _
        refine assemble (by omega) ?_ ?_ ?_ (fun r hr c hc => ?_) (fun r hr c hc => ?_) ?_ (fun r hr => ?_) ?_ ?_
        · simp [gather]
        · intro c hc
          show (if N + 1 = N + 1 ∧ c = N + 1 then (1 : ℝ) else if (N + 1 = N + 1 ∧ c < N + 1) ∨ _ then 0 else _) = 0
          rw [if_neg (by omega), if_pos (by omega)]
        · intro r hr
          show (if r = N + 1 ∧ N + 1 = N + 1 then (1 : ℝ) else if _ ∨ (N + 1 = N + 1 ∧ r < N + 1) then 0 else _) = 0
          rw [if_neg (by omega), if_pos (by omega)]
        · rw [form_congr hdd (fun _ _ => rfl) (hm r hr) (hm c hc)]
          have hQ := hG.form
          rw [a1] at hQ
          exact (mirrored_form (by omega) hs.2 hQ hr hc).symm
        · have : Spec.dot (N + 1) ((gather (N + 1) T).a r) ((gather (N + 1) T).a c) =
              Spec.dot (N + 1) (mirrored (refl t.a (N + 1)) (hh t.a (N + 1)) (N + 1) T.a r)
                (mirrored (refl t.a (N + 1)) (hh t.a (N + 1)) (N + 1) T.a c) :=
            sum_congr rfl fun k hk => by rw [hm r hr k (mem_range.1 hk), hm c hc k (mem_range.1 hk)]
          rw [this]
          exact mirrored_dot (by omega) hs.2 hG.dot hr hc
        · show Function.update T.d (N + 1) (multiplied T.a T.d (N + 1) (N + 1) (N + 1)) (N + 1) = _
          rw [Function.update_self, multiplied, if_neg (by omega), hnnT]
        · show T.e (N + 1) * _ = _
          rw [heT, hm r hr _ (by omega)]
          exact mirrored_last (by omega) hs.2 hG.last hr
        · have hQ := hG.squares
          rw [a1, frob_reduced (by omega) hs.2] at hQ
          rw [hQ]
          exact (squares_congr hdd fun _ _ => rfl).symm
        · show _ = T.e (N + 1) ^ 2
          rw [heT]
          exact row_squares hs.2
      · rw [fa r c (by omega), a1, reduced, if_neg (by omega), if_neg (by omega), if_neg (by omega)]
      · rw [fd k (by omega), d1, Function.update_of_ne (by omega)]
      · rw [fe k (by omega), e1' k h]
    · have hcase : N = 0 ∨ ∀ l < N + 1, t.a (N + 1) l = 0 := by
        by_cases hN : N = 0
        · exact .inl hN
        · have hz : ∑ l ∈ range (N + 1), |t.a (N + 1) l| = 0 := by
            by_contra h
            exact hs ⟨by omega, h⟩
          exact .inr fun l hl =>
            abs_eq_zero.1 ((sum_eq_zero_iff_of_nonneg fun k _ => abs_nonneg _).1 hz l (mem_range.2 hl))
      rw [round, if_neg hs]
      generalize ht1 : (⟨t.a, Function.update t.d (N + 1) 0, Function.update t.e (N + 1) (t.a (N + 1) (N + 1 - 1))⟩ : Tri)
        = t1
      have a1 : t1.a = t.a := by rw [← ht1]
      have d1 : t1.d = Function.update t.d (N + 1) 0 := by rw [← ht1]
      have e1 : t1.e = Function.update t.e (N + 1) (t.a (N + 1) N) := by rw [← ht1]; rfl
      obtain ⟨t2, h2, hG, fa, fd, fe⟩ := ih t1
      refine ⟨t2, h2, ?_, fun r c h => ?_, fun k h => ?_, fun k h => ?_⟩
      · obtain ⟨ga, gd, ge⟩ := gathers_frame (cleared t2) (N + 1)
        rw [gathers]
        generalize hT : gathers (N + 1) (cleared t2) = T at hG ga gd ge
        have hdT : T.d (N + 1) = 0 := by
          rw [gd _ (by omega)]
          show Function.update t2.d 0 0 (N + 1) = _
          rw [Function.update_of_ne (by omega), fd _ (by omega), d1, Function.update_self]
        have heT : T.e (N + 1) = t.a (N + 1) N := by
          rw [ge]
          show Function.update t2.e 0 0 (N + 1) = _
          rw [Function.update_of_ne (by omega), fe _ (by omega), e1, Function.update_self]
        have hnnT : T.a (N + 1) (N + 1) = t.a (N + 1) (N + 1) := by
          rw [ga _ _ (by omega)]
          show t2.a (N + 1) (N + 1) = _
          rw [fa _ _ (by omega), a1]
        have hm : ∀ r < N + 1, ∀ c < N + 1, (gather (N + 1) T).a r c = T.a r c := by
          intro r hr c hc
          show (if r = N + 1 ∧ c = N + 1 then (1 : ℝ) else if (r = N + 1 ∧ c < N + 1) ∨ (c = N + 1 ∧ r < N + 1) then 0
            else multiplied T.a T.d (N + 1) r c) = _
          rw [if_neg (by omega), if_neg (by omega), multiplied, if_neg (fun h => h.1 hdT)]
        have hdd : ∀ k < N + 1, (gather (N + 1) T).d k = T.d k := fun k hk =>
          Function.update_of_ne (by omega) _ _
        refine assemble (by omega) ?_ ?_ ?_ (fun r hr c hc => ?_) (fun r hr c hc => ?_) ?_ (fun r hr => ?_) ?_ ?_
        · simp [gather]
        · intro c hc
          show (if N + 1 = N + 1 ∧ c = N + 1 then (1 : ℝ) else if (N + 1 = N + 1 ∧ c < N + 1) ∨ _ then 0 else _) = 0
          rw [if_neg (by omega), if_pos (by omega)]
        · intro r hr
          show (if r = N + 1 ∧ N + 1 = N + 1 then (1 : ℝ) else if _ ∨ (N + 1 = N + 1 ∧ r < N + 1) then 0 else _) = 0
          rw [if_neg (by omega), if_pos (by omega)]
        · rw [form_congr hdd (fun _ _ => rfl) (hm r hr) (hm c hc)]
          have := hG.form r hr c hc
          rw [a1] at this
          exact this
        · have : Spec.dot (N + 1) ((gather (N + 1) T).a r) ((gather (N + 1) T).a c) =
              Spec.dot (N + 1) (T.a r) (T.a c) :=
            sum_congr rfl fun k hk => by rw [hm r hr k (mem_range.1 hk), hm c hc k (mem_range.1 hk)]
          rw [this]
          exact hG.dot r hr c hc
        · show Function.update T.d (N + 1) (multiplied T.a T.d (N + 1) (N + 1) (N + 1)) (N + 1) = _
          rw [Function.update_self, multiplied, if_neg (by omega), hnnT]
        · show T.e (N + 1) * _ = _
          rw [heT, hm r hr _ (by omega), hG.last r hr, Nat.add_sub_cancel]
          rcases hcase with rfl | hall
          · obtain rfl : r = 0 := by omega
            simp
          · rw [hall r hr, hall N (by omega), zero_mul]
        · have hQ := hG.squares
          rw [a1] at hQ
          rw [hQ]
          exact (squares_congr hdd fun _ _ => rfl).symm
        · show _ = T.e (N + 1) ^ 2
          rw [heT]
          rcases hcase with rfl | hall
          · simp
          · rw [hall N (by omega), sum_eq_zero fun k hk => by rw [hall k (mem_range.1 hk)]; ring]
            ring
      · rw [fa r c (by omega), a1]
      · rw [fd k (by omega), d1, Function.update_of_ne (by omega)]
      · rw [fe k (by omega), e1, Function.update_of_ne (by omega)]

end Verif.EigenSym
