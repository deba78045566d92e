import Mathlib.Algebra.BigOperators.Intervals
import Mathlib.Algebra.BigOperators.Ring.Finset
import Mathlib.Data.Real.Basic
import Mathlib.Tactic.LinearCombination
import Mathlib.Tactic.Ring

/-! # Reflections -/

namespace Verif.SVD

open Finset

/-- The vector `y` reflected along `u`, with `g` twice the inverse of the negative square of `u`, or zero. -/
def hh (m n : ℕ) (u : ℕ → ℝ) (g : ℝ) (y : ℕ → ℝ) (r : ℕ) : ℝ := y r + g * (∑ k ∈ Ico m n, u k * y k) * u r

/-- `u` and `g` give a reflection or nothing. -/
def Refl (m n : ℕ) (u : ℕ → ℝ) (g : ℝ) : Prop := g * g * (∑ k ∈ Ico m n, u k * u k) = -2 * g

theorem hh_congr {m n : ℕ} {u y z : ℕ → ℝ} {g : ℝ} (h : ∀ k ∈ Ico m n, y k = z k) {r : ℕ} (hr : r ∈ Ico m n) :
    hh m n u g y r = hh m n u g z r := by
  unfold hh
  rw [h r hr, sum_congr rfl fun k hk => by rw [h k hk]]

theorem hh_smul (m n : ℕ) (u : ℕ → ℝ) (g a : ℝ) (y : ℕ → ℝ) (r : ℕ) :
    hh m n u g (fun k => a * y k) r = a * hh m n u g y r := by
  unfold hh
  have : ∑ k ∈ Ico m n, u k * (a * y k) = a * ∑ k ∈ Ico m n, u k * y k := by
    rw [mul_sum]; exact sum_congr rfl fun k _ => by ring
  rw [this]; ring

theorem hh_sum {ι : Type} (s : Finset ι) (m n : ℕ) (u : ℕ → ℝ) (g : ℝ) (y : ι → ℕ → ℝ) (r : ℕ) :
    hh m n u g (fun k => ∑ i ∈ s, y i k) r = ∑ i ∈ s, hh m n u g (y i) r := by
  unfold hh
  have : ∑ k ∈ Ico m n, u k * ∑ i ∈ s, y i k = ∑ i ∈ s, ∑ k ∈ Ico m n, u k * y i k := by
    rw [sum_comm]; exact sum_congr rfl fun k _ => mul_sum _ _ _
  rw [this, sum_add_distrib, mul_sum, sum_mul]

theorem hh_hh {m n : ℕ} {u : ℕ → ℝ} {g : ℝ} (h : Refl m n u g) (y : ℕ → ℝ) (r : ℕ) :
    hh m n u g (hh m n u g y) r = y r := by
  have : ∑ k ∈ Ico m n, u k * hh m n u g y k =
      ∑ k ∈ Ico m n, u k * y k + g * (∑ k ∈ Ico m n, u k * y k) * ∑ k ∈ Ico m n, u k * u k := by
    rw [mul_sum, ← sum_add_distrib]
    exact sum_congr rfl fun k _ => by unfold hh; ring
  unfold Refl at h
  rw [hh, this, hh]
  linear_combination (∑ k ∈ Ico m n, u k * y k) * u r * h

/-- The matrix the columns from `i` on stand for. -/
def prodFrom (i n : ℕ) (V work : ℕ → ℝ) (U S : ℕ → ℕ → ℝ) (r b : ℕ) : ℝ :=
  ∑ c ∈ Ico i n, S b c * (V c * U r c + if c = i then 0 else work c * U r (c - 1))

/-- One column and one row more. -/
theorem prodFrom_step {i n : ℕ} (hi : i < n) {A A1 A2 U S U' S' : ℕ → ℕ → ℝ} {u v : ℕ → ℝ} {g h : ℝ} {V work : ℕ → ℝ}
    (hu : Refl i n u g) (hv : Refl (i + 1) n v h)
    (hA1 : ∀ r ∈ Ico i n, ∀ b ∈ Ico (i + 1) n, A1 r b = hh i n u g (fun k => A k b) r)
    (hA0 : ∀ r ∈ Ico i n, hh i n u g (fun k => A k i) r = if r = i then V i else 0)
    (hA2 : ∀ r ∈ Ico (i + 1) n, ∀ b ∈ Ico (i + 1) n, A2 r b = hh (i + 1) n v h (A1 r) b)
    (hA3 : ∀ b ∈ Ico (i + 1) n, hh (i + 1) n v h (A1 i) b = if b = i + 1 then work (i + 1) else 0)
    (hU : ∀ r ∈ Ico i n, ∀ c ∈ Ico (i + 1) n, U r c = hh i n u g (fun k => if k = i then 0 else U' k c) r)
    (hU0 : ∀ r ∈ Ico i n, U r i = hh i n u g (fun k => if k = i then 1 else 0) r)
    (hS : ∀ b ∈ Ico (i + 1) n, ∀ c ∈ Ico (i + 1) n, S b c = hh (i + 1) n v h (fun k => S' k c) b)
    (hS0 : S i i = 1) (hS1 : ∀ c ∈ Ico (i + 1) n, S i c = 0 ∧ S c i = 0)
    (hS2 : ∀ b ∈ Ico (i + 1) n, S' b (i + 1) = if b = i + 1 then 1 else 0)
    (ih : ∀ r ∈ Ico (i + 1) n, ∀ b ∈ Ico (i + 1) n, prodFrom (i + 1) n V work U' S' r b = A2 r b) :
    ∀ r ∈ Ico i n, ∀ b ∈ Ico i n, prodFrom i n V work U S r b = A r b := by
  intro r hr b hb
  have hsub : ∀ {k}, k ∈ Ico (i + 1) n → k ∈ Ico i n := fun hk => by
    rw [mem_Ico] at hk ⊢; omega
  have hA : ∀ k ∈ Ico i n, A k i = V i * hh i n u g (fun k => if k = i then 1 else 0) k := by
    intro k hk
    rw [← hh_hh hu (fun k => A k i) k, ← hh_smul]
    refine hh_congr (fun k hk => ?_) hk
    rw [hA0 k hk]
    split <;> simp
  unfold prodFrom
  rw [sum_eq_sum_Ico_succ_bot hi, if_pos rfl, add_zero]
  rcases Nat.eq_or_lt_of_le (mem_Ico.1 hb).1 with h0 | h0
  · subst h0
    rw [sum_eq_zero fun c hc => by rw [(hS1 c hc).1, zero_mul], add_zero, hS0, one_mul, hU0 r hr, hA r hr]
  · have hb' : b ∈ Ico (i + 1) n := mem_Ico.2 ⟨h0, (mem_Ico.1 hb).2⟩
    rw [(hS1 b hb').2, zero_mul, zero_add]
    -- the columns of the larger matrix as reflections of the smaller one
    let W : ℕ → ℕ → ℝ := fun k c => if c = i then (if k = i then 1 else 0) else if k = i then 0 else U' k c
    have hW : ∀ k ∈ Ico i n, ∀ c ∈ Ico i n, U k c = hh i n u g (fun k => W k c) k := by
      intro k hk c hc
      rcases Nat.eq_or_lt_of_le (mem_Ico.1 hc).1 with h1 | h1
      · subst h1
        rw [hU0 k hk]
        simp [W]
      · rw [hU k hk c (mem_Ico.2 ⟨h1, (mem_Ico.1 hc).2⟩)]
        have : c ≠ i := by omega
        simp [W, this]
    -- the product of the smaller one
    let E : ℕ → ℕ → ℝ := fun k d => ∑ c ∈ Ico (i + 1) n, S' d c * (V c * W k c + work c * W k (c - 1))
    have hE : ∀ k ∈ Ico i n, ∀ d ∈ Ico (i + 1) n, E k d = hh (i + 1) n v h (A1 k) d := by
      intro k hk d hd
      have hin : i + 1 < n := by rw [mem_Ico] at hd; omega
      rcases Nat.eq_or_lt_of_le (mem_Ico.1 hk).1 with h1 | h1
      · subst h1
        rw [hA3 d hd]
        show ∑ c ∈ Ico (i + 1) n, S' d c * (V c * W i c + work c * W i (c - 1)) = _
        rw [sum_eq_sum_Ico_succ_bot hin, sum_eq_zero, hS2 d hd]
        · have : i + 1 ≠ i := by omega
          simp [W, this]
        · intro c hc
          have h2 := (mem_Ico.1 hc).1
          have h3 : c ≠ i := by omega
          have h4 : c - 1 ≠ i := by omega
          simp [W, h3, h4]
      · have hk' : k ∈ Ico (i + 1) n := mem_Ico.2 ⟨h1, (mem_Ico.1 hk).2⟩
        rw [← hA2 k hk' d hd, ← ih k hk' d hd]
        refine sum_congr rfl fun c hc => ?_
        have h2 := (mem_Ico.1 hc).1
        have h3 : c ≠ i := by omega
        have h4 : k ≠ i := by omega
        by_cases h5 : c = i + 1
        · subst h5
          simp [W, h4]
        · have h6 : c - 1 ≠ i := by omega
          simp [W, h3, h4, h5, h6]
    have key : ∀ k ∈ Ico i n, hh (i + 1) n v h (E k) b = A1 k b := by
      intro k hk
      rw [← hh_hh hv (A1 k) b]
      exact hh_congr (fun d hd => hE k hk d hd) hb'
    have e1 : ∑ c ∈ Ico (i + 1) n, S b c * (V c * U r c + if c = i then 0 else work c * U r (c - 1)) =
        hh i n u g (fun k => hh (i + 1) n v h (E k) b) r := by
      have : ∀ k, hh (i + 1) n v h (E k) b = ∑ c ∈ Ico (i + 1) n, (hh (i + 1) n v h (fun d => S' d c) b) *
          (V c * W k c + work c * W k (c - 1)) := by
        intro k
        show hh (i + 1) n v h (fun d => ∑ c ∈ Ico (i + 1) n, S' d c * (V c * W k c + work c * W k (c - 1))) b = _
        rw [hh_sum]
        refine sum_congr rfl fun c _ => ?_
        rw [mul_comm _ (V c * W k c + work c * W k (c - 1)), ← hh_smul]
        congr 1
        funext d
        ring
      simp only [this]
      rw [hh_sum]
      refine sum_congr rfl fun c hc => ?_
      have h2 := (mem_Ico.1 hc)
      have h3 : c ≠ i := by omega
      rw [hh_smul, hS b hb' c hc, if_neg h3, hW r hr c (hsub hc), hW r hr (c - 1) (mem_Ico.2 (by omega))]
      congr 1
      unfold hh
      have : ∑ k ∈ Ico i n, u k * (V c * W k c + work c * W k (c - 1)) =
          V c * ∑ k ∈ Ico i n, u k * W k c + work c * ∑ k ∈ Ico i n, u k * W k (c - 1) := by
        rw [mul_sum, mul_sum, ← sum_add_distrib]
        exact sum_congr rfl fun k _ => by ring
      rw [this]
      ring
    rw [e1, hh_congr key hr]
    have := hh_hh hu (fun k => A k b) r
    rw [← this]
    exact hh_congr (fun k hk => hA1 k hk b hb') hr

end Verif.SVD
