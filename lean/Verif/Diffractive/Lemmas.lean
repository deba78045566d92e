import Verif.Diffractive.Model
import Verif.Diffractive.Spec
import Mathlib.Algebra.Order.BigOperators.Group.Finset
import Mathlib.Tactic.FieldSimp
import Mathlib.Tactic.Linarith

/-!
# Lemmas for the tables
-/

namespace Verif.Diffractive
open Finset Spec Verif

theorem accumulate_eq (d : Nat → ℝ) (NN : Nat) : accumulate d NN = ∑ k ∈ range NN, d k := by
  unfold accumulate
  induction NN with
  | zero => simp
  | succ n ih => rw [List.range_succ, List.foldl_append, ih, Finset.sum_range_succ]; simp

theorem running_eq (d : Nat → ℝ) (k : Nat) : running d k = ∑ i ∈ range (k + 1), d i := by
  induction k with
  | zero => simp [running]
  | succ n ih => rw [running, ih, Finset.sum_range_succ _ (n + 1)]; ring

theorem normalised_eq (d : Nat → ℝ) (NN k : Nat) (h : 1 ≤ NN) : normalised d NN k = share d NN k := by
  unfold normalised share
  rw [running_eq, running_eq, Nat.sub_add_cancel h]

theorem share_mono (d : Nat → ℝ) (NN : Nat) (hd : ∀ i, i < NN → 0 ≤ d i) (hT : 0 < ∑ i ∈ range NN, d i) (i j : Nat) (hij : i ≤ j) (hj : j < NN) :
    share d NN i ≤ share d NN j := by
  unfold share
  gcongr 1
  apply Finset.sum_le_sum_of_subset_of_nonneg
  · intro x hx
    rw [Finset.mem_range] at *
    omega
  · intro x hx _
    rw [Finset.mem_range] at hx
    exact hd x (by omega)

theorem share_last (d : Nat → ℝ) (NN : Nat) (h : 1 ≤ NN) (hT : 0 < ∑ i ∈ range NN, d i) : share d NN (NN - 1) = 1 := by
  unfold share
  rw [Nat.sub_add_cancel h]
  exact div_self hT.ne'

theorem seek_spec (c : Nat → ℝ) (NN : Nat) (target : ℝ) (hl : target ≤ c (NN - 1)) : ∀ (m k : Nat), NN - k = m → k + 1 < NN → c k < target →
    ∃ k', seek c NN target k = .ok k' ∧ k ≤ k' ∧ k' + 1 < NN ∧ c k' < target ∧ target ≤ c (k' + 1) := by
  intro m
  induction m using Nat.strong_induction_on with
  | _ m ih =>
    intro k hm hk hc
    rw [seek, if_pos hk]
    by_cases h : c (k + 1) < target
    · rw [if_pos h]
      have hk2 : k + 1 + 1 < NN := by
        by_contra hcon
        have : NN - 1 = k + 1 := by omega
        rw [this] at hl
        linarith
      obtain ⟨k', e, h1, h2⟩ := ih (NN - (k + 1)) (by omega) (k + 1) rfl hk2 h
      exact ⟨k', e, by omega, h2⟩
    · rw [if_neg h]
      exact ⟨k, rfl, le_rfl, hk, hc, not_lt.mp h⟩

/-- The entry for the share `p`. -/
def Entry (c : Nat → ℝ) (NN : Nat) (p u : ℝ) : Prop :=
  ∃ k, k + 1 < NN ∧ c k < p ∧ p ≤ c (k + 1) ∧ u = ((k : ℝ) + (p - c k) / (c (k + 1) - c k)) / (NN : ℝ)

theorem entry_spec (c : Nat → ℝ) (NN : Nat) (p : ℝ) (k : Nat) (hk : k + 1 < NN) (h1 : c k < p) (h2 : p ≤ c (k + 1)) :
    ∃ u, entry c NN p k = .ok u ∧ Entry c NN p u := by
  have hpos : 0 < c (k + 1) - c k := by linarith
  refine ⟨_, ?_, k, hk, h1, h2, rfl⟩
  unfold entry
  rw [if_neg hpos.ne', min_eq_right]
  rw [div_le_one hpos]
  linarith

theorem fill_spec (c : Nat → ℝ) (N NN : Nat) (hN : 1 ≤ N) (hc : 1 ≤ c (NN - 1)) : ∀ (m i k : Nat), i + m ≤ N → k + 1 < NN → c k < (i : ℝ) / N →
    ∃ l, fill c N NN m i k = .ok l ∧ l.length = m ∧ ∀ j, j < m → Entry c NN (((i + j : Nat) : ℝ) / N) (l.getD j 0) := by
  intro m
  induction m with
  | zero => intro i k _ _ _; exact ⟨[], rfl, rfl, fun j hj => by omega⟩
  | succ m ih =>
    intro i k him hk hck
    have hNpos : (0 : ℝ) < N := by exact_mod_cast hN
    have hi1 : (i : ℝ) / N ≤ 1 := by
      rw [div_le_one hNpos]
      exact_mod_cast (by omega : i ≤ N)
    obtain ⟨k', e1, hkk, hk', hc1, hc2⟩ := seek_spec c NN ((i : ℝ) / N) (hi1.trans hc) _ k rfl hk hck
    obtain ⟨u, e2, hu⟩ := entry_spec c NN _ k' hk' hc1 hc2
    have hnext : c k' < ((i + 1 : Nat) : ℝ) / N := by
      refine hc1.trans ?_
      gcongr
      exact_mod_cast Nat.lt_succ_self i
    obtain ⟨l, e3, hlen, hl⟩ := ih (i + 1) k' (by omega) hk' hnext
    refine ⟨u :: l, ?_, by simp [hlen], ?_⟩
    · rw [fill, e1]
      simp only [Outcome.bind]
      rw [e2]
      simp only
      rw [e3]
    · intro j hj
      rcases j with _ | j
      · simpa using hu
      · have := hl j (by omega)
        rw [List.getD_cons_succ]
        rwa [show i + (j + 1) = i + 1 + j by omega]

theorem entry_lt (c : Nat → ℝ) (NN : Nat) (hm : ∀ i j, i ≤ j → j < NN → c i ≤ c j) (p p' u u' : ℝ) (hp : p < p') (h : Entry c NN p u) (h' : Entry c NN p' u') :
    u < u' := by
  obtain ⟨k, hk, a1, a2, rfl⟩ := h
  obtain ⟨k', hk', b1, b2, rfl⟩ := h'
  have hNN : (0 : ℝ) < NN := by exact_mod_cast (by omega : 0 < NN)
  have d1 : 0 < c (k + 1) - c k := by linarith
  have d2 : 0 < c (k' + 1) - c k' := by linarith
  gcongr 1
  have hle : k ≤ k' := by
    by_contra hcon
    have := hm (k' + 1) k (by omega) (by omega)
    linarith
  rcases hle.eq_or_lt with rfl | hlt
  · gcongr
  · have e1 : (p - c k) / (c (k + 1) - c k) ≤ 1 := by rw [div_le_one d1]; linarith
    have e2 : 0 < (p' - c k') / (c (k' + 1) - c k') := div_pos (by linarith) d2
    have e3 : (k : ℝ) + 1 ≤ k' := by exact_mod_cast hlt
    linarith

theorem entry_bounds (c : Nat → ℝ) (NN : Nat) (p u : ℝ) (h : Entry c NN p u) : 0 < u ∧ u < 1 := by
  obtain ⟨k, hk, a1, a2, rfl⟩ := h
  have hNN : (0 : ℝ) < NN := by exact_mod_cast (by omega : 0 < NN)
  have d1 : 0 < c (k + 1) - c k := by linarith
  have e0 : 0 < (p - c k) / (c (k + 1) - c k) := div_pos (by linarith) d1
  have e1 : (p - c k) / (c (k + 1) - c k) ≤ 1 := by rw [div_le_one d1]; linarith
  have hk0 : (0 : ℝ) ≤ k := Nat.cast_nonneg k
  have hk2 : (k : ℝ) + 1 < NN := by exact_mod_cast hk
  constructor
  · positivity
  · rw [div_lt_one hNN]
    linarith

/-- A table of a histogram. -/
theorem table_spec (d : Nat → ℝ) (N NN : Nat) (hN : 1 ≤ N) (hNN : 2 ≤ NN) (hd : ∀ i, i < NN → 0 ≤ d i) (hT : 0 < ∑ i ∈ range NN, d i)
    (h0 : share d NN 0 < 1 / (N : ℝ)) :
    ∃ a, table d N NN = .ok a ∧ Rising N a ∧ ∀ i, 1 ≤ i → i < N → Quantile d NN ((i : ℝ) / N) (a.getD i 0) := by
  have hc : normalised d NN = share d NN := funext fun k => normalised_eq d NN k (by omega)
  obtain ⟨l, e, hlen, hl⟩ := fill_spec (share d NN) N NN hN (share_last d NN (by omega) hT).ge (N - 1) 1 0 (by omega) (by omega) (by simpa using h0)
  have hg : ∀ i, 1 ≤ i → i < N → Entry (share d NN) NN ((i : ℝ) / N) ((0 :: l).getD i 0) := by
    intro i h1 h2
    obtain ⟨j, rfl⟩ : ∃ j, i = j + 1 := ⟨i - 1, by omega⟩
    rw [List.getD_cons_succ]
    have := hl j (by omega)
    rwa [show 1 + j = j + 1 by omega] at this
  have hNpos : (0 : ℝ) < N := by exact_mod_cast hN
  refine ⟨0 :: l, ?_, ⟨?_, rfl, ?_, ?_⟩, ?_⟩
  · unfold table
    rw [if_neg (by rw [running_eq, Nat.sub_add_cancel (by omega)]; exact hT.ne'), hc, e]
    rfl
  · simp [hlen]; omega
  · intro i j hij hj
    rcases Nat.eq_zero_or_pos i with rfl | hi
    · exact (entry_bounds _ _ _ _ (hg j (by omega) hj)).1
    · refine entry_lt (share d NN) NN (fun i j => share_mono d NN hd hT i j) _ _ _ _ ?_ (hg i hi (by omega)) (hg j (by omega) hj)
      gcongr
  · intro i hi
    rcases Nat.eq_zero_or_pos i with rfl | hi'
    · exact zero_lt_one
    · exact (entry_bounds _ _ _ _ (hg i hi' hi)).2
  · intro i h1 h2
    obtain ⟨k, hk, a1, a2, hu⟩ := hg i h1 h2
    have hNN' : (0 : ℝ) < NN := by exact_mod_cast (by omega : 0 < NN)
    have d1 : 0 < share d NN (k + 1) - share d NN k := by linarith
    refine ⟨k, ((i : ℝ) / N - share d NN k) / (share d NN (k + 1) - share d NN k), hk, div_pos (by linarith) d1, ?_, ?_, ?_⟩
    · rw [div_le_one d1]; linarith
    · rw [hu, div_mul_cancel₀ _ hNN'.ne']
    · rw [div_mul_cancel₀ _ d1.ne']; ring

end Verif.Diffractive
