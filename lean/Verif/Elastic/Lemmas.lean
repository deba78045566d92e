import Verif.Elastic.Spec
import Verif.Interpolation.Properties
import Mathlib.Tactic.FieldSimp
import Mathlib.Tactic.Ring
import Mathlib.Tactic.Linarith
import Mathlib.Tactic.Positivity

/-! Lemmas: the table of quantiles. -/

namespace Verif.Elastic
open Finset Verif Verif.Interpolation Verif.Interpolation.Spec Verif.Elastic.Spec

theorem place_succ (c : Setup) (k : Nat) : place c (k + 1) = place c k + c.step := by
  unfold place; push_cast; ring

theorem place_lt (c : Setup) (h : 0 < c.step) {i j : Nat} (hij : i < j) : place c i < place c j := by
  unfold place
  have : (i : ℝ) < j := by exact_mod_cast hij
  nlinarith

theorem place_le (c : Setup) (h : 0 < c.step) {i j : Nat} (hij : i ≤ j) : place c i ≤ place c j := by
  rcases Nat.lt_or_eq_of_le hij with h' | rfl
  · exact (place_lt c h h').le
  · exact le_rfl

theorem total_zero (c : Setup) (f : ℝ → ℝ) : total c f 0 = 0 := by simp [total]

theorem total_succ (c : Setup) (f : ℝ → ℝ) (n : Nat) : total c f (n + 1) = total c f n + c.step * f (place c (n + 1)) := by
  unfold total
  rw [Finset.sum_Ico_succ_top (by omega)]
  ring

theorem total_lt (c : Setup) (h : 0 < c.step) (f : ℝ → ℝ) (n : Nat) (hp : ∀ k, 1 ≤ k → k ≤ n → 0 < f (place c k)) (i : Nat) :
    ∀ j, i < j → j ≤ n → total c f i < total c f j := by
  intro j
  induction j with
  | zero => omega
  | succ j ih =>
    intro hij hj
    rw [total_succ]
    have : 0 < c.step * f (place c (j + 1)) := mul_pos h (hp _ (by omega) hj)
    rcases Nat.lt_or_eq_of_le (Nat.lt_succ_iff.mp hij) with h' | rfl
    · have := ih h' (by omega); linarith
    · linarith

theorem nSteps_eq (c : Setup) (n : Nat) (h : Steps c n) : nSteps c = .ok n := by
  obtain ⟨hs, hn, h1, h2⟩ := h
  unfold place at h1 h2
  push_cast at h2
  have r1 : (n : ℝ) ≤ (c.tmax - c.tmin) / c.step := by rw [le_div_iff₀ hs]; linarith
  have r2 : (c.tmax - c.tmin) / c.step < n + 1 := by rw [div_lt_iff₀ hs]; linarith
  have hf : ⌊(c.tmax - c.tmin) / c.step⌋ = (n : ℤ) := by
    rw [Int.floor_eq_iff]; push_cast; exact ⟨r1, r2⟩
  have hb : (n : ℝ) + 1 ≤ 2 ^ 32 - 1 := by
    have : n + 1 ≤ 2 ^ 32 - 1 := hn
    have : ((n + 1 : Nat) : ℝ) ≤ ((2 ^ 32 - 1 : Nat) : ℝ) := by exact_mod_cast this
    push_cast at this
    norm_num at this ⊢
    linarith
  unfold nSteps
  rw [if_neg hs.ne']
  simp only
  rw [if_neg, hf]
  · rfl
  · intro h
    rcases h with h | h
    · have : (0 : ℝ) ≤ n := Nat.cast_nonneg n
      linarith
    · linarith

theorem running_eq (step : ℝ) (f : Nat → ℝ) : ∀ (m a : Nat) (s : ℝ), running step s ((List.range' a m).map f)
    = ((List.range' a m).map (fun k => s + step * ∑ i ∈ Ico a (k + 1), f i), s + step * ∑ i ∈ Ico a (a + m), f i) := by
  intro m
  induction m with
  | zero => intro a s; simp [running]
  | succ m ih =>
    intro a s
    rw [List.range'_succ, List.map_cons, running]
    simp only [ih (a + 1)]
    rw [List.map_cons]
    refine Prod.ext ?_ ?_
    · simp only
      congr 1
      · simp; ring
      · apply List.map_congr_left
        intro k hk
        obtain ⟨hk1, -⟩ := List.mem_range'_1.mp hk
        rw [Finset.sum_eq_sum_Ico_succ_bot (by omega : a < k + 1)]
        ring
    · simp only
      rw [Finset.sum_eq_sum_Ico_succ_bot (by omega : a < a + (m + 1)), show a + 1 + m = a + (m + 1) by omega]
      ring

theorem ts_eq (c : Setup) (n : Nat) : ts c n = (List.range (n + 1)).map (place c) := by
  unfold ts place
  congr 1
  funext k
  ring

theorem range_succ' (n : Nat) : List.range (n + 1) = 0 :: List.range' 1 n := by
  rw [List.range_eq_range', List.range'_succ]

/-- The normalised sums. -/
noncomputable def cum (c : Setup) (f : ℝ → ℝ) (n k : Nat) : ℝ := total c f k / total c f n

theorem running_total (c : Setup) (f : ℝ → ℝ) (n : Nat) : running c.step 0 ((List.range' 1 n).map fun k => f (place c k))
    = ((List.range' 1 n).map (total c f), total c f n) := by
  rw [running_eq c.step (fun k => f (place c k)) n 1 0]
  refine Prod.ext ?_ ?_
  · simp only
    apply List.map_congr_left
    intro k _
    unfold total
    ring
  · simp only
    unfold total
    rw [Nat.add_comm 1 n]
    ring

theorem mem_points (X P : Nat → ℝ) (n : Nat) (a : Pt ℝ) : a ∈ points ((List.range n).map X) ((List.range n).map P) ↔ ∃ i, i < n ∧ a = ⟨X i, P i⟩ := by
  have : points ((List.range n).map X) ((List.range n).map P) = (List.range n).map fun i => ⟨X i, P i⟩ := by
    unfold points
    rw [List.zipWith_map]
    induction (List.range n) with
    | nil => rfl
    | cons x l ih => simp [ih]
  rw [this]
  simp only [List.mem_map, List.mem_range]
  constructor
  · rintro ⟨i, h, rfl⟩; exact ⟨i, h, rfl⟩
  · rintro ⟨i, h, rfl⟩; exact ⟨i, h, rfl⟩

/-- A value of the inverse of the sums is a quantile. -/
theorem inverse_value (c : Setup) (f : ℝ → ℝ) (n : Nat) (hs : 0 < c.step) (hn : 1 ≤ n) (hp : ∀ k, 1 ≤ k → k ≤ n → 0 < f (place c k))
    (inv : Arb ℝ) (hi : (mkArb ((List.range (n + 1)).map (cum c f n)) ((List.range (n + 1)).map (place c)) 1 : Res (Arb ℝ)) = .ok inv)
    (p : ℝ) (h0 : 0 ≤ p) (h1 : p ≤ 1) : ∃ v, valueAt inv p = .ok (v, none, inv) ∧ Quantile c f n p v := by
  have hT : 0 < total c f n := by
    have := total_lt c hs f n hp 0 n (by omega) le_rfl
    rwa [total_zero] at this
  have hlt : ∀ i j, i < j → j ≤ n → cum c f n i < cum c f n j := fun i j hij hj =>
    div_lt_div_of_pos_right (total_lt c hs f n hp i j hij hj) hT
  have hnd : ((List.range (n + 1)).map (cum c f n)).Nodup := by
    apply List.Nodup.map_on _ List.nodup_range
    intro x hx y hy hxy
    have hx := List.mem_range.mp hx
    have hy := List.mem_range.mp hy
    rcases Nat.lt_trichotomy x y with h | h | h
    · exact absurd hxy (hlt x y h (by omega)).ne
    · exact h
    · exact absurd hxy (hlt y x h (by omega)).ne'
  have hv := (linear ((List.range (n + 1)).map (cum c f n)) ((List.range (n + 1)).map (place c)) 1 hnd (by simp; omega) le_rfl inv hi p).2
    ⟨cum c f n 0, List.mem_map_of_mem (List.mem_range.mpr (by omega)), by simp [cum, total_zero, h0]⟩
    ⟨cum c f n n, List.mem_map_of_mem (List.mem_range.mpr (by omega)), by unfold cum; rw [div_self hT.ne']; exact h1⟩
  obtain ⟨v, hv, hl⟩ := hv
  refine ⟨v, hv, ?_⟩
  obtain ⟨a, ha, b, hb, hab, ha1, hb1, hno, hl⟩ := hl
  obtain ⟨i, hi', rfl⟩ := (mem_points _ _ _ _).mp ha
  obtain ⟨j, hj', rfl⟩ := (mem_points _ _ _ _).mp hb
  simp only at hab ha1 hb1 hno hl
  have hij : i < j := by
    by_contra h
    rcases Nat.lt_or_eq_of_le (not_lt.mp h) with h | h
    · exact absurd (hlt j i h (by omega)) (not_lt.mpr hab.le)
    · rw [h] at hab; exact lt_irrefl _ hab
  have hj1 : j = i + 1 := by
    by_contra h
    have hc := hno ⟨cum c f n (i + 1), place c (i + 1)⟩ ((mem_points _ _ _ _).mpr ⟨i + 1, by omega, rfl⟩)
    simp only at hc
    have e1 := hlt i (i + 1) (by omega) (by omega)
    have e2 := hlt (i + 1) j (by omega) (by omega)
    rcases hc with hc | hc
    · linarith
    · linarith
  subst hj1
  have hf : 0 < f (place c (i + 1)) := hp (i + 1) (by omega) (by omega)
  unfold cum at ha1 hb1 hl
  rw [div_le_iff₀ hT] at ha1
  rw [le_div_iff₀ hT] at hb1
  have key : total c f i + (v - place c i) * f (place c (i + 1)) = p * total c f n := by
    rw [total_succ] at hl
    have e : c.step * ((v - place c i) * f (place c (i + 1)) - (p * total c f n - total c f i)) = 0 := by
      have h2 := congrArg (· * total c f n) hl
      have e1 : v * ((total c f i + c.step * f (place c (i + 1))) / total c f n - total c f i / total c f n) * total c f n
          = v * (c.step * f (place c (i + 1))) := by field_simp; ring
      have e2 : (place c i * ((total c f i + c.step * f (place c (i + 1))) / total c f n - p)
          + place c (i + 1) * (p - total c f i / total c f n)) * total c f n
          = place c i * (total c f i + c.step * f (place c (i + 1)) - p * total c f n) + place c (i + 1) * (p * total c f n - total c f i) := by
        field_simp
      rw [e1, e2] at h2
      have e3 := place_succ c i
      linear_combination h2 + (p * total c f n - total c f i) * e3
    rcases mul_eq_zero.mp e with e | e
    · exact absurd e hs.ne'
    · linarith
  refine ⟨i, by omega, ?_, ?_, key⟩
  · have : 0 ≤ (v - place c i) * f (place c (i + 1)) := by linarith
    have := nonneg_of_mul_nonneg_left this hf
    linarith
  · rw [total_succ] at hb1
    rw [place_succ]
    have : (v - place c i - c.step) * f (place c (i + 1)) ≤ 0 := by linarith
    have := nonpos_of_mul_nonpos_left this hf
    linarith

/-- A larger part of the cross section needs a larger value. -/
theorem quantile_lt (c : Setup) (f : ℝ → ℝ) (n : Nat) (hs : 0 < c.step) (hp : ∀ k, 1 ≤ k → k ≤ n → 0 < f (place c k)) (hT : 0 < total c f n)
    {p q p' q' : ℝ} (h : Quantile c f n p q) (h' : Quantile c f n p' q') (hpp : p < p') : q < q' := by
  by_contra hq
  push Not at hq
  obtain ⟨j, hj, h1, h2, h3⟩ := h
  obtain ⟨j', hj', h1', h2', h3'⟩ := h'
  have hf := hp (j + 1) (by omega) (by omega)
  have hf' := hp (j' + 1) (by omega) (by omega)
  have hlt : p * total c f n < p' * total c f n := mul_lt_mul_of_pos_right hpp hT
  rcases Nat.lt_trichotomy j' j with hjj | hjj | hjj
  · have e1 : total c f (j' + 1) ≤ total c f j := by
      rcases Nat.lt_or_eq_of_le (Nat.succ_le_of_lt hjj) with e | e
      · exact (total_lt c hs f n hp _ _ e (by omega)).le
      · exact le_of_eq (by rw [← e])
    rw [total_succ] at e1
    have e2 : (q' - place c j') * f (place c (j' + 1)) ≤ c.step * f (place c (j' + 1)) := by
      apply mul_le_mul_of_nonneg_right _ hf'.le
      have := place_succ c j'
      linarith
    have e3 : 0 ≤ (q - place c j) * f (place c (j + 1)) := mul_nonneg (by linarith) hf.le
    linarith
  · subst hjj
    have : (q' - place c j') * f (place c (j' + 1)) ≤ (q - place c j') * f (place c (j' + 1)) :=
      mul_le_mul_of_nonneg_right (by linarith) hf.le
    linarith
  · have e1 := place_le c hs (Nat.succ_le_of_lt hjj)
    have e2 : place c (j + 1) = place c j' := by
      simp only [Nat.succ_eq_add_one] at e1
      linarith
    have e3 : j + 1 = j' := by
      by_contra hne
      have := place_lt c hs (show j + 1 < j' by omega)
      linarith
    subst e3
    have e4 : q' = place c (j + 1) := by linarith
    have e5 : q = place c (j + 1) := by linarith
    rw [e4] at h3'
    rw [e5] at h3
    rw [total_succ] at h3'
    have := place_succ c j
    have e6 : (place c (j + 1) - place c j) * f (place c (j + 1)) = c.step * f (place c (j + 1)) := by
      congr 1; linarith
    rw [e6] at h3
    linarith

theorem inverse_list (inv : Arb ℝ) (n : Nat) (Q : Nat → ℝ → Prop) : ∀ l : List Nat,
    (∀ k ∈ l, ∃ v, valueAt inv ((k : ℝ) / (n : ℝ)) = .ok (v, none, inv) ∧ Q k v) →
    ∃ q : Nat → ℝ, inverse inv n l = .ok (l.map q) ∧ ∀ k ∈ l, Q k (q k) := by
  intro l h
  have hq : ∀ k, ∃ v, k ∈ l → valueAt inv ((k : ℝ) / (n : ℝ)) = .ok (v, none, inv) ∧ Q k v := by
    intro k
    by_cases hk : k ∈ l
    · obtain ⟨v, hv⟩ := h k hk
      exact ⟨v, fun _ => hv⟩
    · exact ⟨0, fun hk' => absurd hk' hk⟩
  choose q hq using hq
  refine ⟨q, ?_, fun k hk => (hq k hk).2⟩
  have : ∀ m : List Nat, (∀ k ∈ m, k ∈ l) → inverse inv n m = .ok (m.map q) := by
    intro m
    induction m with
    | nil => intro _; rfl
    | cons k m ih =>
      intro hm
      rw [inverse, (hq k (hm k (List.mem_cons_self ..))).1, ih fun k hk => hm k (List.mem_cons_of_mem _ hk)]
      rfl
  exact this l fun k hk => hk

end Verif.Elastic
