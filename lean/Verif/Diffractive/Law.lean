import Verif.Diffractive.Lemmas
import Mathlib.MeasureTheory.Integral.IntervalIntegral.Basic
import Mathlib.MeasureTheory.Measure.Lebesgue.Basic

/-!
# The law of the choice
-/

namespace Verif.Diffractive
open Finset Spec Verif MeasureTheory

theorem cell_eq (N : Nat) (v : ℝ) (k : Nat) (hN : 1 ≤ N) (h1 : (k : ℝ) / N ≤ v) (h2 : v < ((k : ℝ) + 1) / N) : cell N v = k := by
  have hNpos : (0 : ℝ) < N := by exact_mod_cast hN
  unfold cell
  rw [div_le_iff₀ hNpos] at h1
  rw [lt_div_iff₀ hNpos] at h2
  have h0 : (0 : ℝ) ≤ N * v := by
    have : (0 : ℝ) ≤ k := Nat.cast_nonneg k
    linarith
  rw [Nat.floor_eq_iff h0]
  constructor <;> linarith

theorem cell_lt (N : Nat) (v : ℝ) (hN : 1 ≤ N) (h0 : 0 ≤ v) (h1 : v < 1) : cell N v < N := by
  have hNpos : (0 : ℝ) < N := by exact_mod_cast hN
  unfold cell
  rw [Nat.floor_lt (by positivity)]
  nlinarith

/-- The table with its end. -/
noncomputable def ext (N : Nat) (a : List ℝ) (k : Nat) : ℝ := if k < N then a.getD k 0 else 1

theorem delta_eq (N : Nat) (a : List ℝ) (k : Nat) (hk : k < N) : delta N a k = ext N a (k + 1) - ext N a k := by
  unfold delta ext
  rw [if_pos hk]
  by_cases h : k + 1 < N
  · rw [if_pos (by omega), if_pos h]
  · rw [if_neg (by omega), if_neg h]

theorem delta_pos (N : Nat) (a : List ℝ) (h : Rising N a) (k : Nat) (hk : k < N) : 0 < delta N a k := by
  obtain ⟨_, _, h2, h3⟩ := h
  unfold delta
  split_ifs with hlt
  · have := h2 k (k + 1) (by omega) (by omega)
    linarith
  · have := h3 k hk
    linarith

theorem ext_bounds (N : Nat) (a : List ℝ) (h : Rising N a) (k : Nat) (hk : k ≤ N) : 0 ≤ ext N a k ∧ ext N a k ≤ 1 := by
  obtain ⟨_, h0, h2, h3⟩ := h
  unfold ext
  split_ifs with hlt
  · refine ⟨?_, (h3 k hlt).le⟩
    rcases Nat.eq_zero_or_pos k with rfl | hp
    · rw [h0]
    · have := h2 0 k hp hlt
      linarith
  · exact ⟨zero_le_one, le_rfl⟩

theorem place_bounds (N : Nat) (a : List ℝ) (h : Rising N a) (hN : 1 ≤ N) (v : ℝ) (h0 : 0 ≤ v) (h1 : v < 1) : 0 ≤ place N a v ∧ place N a v < 1 := by
  have hNpos : (0 : ℝ) < N := by exact_mod_cast hN
  have hk := cell_lt N v hN h0 h1
  have hd := delta_pos N a h _ hk
  have f1 : (cell N v : ℝ) ≤ N * v := Nat.floor_le (by positivity)
  have f2 : N * v < (cell N v : ℝ) + 1 := Nat.lt_floor_add_one _
  have e := delta_eq N a _ hk
  have b := ext_bounds N a h (cell N v) hk.le
  have b' := ext_bounds N a h (cell N v + 1) hk
  have ek : a.getD (cell N v) 0 = ext N a (cell N v) := by unfold ext; rw [if_pos hk]
  unfold place
  rw [ek]
  constructor
  · have : 0 ≤ ((N : ℝ) * v - (cell N v : ℝ)) * delta N a (cell N v) := mul_nonneg (by linarith) hd.le
    linarith
  · have : ((N : ℝ) * v - (cell N v : ℝ)) * delta N a (cell N v) < 1 * delta N a (cell N v) := mul_lt_mul_of_pos_right (by linarith) hd
    linarith

/-- The mean over the random number of a function of the place, weighted with the width of the cell, is the integral of the function. -/
theorem cell_integral (N : Nat) (a : List ℝ) (h : Rising N a) (hN : 1 ≤ N) (K : ℝ → ℝ) (hK : IntervalIntegrable K volume 0 1) :
    ∫ v in (0 : ℝ)..1, K (place N a v) * ((N : ℝ) * delta N a (cell N v)) = ∫ u in (0 : ℝ)..1, K u := by
  have hNpos : (0 : ℝ) < N := by exact_mod_cast hN
  have hpiece : ∀ k, k < N → Set.EqOn (fun v => K (place N a v) * ((N : ℝ) * delta N a (cell N v)))
      (fun v => K (((N : ℝ) * delta N a k) * v + (ext N a k - k * delta N a k)) * ((N : ℝ) * delta N a k)) (Set.uIoo ((k : ℝ) / N) (((k + 1 : Nat) : ℝ) / N)) := by
    intro k hk v hv
    have hlt : (k : ℝ) / N < ((k + 1 : Nat) : ℝ) / N := by
      gcongr
      exact_mod_cast Nat.lt_succ_self k
    rw [Set.uIoo_of_lt hlt] at hv
    have hc : cell N v = k := cell_eq N v k hN hv.1.le (by have := hv.2; push_cast at this; exact this)
    have hp : place N a v = ((N : ℝ) * delta N a k) * v + (ext N a k - k * delta N a k) := by
      unfold place
      rw [hc]
      have : a.getD k 0 = ext N a k := by unfold ext; rw [if_pos hk]
      rw [this]
      ring
    simp only [hp, hc]
  have hsub : ∀ k, k < N → IntervalIntegrable K volume (ext N a k) (ext N a (k + 1)) := by
    intro k hk
    have b := ext_bounds N a h k hk.le
    have b' := ext_bounds N a h (k + 1) hk
    apply hK.mono_set
    rw [Set.uIcc_of_le zero_le_one]
    exact Set.uIcc_subset_Icc ⟨b.1, b.2⟩ ⟨b'.1, b'.2⟩
  have hends : ∀ k, k < N → ((N : ℝ) * delta N a k) * ((k : ℝ) / N) + (ext N a k - k * delta N a k) = ext N a k
      ∧ ((N : ℝ) * delta N a k) * (((k + 1 : Nat) : ℝ) / N) + (ext N a k - k * delta N a k) = ext N a (k + 1) := by
    intro k hk
    have e := delta_eq N a k hk
    constructor
    · field_simp; ring
    · push_cast
      field_simp
      rw [e]
      ring
  have hint : ∀ k, k < N → IntervalIntegrable (fun v => K (place N a v) * ((N : ℝ) * delta N a (cell N v))) volume ((k : ℝ) / N) (((k + 1 : Nat) : ℝ) / N) := by
    intro k hk
    have hd := delta_pos N a h k hk
    have hne : (N : ℝ) * delta N a k ≠ 0 := (mul_pos hNpos hd).ne'
    refine IntervalIntegrable.congr_uIoo ?_ (fun v hv => ((hpiece k hk) hv).symm)
    apply IntervalIntegrable.mul_const
    have h1 := (hsub k hk).comp_add_right (ext N a k - k * delta N a k)
    have h2 := h1.comp_mul_left (c := (N : ℝ) * delta N a k)
    obtain ⟨e1, e2⟩ := hends k hk
    have x1 : (ext N a k - (ext N a k - k * delta N a k)) / ((N : ℝ) * delta N a k) = (k : ℝ) / N := by
      rw [div_eq_div_iff hne hNpos.ne']
      ring
    have x2 : (ext N a (k + 1) - (ext N a k - k * delta N a k)) / ((N : ℝ) * delta N a k) = ((k + 1 : Nat) : ℝ) / N := by
      rw [div_eq_div_iff hne hNpos.ne']
      rw [← e2]
      field_simp
      ring
    rw [x1, x2] at h2
    exact h2
  have hsum := intervalIntegral.sum_integral_adjacent_intervals (a := fun k : Nat => (k : ℝ) / N) (n := N) (μ := volume)
    (f := fun v => K (place N a v) * ((N : ℝ) * delta N a (cell N v))) (fun k hk => hint k hk)
  have hsum' := intervalIntegral.sum_integral_adjacent_intervals (a := ext N a) (n := N) (μ := volume) (f := K) (fun k hk => hsub k hk)
  have e0 : ext N a 0 = 0 := by
    unfold ext
    rw [if_pos (by omega)]
    exact h.2.1
  have e1 : ext N a N = 1 := by unfold ext; rw [if_neg (lt_irrefl N)]
  rw [e0, e1] at hsum'
  simp only [Nat.cast_zero, zero_div, div_self hNpos.ne'] at hsum
  rw [← hsum, ← hsum']
  apply Finset.sum_congr rfl
  intro k hk
  rw [Finset.mem_range] at hk
  rw [intervalIntegral.integral_congr_uIoo (hpiece k hk), intervalIntegral.integral_mul_const, mul_comm]
  have hd := delta_pos N a h k hk
  have := intervalIntegral.smul_integral_comp_mul_add K (a := (k : ℝ) / N) (b := ((k + 1 : Nat) : ℝ) / N) ((N : ℝ) * delta N a k) (ext N a k - k * delta N a k)
  rw [(hends k hk).1, (hends k hk).2] at this
  rw [← this, smul_eq_mul]

/-- The same between two bounds. -/
theorem cell_integral_scaled (N : Nat) (a : List ℝ) (h : Rising N a) (hN : 1 ≤ N) (lo hi : ℝ) (hlh : lo < hi) (K : ℝ → ℝ) (hK : IntervalIntegrable K volume lo hi) :
    ∫ v in (0 : ℝ)..1, K (lo + place N a v * (hi - lo)) * ((N : ℝ) * delta N a (cell N v) * (hi - lo)) = ∫ t in lo..hi, K t := by
  have hne : hi - lo ≠ 0 := by linarith [sub_pos.mpr hlh]
  have hi1 : IntervalIntegrable (fun u => K (lo + u * (hi - lo)) * (hi - lo)) volume 0 1 := by
    apply IntervalIntegrable.mul_const
    have h1 := (hK.comp_add_left lo).comp_mul_right (c := hi - lo)
    simp only [sub_self, zero_div, div_self hne] at h1
    exact h1
  have h1 := cell_integral N a h hN (fun u => K (lo + u * (hi - lo)) * (hi - lo)) hi1
  have h2 := intervalIntegral.smul_integral_comp_add_mul K (a := 0) (b := 1) (hi - lo) lo
  calc _ = ∫ v in (0 : ℝ)..1, (fun u => K (lo + u * (hi - lo)) * (hi - lo)) (place N a v) * ((N : ℝ) * delta N a (cell N v)) := by
        congr 1
        funext v
        ring
    _ = _ := h1
    _ = ∫ t in lo..hi, K t := by
        rw [intervalIntegral.integral_mul_const, mul_comm]
        have e : (fun u => K (lo + u * (hi - lo))) = fun u => K (lo + (hi - lo) * u) := by funext u; rw [mul_comm]
        rw [e, ← smul_eq_mul, h2]
        congr 1 <;> ring

theorem accept_integral (G r : ℝ) (h0 : 0 ≤ r) (h1 : r ≤ 1) : (∫ v in (0 : ℝ)..1, if v > r then 0 else G) = G * r := by
  have e1 : ∫ v in (0 : ℝ)..r, (if v > r then 0 else G) = ∫ _ in (0 : ℝ)..r, G := by
    apply intervalIntegral.integral_congr
    intro v hv
    rw [Set.uIcc_of_le h0] at hv
    simp only [if_neg (not_lt.mpr hv.2)]
  have e2 : ∫ v in r..(1 : ℝ), (if v > r then 0 else G) = ∫ _ in r..(1 : ℝ), (0 : ℝ) := by
    apply intervalIntegral.integral_congr_Ioo_of_le h1
    intro v hv
    simp only [if_pos hv.1]
  have i1 : IntervalIntegrable (fun v : ℝ => if v > r then 0 else G) volume 0 r := by
    refine IntervalIntegrable.congr_uIoo (f := fun _ => G) intervalIntegrable_const ?_
    intro v hv
    rw [Set.uIoo_of_le h0] at hv
    simp only [if_neg (not_lt.mpr hv.2.le)]
  have i2 : IntervalIntegrable (fun v : ℝ => if v > r then 0 else G) volume r 1 := by
    refine IntervalIntegrable.congr_uIoo (f := fun _ => 0) intervalIntegrable_const ?_
    intro v hv
    rw [Set.uIoo_of_le h1] at hv
    simp only [if_pos hv.1]
  rw [← intervalIntegral.integral_add_adjacent_intervals i1 i2, e1, e2]
  simp [mul_comm]

end Verif.Diffractive
