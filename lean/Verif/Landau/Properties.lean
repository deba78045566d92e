import Mathlib.Topology.Order.LeftRight
import Mathlib.Topology.Algebra.Order.Floor
import Verif.Landau.Lemmas

/-! # Properties of the Landau distribution -/

namespace Verif.Landau

open Verif Spec MeasureTheory Set Filter Topology

/-! ## C339: quantiles -/

theorem F_eight : F 8 = -2168163 / 1000000 := by
  have : table.getD 8 0 = -2168163 := by decide +kernel
  unfold F
  rw [this]
  norm_num

theorem F_980 : F 980 = 53437996 / 1000000 := by
  have : table.getD 980 0 = 53437996 := by decide +kernel
  unfold F
  rw [this]
  norm_num

theorem F_981 : F 981 = 56123356 / 1000000 := by
  have : table.getD 981 0 = 56123356 := by decide +kernel
  unfold F
  rw [this]
  norm_num

/-- **C339.** For all random numbers from 10⁻¹⁰ on there is a result, and it is not above entry k of the table just if the random number is not above k/1000. -/
theorem quantiles (r : ℝ) (h1 : 1 / 10000000000 ≤ r) (h2 : r < 1) (k : Nat) (hk1 : 8 ≤ k) (hk2 : k ≤ 980) :
    ∃ v, landau r = .ok v ∧ (v ≤ F k ↔ r ≤ (k : ℝ) / 1000) := by
  have hk1' : (8 : ℝ) ≤ k := by exact_mod_cast hk1
  have hk2' : (k : ℝ) ≤ 980 := by exact_mod_cast hk2
  rcases lt_or_ge r (7 / 1000) with h | h
  · obtain ⟨v, hv, hlt⟩ := low_lt r h1 h
    refine ⟨v, (landau_low r (by linarith) h).trans hv, fun _ => ?_, fun _ => ?_⟩
    · rw [le_div_iff₀ (by norm_num)]
      linarith
    · have := F_le 8 k (by omega) hk1 (by omega)
      rw [F_eight] at this
      linarith
  · rcases lt_or_ge r (981 / 1000) with h' | h'
    · refine ⟨_, landau_table r h h', ?_⟩
      obtain ⟨f1, f2⟩ := floor_facts r (by linarith)
      obtain ⟨g1, g2⟩ := floor_range r h h'
      generalize ⌊1000 * r⌋₊ = i at *
      rw [le_div_iff₀ (by norm_num)]
      constructor
      · intro hc
        by_contra hn
        have hik : k ≤ i := by
          have : (k : ℝ) < (i : ℝ) + 1 := by linarith
          have : k < i + 1 := by exact_mod_cast this
          omega
        have a1 := F_le k i (by omega) hik (by omega)
        rcases (lt_or_eq_of_le hik) with hlt | heq
        · have a2 := F_le (k + 1) i (by omega) (by omega) (by omega)
          have a3 := (steps k (by omega) (by omega)).1
          have a4 : F i ≤ cell i (1000 * r - i) := by
            rcases eq_or_lt_of_le f1 with e | e
            · rw [← e, sub_self, cell_zero]
            · have := cell_lt i g1 g2 0 (1000 * r - i) (le_refl _) (by linarith) (by linarith)
              rw [cell_zero] at this
              exact this.le
          linarith
        · subst heq
          have := cell_lt k g1 g2 0 (1000 * r - k) (le_refl _) (by linarith) (by linarith)
          rw [cell_zero] at this
          linarith
      · intro hc
        have hik : i ≤ k := by
          have : (i : ℝ) ≤ (k : ℝ) := by linarith
          exact_mod_cast this
        rcases (lt_or_eq_of_le hik) with hlt | heq
        · have a2 := F_le (i + 1) k (by omega) (by omega) (by omega)
          have := cell_lt i g1 g2 (1000 * r - i) 1 (by linarith) (by linarith) (le_refl _)
          rw [cell_one] at this
          linarith
        · subst heq
          have : 1000 * r - (i : ℝ) = 0 := by linarith
          rw [this, cell_zero]
    · refine ⟨_, landau_high r h' h2, ?_⟩
      have hF := F_le k 980 (by omega) hk2 (by omega)
      rw [F_980] at hF
      have hh : (56 : ℝ) < high (981 / 1000) := by
        unfold high
        norm_num
      have hm : high (981 / 1000) ≤ high r := by
        rcases eq_or_lt_of_le h' with e | e
        · rw [← e]
        · exact (high_lt _ _ e h2).le
      constructor
      · intro hc
        linarith
      · intro hc
        rw [le_div_iff₀ (by norm_num)] at hc
        linarith

/-- **C339.** With a uniform random number the probability of a result up to entry k is k/1000, to 10⁻¹⁰. -/
theorem probability (k : Nat) (hk1 : 8 ≤ k) (hk2 : k ≤ 980) : (k : ℝ) / 1000 - 1 / 10000000000 ≤ (volume (Upto (F k))).toReal ∧ (volume (Upto (F k))).toReal ≤ (k : ℝ) / 1000 := by
  have hk1' : (8 : ℝ) ≤ k := by exact_mod_cast hk1
  have hk2' : (k : ℝ) ≤ 980 := by exact_mod_cast hk2
  have a : Icc (1 / 10000000000) ((k : ℝ) / 1000) ⊆ Upto (F k) := by
    intro r hr
    have hlt : r < 1 := by
      have := hr.2
      rw [le_div_iff₀ (by norm_num)] at this
      linarith
    obtain ⟨v, hv, hiff⟩ := quantiles r hr.1 hlt k hk1 hk2
    exact ⟨by linarith [hr.1], hlt, v, hv, hiff.mpr hr.2⟩
  have b : Upto (F k) ⊆ Icc 0 ((k : ℝ) / 1000) := by
    rintro r ⟨h0, hlt, v, hv, hle⟩
    refine ⟨h0, ?_⟩
    by_cases h : 1 / 10000000000 ≤ r
    · obtain ⟨v', hv', hiff⟩ := quantiles r h hlt k hk1 hk2
      rw [hv] at hv'
      injection hv' with e
      exact hiff.mp (e ▸ hle)
    · rw [le_div_iff₀ (by norm_num)]
      linarith
  have fin : volume (Upto (F k)) ≠ ⊤ := ne_top_of_le_ne_top (by rw [Real.volume_Icc]; exact ENNReal.ofReal_ne_top) (measure_mono b)
  have m1 := ENNReal.toReal_mono fin (measure_mono (μ := volume) a)
  have m2 := ENNReal.toReal_mono (by rw [Real.volume_Icc]; exact ENNReal.ofReal_ne_top) (measure_mono (μ := volume) b)
  rw [Real.volume_Icc, ENNReal.toReal_ofReal (by rw [sub_nonneg, div_le_div_iff₀ (by norm_num) (by norm_num)]; linarith)] at m1
  rw [Real.volume_Icc, ENNReal.toReal_ofReal (by rw [sub_zero]; positivity), sub_zero] at m2
  exact ⟨m1, m2⟩

/-- A case: the median is the entry 500. -/
example : |(volume (Upto (1355780 / 1000000))).toReal - 1 / 2| ≤ 1 / 10000000000 := by
  have e : F 500 = 1355780 / 1000000 := by
    have : table.getD 500 0 = 1355780 := by decide +kernel
    unfold F
    rw [this]
    norm_num
  have h := probability 500 (by norm_num) (by norm_num)
  rw [e] at h
  rw [abs_le]
  constructor
  · have := h.1
    norm_num at this ⊢
    linarith
  · have := h.2
    norm_num at this ⊢
    linarith

/-! ## C340: order and joints -/

/-- **C340.** In the range of the table larger random numbers give larger results. -/
theorem table_increasing (r q : ℝ) (h1 : 7 / 1000 ≤ r) (h : r < q) (h2 : q < 981 / 1000) : value (landau r) < value (landau q) := by
  rw [landau_table r h1 (by linarith), landau_table q (by linarith) h2]
  simp only [value]
  obtain ⟨a1, a2⟩ := floor_facts r (by linarith)
  obtain ⟨b1, b2⟩ := floor_facts q (by linarith)
  obtain ⟨g1, g2⟩ := floor_range r h1 (by linarith)
  obtain ⟨k1, k2⟩ := floor_range q (by linarith) h2
  have hij : ⌊1000 * r⌋₊ ≤ ⌊1000 * q⌋₊ := Nat.floor_mono (by linarith)
  generalize ⌊1000 * r⌋₊ = i at *
  generalize ⌊1000 * q⌋₊ = j at *
  rcases lt_or_eq_of_le hij with hlt | heq
  · have c1 := cell_lt i g1 g2 (1000 * r - i) 1 (by linarith) (by linarith) (le_refl _)
    rw [cell_one] at c1
    have c2 := F_le (i + 1) j (by omega) hlt (by omega)
    have c3 : F j ≤ cell j (1000 * q - j) := by
      rcases eq_or_lt_of_le b1 with e | e
      · rw [← e, sub_self, cell_zero]
      · have := cell_lt j k1 k2 0 (1000 * q - j) (le_refl _) (by linarith) (by linarith)
        rw [cell_zero] at this
        exact this.le
    linarith
  · subst heq
    exact cell_lt i g1 g2 _ _ (by linarith) (by linarith) (by linarith)

theorem cell_continuous (i : Nat) : Continuous (cell i) := by
  unfold cell
  split <;> fun_prop

/-- Left of a grid point and right of it. -/
theorem landau_near (i : Nat) (h1 : 7 ≤ i) (h2 : i ≤ 980) (r : ℝ) (hr1 : (i : ℝ) ≤ 1000 * r) (hr2 : 1000 * r < i + 1) : value (landau r) = cell i (1000 * r - i) := by
  rw [landau_cell r i h1 h2 ((Nat.floor_eq_iff (le_trans (Nat.cast_nonneg i) hr1)).mpr ⟨hr1, hr2⟩)]
  rfl

/-- **C340.** In the range of the table the result has no jumps. -/
theorem table_continuous (r : ℝ) (h1 : 7 / 1000 < r) (h2 : r < 981 / 1000) : ContinuousAt (fun r => value (landau r)) r := by
  obtain ⟨a1, a2⟩ := floor_facts r (by linarith)
  obtain ⟨g1, g2⟩ := floor_range r (by linarith) h2
  generalize ⌊1000 * r⌋₊ = i at *
  have hright : ContinuousWithinAt (fun r => value (landau r)) (Ici r) r := by
    have hc : ContinuousWithinAt (fun r => cell i (1000 * r - i)) (Ici r) r := by
      have := cell_continuous i
      exact Continuous.continuousWithinAt (by fun_prop)
    refine hc.congr_of_eventuallyEq ?_ (landau_near i g1 g2 r a1 a2)
    have : Ico r (((i : ℝ) + 1) / 1000) ∈ 𝓝[≥] r := Ico_mem_nhdsGE (by rw [lt_div_iff₀ (by norm_num)]; linarith)
    filter_upwards [this] with q hq
    have := (lt_div_iff₀ (by norm_num)).mp hq.2
    exact landau_near i g1 g2 q (by linarith [hq.1]) (by linarith)
  rcases eq_or_lt_of_le a1 with e | e
  · have h7 : 7 < i := by
      have : (7 : ℝ) < i := by linarith
      exact_mod_cast this
    have hleft : ContinuousWithinAt (fun r => value (landau r)) (Iic r) r := by
      have hc : ContinuousWithinAt (fun r => cell (i - 1) (1000 * r - ((i - 1 : Nat) : ℝ))) (Iic r) r := by
        have := cell_continuous (i - 1)
        exact Continuous.continuousWithinAt (by fun_prop)
      have hcast : ((i - 1 : Nat) : ℝ) = (i : ℝ) - 1 := by
        rw [Nat.cast_sub (by omega)]
        norm_num
      have hat : value (landau r) = cell (i - 1) (1000 * r - ((i - 1 : Nat) : ℝ)) := by
        rw [landau_near i g1 g2 r a1 a2, hcast, ← e, sub_self, cell_zero, show (i : ℝ) - (i - 1) = 1 by ring, cell_one, show i - 1 + 1 = i by omega]
      refine hc.congr_of_eventuallyEq ?_ hat
      have : Ioc (((i : ℝ) - 1) / 1000) r ∈ 𝓝[≤] r := Ioc_mem_nhdsLE (by rw [div_lt_iff₀ (by norm_num)]; linarith)
      filter_upwards [this] with q hq
      rcases eq_or_lt_of_le hq.2 with hqe | hqe
      · rw [hqe]
        exact hat
      · have := (div_lt_iff₀ (by norm_num)).mp hq.1
        refine landau_near (i - 1) (by omega) (by omega) q (by rw [hcast]; linarith) (by rw [hcast]; linarith)
    exact continuousAt_iff_continuous_left_right.mpr ⟨hleft, hright⟩
  · have hleft : ContinuousWithinAt (fun r => value (landau r)) (Iic r) r := by
      have hc : ContinuousWithinAt (fun r => cell i (1000 * r - i)) (Iic r) r := by
        have := cell_continuous i
        exact Continuous.continuousWithinAt (by fun_prop)
      refine hc.congr_of_eventuallyEq ?_ (landau_near i g1 g2 r a1 a2)
      have : Ioc ((i : ℝ) / 1000) r ∈ 𝓝[≤] r := Ioc_mem_nhdsLE (by rw [div_lt_iff₀ (by norm_num)]; linarith)
      filter_upwards [this] with q hq
      have := (div_lt_iff₀ (by norm_num)).mp hq.1
      exact landau_near i g1 g2 q (by linarith) (by linarith [hq.2])
    exact continuousAt_iff_continuous_left_right.mpr ⟨hleft, hright⟩

/-- **C340.** Above the table larger random numbers give larger results, about as large as the inverse of what is left to one. -/
theorem high_increasing (r q : ℝ) (h1 : 981 / 1000 ≤ r) (h : r < q) (h2 : q < 1) :
    value (landau r) < value (landau q) ∧ 1 / (1 - q) < value (landau q) ∧ value (landau q) < 11 / 10 / (1 - q) := by
  rw [landau_high r h1 (by linarith), landau_high q (by linarith) h2]
  refine ⟨high_lt r q h h2, ?_⟩
  simp only [value]
  unfold high
  simp only
  have ha : 0 < 1 - q := by linarith
  have hb : 1 - q ≤ 19 / 1000 := by linarith
  generalize 1 - q = V at *
  constructor
  · rw [div_lt_div_iff₀ ha (by positivity)]
    have := mul_pos ha ha
    nlinarith [mul_pos this ha]
  · rw [div_lt_div_iff₀ (by positivity) ha]
    have := mul_pos ha ha
    nlinarith [mul_pos this ha]

/-- **C340.** Where the table ends the result falls by less than 4 parts in 10⁵. -/
theorem joint : Tendsto (fun r => value (landau r)) (𝓝[<] (981 / 1000)) (𝓝 (F 981)) ∧
    value (landau (981 / 1000)) < F 981 ∧ F 981 - value (landau (981 / 1000)) < 4 / 100000 := by
  refine ⟨?_, ?_⟩
  · have hc : Tendsto (fun r : ℝ => cell 980 (1000 * r - (980 : Nat))) (𝓝[<] (981 / 1000)) (𝓝 (cell 980 (1000 * (981 / 1000) - (980 : Nat)))) := by
      have := cell_continuous 980
      exact Continuous.continuousWithinAt (by fun_prop)
    have e : cell 980 (1000 * (981 / 1000) - (980 : Nat)) = F 981 := by
      rw [show (1000 : ℝ) * (981 / 1000) - (980 : Nat) = 1 by norm_num, cell_one]
    rw [e] at hc
    refine hc.congr' ?_
    have : Ioo (980 / 1000 : ℝ) (981 / 1000) ∈ 𝓝[<] (981 / 1000 : ℝ) := Ioo_mem_nhdsLT (by norm_num)
    filter_upwards [this] with q hq
    refine (landau_near 980 (by norm_num) (le_refl _) q ?_ ?_).symm
    · push_cast
      linarith [hq.1]
    · push_cast
      linarith [hq.2]
  · rw [landau_high _ (le_refl _) (by norm_num), F_981]
    simp only [value]
    unfold high
    norm_num

/-- **C341, violated.** The result is not increasing where the table ends: there are random numbers just below 0.981 with larger results than 0.981. -/
theorem joint_violated : ∃ r q : ℝ, 0 < r ∧ r < q ∧ q < 1 ∧ value (landau q) < value (landau r) := by
  obtain ⟨h1, h2, -⟩ := joint
  have e1 : ∀ᶠ r in 𝓝[<] (981 / 1000 : ℝ), value (landau (981 / 1000)) < value (landau r) := h1.eventually (lt_mem_nhds h2)
  have e2 : Ioo (0 : ℝ) (981 / 1000) ∈ 𝓝[<] (981 / 1000 : ℝ) := Ioo_mem_nhdsLT (by norm_num)
  obtain ⟨r, hr1, hr2⟩ := (e1.and e2).exists
  exact ⟨r, 981 / 1000, hr2.1, hr2.2, by norm_num, hr1⟩

/-! ## C341: the lower tail -/

/-- **C341, violated.** The formula for small random numbers has a pole: below 10⁻¹⁰ there are random numbers with results as large as one likes, where the
quantile is negative. -/
theorem pole_violated (B : ℝ) : ∃ r v : ℝ, 0 < r ∧ r < 1 / 10000000000 ∧ landau r = .ok v ∧ B < v := by
  have hcont : Continuous lowDen := by
    unfold lowDen
    fun_prop
  have hpos : 0 < |B| + 1 := by positivity
  obtain ⟨ε, he0, he1, heB⟩ : ∃ ε : ℝ, 0 < ε ∧ ε ≤ 2 / 10000 ∧ B * ε < 6 / 100000 := by
    refine ⟨min (2 / 10000) (5 / 100000 / (|B| + 1)), by positivity, min_le_left _ _, ?_⟩
    have h1 : min (2 / 10000) (5 / 100000 / (|B| + 1)) ≤ 5 / 100000 / (|B| + 1) := min_le_right _ _
    have h2 : 0 ≤ min (2 / 10000) (5 / 100000 / (|B| + 1)) := by positivity
    rw [le_div_iff₀ hpos] at h1
    generalize min (2 / 10000) (5 / 100000 / (|B| + 1)) = e at *
    nlinarith [le_abs_self B]
  have hl : lowDen (-(2937 / 100000)) ≤ ε := by
    unfold lowDen
    norm_num
    linarith
  have hu : ε ≤ lowDen (-(29355 / 1000000)) := by
    refine le_trans he1 ?_
    unfold lowDen
    norm_num
  obtain ⟨V, hV, hVe⟩ := intermediate_value_Icc (by norm_num) hcont.continuousOn ⟨hl, hu⟩
  have hn : lowNum V ≤ -(6 / 100000) := by
    have h1 := hV.1
    have h2 := hV.2
    unfold lowNum
    nlinarith
  have hV0 : V < 0 := by linarith [hV.2]
  have hinv : 1 / V < -34 := by
    rw [div_lt_iff_of_neg hV0]
    linarith [hV.1]
  have hr : Real.exp (1 / V) < 1 / 10000000000 := by
    have h3 : Real.exp (-24) = (Real.exp 1 ^ 24)⁻¹ := by
      rw [← Real.exp_nat_mul, ← Real.exp_neg]; norm_num
    have h4 : (10000000000 : ℝ) < Real.exp 1 ^ 24 := by
      calc (10000000000 : ℝ) < 2.7182818283 ^ 24 := by norm_num
        _ < Real.exp 1 ^ 24 := pow_lt_pow_left₀ Real.exp_one_gt_d9 (by norm_num) (by norm_num)
    have h5 : Real.exp (1 / V) < Real.exp (-24) := Real.exp_lt_exp.mpr (by linarith)
    rw [h3] at h5
    have := inv_anti₀ (by norm_num) h4.le
    linarith
  have hpos2 := Real.exp_pos (1 / V)
  refine ⟨Real.exp (1 / V), (-Real.log (-(91893853 / 100000000) - 1 / V) - 1) * (lowNum V / lowDen V), hpos2, hr, ?_, ?_⟩
  · rw [landau_low _ hpos2.le (by linarith)]
    unfold low
    simp only [Real.log_exp, one_div_one_div]
    rw [if_neg]
    rintro (h | h)
    · linarith
    · rw [hVe] at h
      linarith
  · rw [hVe]
    have hlog : 0 ≤ Real.log (-(91893853 / 100000000) - 1 / V) := Real.log_nonneg (by linarith)
    have hq : B < -lowNum V / ε := by
      rw [lt_div_iff₀ he0]
      linarith
    have hq0 : 0 < -lowNum V / ε := div_pos (by linarith) he0
    have e : (-Real.log (-(91893853 / 100000000) - 1 / V) - 1) * (lowNum V / ε) = (Real.log (-(91893853 / 100000000) - 1 / V) + 1) * (-lowNum V / ε) := by ring
    rw [e]
    nlinarith

/-! ## C342: the upper tail -/

/-- **C342, violated.** The formula meant for random numbers above 0.999 is never used: all those have larger results. -/
theorem far_violated (r : ℝ) (h1 : 999 / 1000 < r) (h2 : r < 1) : ∃ v, landau r = .ok v ∧ far r < v := by
  refine ⟨_, landau_high r (by linarith) h2, ?_⟩
  unfold far high
  simp only
  have ha : 0 < 1 - r := by linarith
  have hb : 1 - r < 1 / 1000 := by linarith
  generalize 1 - r = V at *
  rw [div_lt_div_iff₀ (by positivity) (by positivity)]
  have h3 := mul_pos ha ha
  have h4 := mul_pos h3 ha
  have h5 := mul_pos h3 h3
  have key : 0 < 58468 / 100000000 + 2 / 10 * V - 1290 * V ^ 2 + 520000000 * V ^ 4 := by
    nlinarith [sq_nonneg (V ^ 2 - 81 / 100000000), sq_nonneg (V - 9 / 10000)]
  nlinarith [mul_pos ha key]

/-- **C342, violated.** At 0.9999 the difference is more than 3. -/
theorem far_case : ∃ v, landau (9999 / 10000) = .ok v ∧ far (9999 / 10000) + 3 < v := by
  refine ⟨_, landau_high _ (by norm_num) (by norm_num), ?_⟩
  unfold far high
  norm_num

end Verif.Landau
