import Mathlib.Tactic.Ring
import Mathlib.Tactic.Linarith
import Mathlib.Tactic.FieldSimp
import Mathlib.Tactic.NormNum
import Mathlib.Analysis.SpecialFunctions.Log.Basic
import Mathlib.Analysis.Complex.ExponentialBounds
import Verif.Landau.Spec

namespace Verif.Landau

open Verif Spec

/-- What four entries in a row must meet. -/
def windows : List Int → Bool
  | z :: a :: b :: c :: l => decide (a < b) && decide (c - b - a + z < 4 * (b - a)) && decide (-(4 * (b - a)) < c - b - a + z) && windows (a :: b :: c :: l)
  | _ => true

theorem windows_spec : ∀ (l : List Int) (i : Nat), windows l = true → i + 3 < l.length →
    l.getD (i + 1) 0 < l.getD (i + 2) 0 ∧ l.getD (i + 3) 0 - l.getD (i + 2) 0 - l.getD (i + 1) 0 + l.getD i 0 < 4 * (l.getD (i + 2) 0 - l.getD (i + 1) 0) ∧
      -(4 * (l.getD (i + 2) 0 - l.getD (i + 1) 0)) < l.getD (i + 3) 0 - l.getD (i + 2) 0 - l.getD (i + 1) 0 + l.getD i 0 := by
  intro l
  induction l with
  | nil => intro i _ h; simp at h
  | cons z l ih =>
    intro i h hi
    match l, ih, h, hi with
    | a :: b :: c :: l, ih, h, hi =>
      rw [windows] at h
      simp only [Bool.and_eq_true, decide_eq_true_eq] at h
      obtain ⟨⟨⟨h1, h2⟩, h3⟩, h4⟩ := h
      cases i with
      | zero => exact ⟨h1, h2, h3⟩
      | succ i =>
        have := ih i h4 (by simp only [List.length_cons] at hi ⊢; omega)
        simpa only [List.getD_cons_succ] using this
    | [], _, _, hi => simp at hi
    | [_], _, _, hi => simp at hi
    | [_, _], _, _, hi => simp at hi

theorem table_length : table.length = 983 := by decide +kernel

theorem table_windows : windows (table.drop 6) = true := by decide +kernel

theorem steps (i : Nat) (h1 : 7 ≤ i) (h2 : i ≤ 980) :
    F i < F (i + 1) ∧ F (i + 2) - F (i + 1) - F i + F (i - 1) < 4 * (F (i + 1) - F i) ∧ -(4 * (F (i + 1) - F i)) < F (i + 2) - F (i + 1) - F i + F (i - 1) := by
  have h := windows_spec (table.drop 6) (i - 7) table_windows (by rw [List.length_drop, table_length]; omega)
  have e : ∀ k, (table.drop 6).getD k 0 = table.getD (k + 6) 0 := by
    intro k
    simp only [List.getD_eq_getElem?_getD, List.getElem?_drop]
    rw [Nat.add_comm]
  rw [e, e, e, e, show i - 7 + 1 + 6 = i by omega, show i - 7 + 2 + 6 = i + 1 by omega, show i - 7 + 3 + 6 = i + 2 by omega, show i - 7 + 6 = i - 1 by omega] at h
  obtain ⟨a, b, c⟩ := h
  have a' : ((table.getD i 0 : Int) : ℝ) < (table.getD (i + 1) 0 : Int) := by exact_mod_cast a
  have b' : ((table.getD (i + 2) 0 : Int) : ℝ) - (table.getD (i + 1) 0 : Int) - (table.getD i 0 : Int) + (table.getD (i - 1) 0 : Int)
      < 4 * ((table.getD (i + 1) 0 : Int) - (table.getD i 0 : Int)) := by exact_mod_cast b
  have c' : -(4 * (((table.getD (i + 1) 0 : Int) : ℝ) - (table.getD i 0 : Int)))
      < (table.getD (i + 2) 0 : Int) - (table.getD (i + 1) 0 : Int) - (table.getD i 0 : Int) + (table.getD (i - 1) 0 : Int) := by exact_mod_cast c
  unfold F
  refine ⟨?_, ?_, ?_⟩ <;> linarith

theorem F_mono : ∀ (k i : Nat), 7 ≤ i → i + k ≤ 981 → F i ≤ F (i + k) := by
  intro k
  induction k with
  | zero => intro i _ _; exact le_refl _
  | succ k ih =>
    intro i h1 h2
    have := ih i h1 (by omega)
    have h3 := (steps (i + k) (by omega) (by omega)).1
    exact le_trans this h3.le

theorem F_le (i j : Nat) (h1 : 7 ≤ i) (h2 : i ≤ j) (h3 : j ≤ 981) : F i ≤ F j := by
  obtain ⟨k, rfl⟩ := Nat.exists_eq_add_of_le h2
  exact F_mono k i h1 h3

/-- The value within a cell of the table. -/
noncomputable def cell (i : Nat) (du : ℝ) : ℝ :=
  if 70 ≤ i ∧ i ≤ 800 then F i + du * (F (i + 1) - F i)
  else F i + du * (F (i + 1) - F i - 25 / 100 * (1 - du) * (F (i + 2) - F (i + 1) - F i + F (i - 1)))

theorem cell_zero (i : Nat) : cell i 0 = F i := by
  unfold cell
  split <;> ring

theorem cell_one (i : Nat) : cell i 1 = F (i + 1) := by
  unfold cell
  split <;> ring

theorem cell_lt (i : Nat) (h1 : 7 ≤ i) (h2 : i ≤ 980) (u v : ℝ) (hu : 0 ≤ u) (huv : u < v) (hv : v ≤ 1) : cell i u < cell i v := by
  obtain ⟨a, b, c⟩ := steps i h1 h2
  unfold cell
  split
  · nlinarith
  · generalize F (i + 2) - F (i + 1) - F i + F (i - 1) = D at *
    have hd : 0 < F (i + 1) - F i := by linarith
    generalize F (i + 1) - F i = d at *
    have key : F i + v * (d - 25 / 100 * (1 - v) * D) - (F i + u * (d - 25 / 100 * (1 - u) * D)) = (v - u) * (d - D / 4 * (1 - (u + v))) := by ring
    have h1 : D / 4 * (1 - (u + v)) < d := by
      rcases le_or_gt 0 (1 - (u + v)) with h | h
      · nlinarith
      · nlinarith
    have : 0 < (v - u) * (d - D / 4 * (1 - (u + v))) := mul_pos (by linarith) (by linarith)
    linarith

theorem landau_cell (r : ℝ) (i : Nat) (h1 : 7 ≤ i) (h2 : i ≤ 980) (hi : ⌊1000 * r⌋₊ = i) : landau r = .ok (cell i (1000 * r - i)) := by
  have e : ∀ k, k < 983 → entry k = .ok (F k) := fun k hk => by unfold entry; rw [if_pos (by rw [table_length]; exact hk)]
  unfold landau
  simp only
  rw [hi]
  unfold cell
  by_cases h : 70 ≤ i ∧ i ≤ 800
  · rw [if_pos h, if_pos h]
    unfold linear
    rw [e i (by omega), e (i + 1) (by omega)]
    rfl
  · rw [if_neg h, if_neg h, if_pos ⟨h1, h2⟩]
    unfold curved
    rw [e i (by omega), e (i + 1) (by omega), e (i + 2) (by omega), e (i - 1) (by omega)]
    rfl

theorem floor_facts (r : ℝ) (h0 : 0 ≤ r) : (⌊1000 * r⌋₊ : ℝ) ≤ 1000 * r ∧ 1000 * r < (⌊1000 * r⌋₊ : ℝ) + 1 :=
  ⟨Nat.floor_le (by linarith), Nat.lt_floor_add_one _⟩

theorem floor_range (r : ℝ) (h1 : 7 / 1000 ≤ r) (h2 : r < 981 / 1000) : 7 ≤ ⌊1000 * r⌋₊ ∧ ⌊1000 * r⌋₊ ≤ 980 := by
  constructor
  · apply Nat.le_floor
    push_cast
    linarith
  · have : ⌊1000 * r⌋₊ < 981 := by
      rw [Nat.floor_lt (by linarith)]
      push_cast
      linarith
    omega

/-- The result in the range of the table. -/
theorem landau_table (r : ℝ) (h1 : 7 / 1000 ≤ r) (h2 : r < 981 / 1000) : landau r = .ok (cell ⌊1000 * r⌋₊ (1000 * r - ⌊1000 * r⌋₊)) :=
  landau_cell r _ (floor_range r h1 h2).1 (floor_range r h1 h2).2 rfl

theorem landau_high (r : ℝ) (h1 : 981 / 1000 ≤ r) (h2 : r < 1) : landau r = .ok (high r) := by
  have a : 981 ≤ ⌊1000 * r⌋₊ := by
    apply Nat.le_floor
    push_cast
    linarith
  have b : ⌊1000 * r⌋₊ < 1000 := by
    rw [Nat.floor_lt (by linarith)]
    push_cast
    linarith
  unfold landau
  simp only
  rw [if_neg (by omega), if_neg (by omega), if_neg (by omega), if_pos (by omega)]

theorem landau_low (r : ℝ) (h0 : 0 ≤ r) (h : r < 7 / 1000) : landau r = low r := by
  have b : ⌊1000 * r⌋₊ < 7 := by
    rw [Nat.floor_lt (by linarith)]
    push_cast
    linarith
  unfold landau
  simp only
  rw [if_neg (by omega), if_neg (by omega), if_pos b]

theorem high_lt (r q : ℝ) (h : r < q) (hq : q < 1) : high r < high q := by
  have ha : 0 < 1 - q := by linarith
  have hab : 1 - q < 1 - r := by linarith
  unfold high
  simp only
  generalize 1 - r = b at *
  generalize 1 - q = a at *
  have hb : 0 < b := by linarith
  rw [div_lt_div_iff₀ (by positivity) (by positivity)]
  have hab' : 0 < a * b := mul_pos ha hb
  have : 0 < (b - a) * (100060006 / 100000000 + 100060006 / 100000000 * (257368075 / 1000000) * (a + b) + 100060006 / 100000000 * (341448018 / 100000) * (a ^ 2 + a * b + b ^ 2)
      + (263991156 / 1000000 * (257368075 / 1000000) - 437320068 / 100000) * (a * b) + 263991156 / 1000000 * (341448018 / 100000) * (a * b) * (a + b)
      + 437320068 / 100000 * (341448018 / 100000) * (a * b) ^ 2) := by
    apply mul_pos (by linarith)
    have h1 : (0 : ℝ) < (263991156 / 1000000 * (257368075 / 1000000) - 437320068 / 100000) * (a * b) := mul_pos (by norm_num) hab'
    positivity
  nlinarith

theorem log_low (r : ℝ) (h0 : 0 < r) (h : r < 7 / 1000) : Real.log r ≤ -(491893853 / 100000000) := by
  rw [Real.log_le_iff_le_exp h0]
  have h1 : Real.exp (-(491893853 / 100000000)) = Real.exp (8106147 / 100000000) * Real.exp (-5) := by
    rw [← Real.exp_add]; norm_num
  have h2 : (1 : ℝ) + 8106147 / 100000000 ≤ Real.exp (8106147 / 100000000) := by
    have := Real.add_one_le_exp (8106147 / 100000000 : ℝ)
    linarith
  have h3 : Real.exp (-5) = (Real.exp 1 ^ 5)⁻¹ := by
    rw [← Real.exp_nat_mul, ← Real.exp_neg]; norm_num
  have h4 : Real.exp 1 ^ 5 < 148414 / 1000 := by
    calc Real.exp 1 ^ 5 < 2.7182818286 ^ 5 := pow_lt_pow_left₀ Real.exp_one_lt_d9 (Real.exp_pos _).le (by norm_num)
      _ < 148414 / 1000 := by norm_num
  have h5 : (148414 / 1000 : ℝ)⁻¹ ≤ (Real.exp 1 ^ 5)⁻¹ := inv_anti₀ (pow_pos (Real.exp_pos 1) 5) h4.le
  rw [h1, h3]
  have : (1 + 8106147 / 100000000 : ℝ) * (148414 / 1000)⁻¹ ≤ Real.exp (8106147 / 100000000) * (Real.exp 1 ^ 5)⁻¹ :=
    mul_le_mul h2 h5 (by positivity) (Real.exp_pos _).le
  have h6 : (7 / 1000 : ℝ) ≤ (1 + 8106147 / 100000000 : ℝ) * (148414 / 1000)⁻¹ := by norm_num
  linarith

theorem log_tiny (r : ℝ) (h : 1 / 10000000000 ≤ r) : -24 ≤ Real.log r := by
  rw [Real.le_log_iff_exp_le (by linarith)]
  have h3 : Real.exp (-24) = (Real.exp 1 ^ 24)⁻¹ := by
    rw [← Real.exp_nat_mul, ← Real.exp_neg]; norm_num
  have h4 : (10000000000 : ℝ) < Real.exp 1 ^ 24 := by
    calc (10000000000 : ℝ) < 2.7182818283 ^ 24 := by norm_num
      _ < Real.exp 1 ^ 24 := pow_lt_pow_left₀ Real.exp_one_gt_d9 (by norm_num) (by norm_num)
  rw [h3]
  have := inv_anti₀ (by norm_num) h4.le
  linarith

/-- Below the table the results are smaller than entry 8. -/
theorem low_lt (r : ℝ) (h1 : 1 / 10000000000 ≤ r) (h2 : r < 7 / 1000) : ∃ v, low r = .ok v ∧ v < -2168163 / 1000000 := by
  have hr : 0 < r := by linarith
  have a := log_low r hr h2
  have b := log_tiny r h1
  generalize hL : Real.log r = L at a b
  have hL0 : L < 0 := by linarith
  have hV1 : -(2033 / 10000) ≤ 1 / L := by
    rw [le_div_iff_of_neg hL0]
    linarith
  have hV2 : 1 / L ≤ -(1 / 24) := by
    rw [div_le_iff_of_neg hL0]
    linarith
  have hd : lowDen (1 / L) < 0 := by
    unfold lowDen
    nlinarith
  have hn : lowNum (1 / L) ≤ 91 / 100 * lowDen (1 / L) := by
    unfold lowNum lowDen
    nlinarith
  refine ⟨(-Real.log (-(91893853 / 100000000) - L) - 1) * (lowNum (1 / L) / lowDen (1 / L)), ?_, ?_⟩
  · unfold low
    simp only [hL]
    rw [if_neg]
    rintro (h | h)
    · linarith
    · exact absurd h hd.ne
  · have hR : 91 / 100 ≤ lowNum (1 / L) / lowDen (1 / L) := by
      rw [le_div_iff_of_neg hd]
      exact hn
    have hlog : 2 * 0.6931471803 < Real.log (-(91893853 / 100000000) - L) := by
      have h4 : Real.log 4 = 2 * Real.log 2 := by
        rw [show (4 : ℝ) = 2 ^ 2 by norm_num, Real.log_pow]; norm_num
      have h5 : Real.log 4 ≤ Real.log (-(91893853 / 100000000) - L) := Real.log_le_log (by norm_num) (by linarith)
      have := Real.log_two_gt_d9
      linarith
    generalize Real.log (-(91893853 / 100000000) - L) = y at *
    generalize lowNum (1 / L) / lowDen (1 / L) = R at *
    have : (1 + 2 * 0.6931471803) * (91 / 100) ≤ (1 + y) * R := mul_le_mul (by linarith) hR (by norm_num) (by linarith)
    norm_num at this ⊢
    nlinarith

end Verif.Landau
