import Mathlib.Tactic.IntervalCases
import Mathlib.Tactic.LinearCombination
import Mathlib.Tactic.FieldSimp
import Mathlib.Tactic.Linarith
import Mathlib.Analysis.SpecialFunctions.Trigonometric.DerivHyp
import Verif.Transport.Spec

/-!
# Lemmas on transport matrices
-/

noncomputable section
namespace Verif.Transport
open Verif Real Verif.LinMap.Spec Verif.Transport.Spec

/-- The cosine-like solution of `u'' = -K u`. -/
def cK (K l : ℝ) : ℝ := if K = 0 then 1 else if 0 < K then cos (√K * l) else cosh (√(-K) * l)

/-- The sine-like solution of `u'' = -K u`. -/
def sK (K l : ℝ) : ℝ := if K = 0 then l else if 0 < K then sin (√K * l) / √K else sinh (√(-K) * l) / √(-K)

theorem sqrt_facts {K : ℝ} (h : 0 < K) : 0 < √K ∧ √K * √K = K := ⟨sqrt_pos.2 h, mul_self_sqrt h.le⟩

theorem trich (K : ℝ) (h0 : K ≠ 0) (h1 : ¬ 0 < K) : 0 < -K := by
  rcases lt_trichotomy K 0 with h | h | h
  · linarith
  · exact absurd h h0
  · exact absurd h h1

@[simp] theorem cK_zero (K : ℝ) : cK K 0 = 1 := by unfold cK; split_ifs <;> simp
@[simp] theorem sK_zero (K : ℝ) : sK K 0 = 0 := by unfold sK; split_ifs <;> simp

theorem cK_sq (K l : ℝ) : cK K l ^ 2 + K * sK K l ^ 2 = 1 := by
  unfold cK sK
  split_ifs with h0 h1
  · simp [h0]
  · obtain ⟨p, q⟩ := sqrt_facts h1
    have t := sin_sq_add_cos_sq (√K * l)
    rw [div_pow, show √K ^ 2 = K by rw [pow_two, q]]
    field_simp
    linarith
  · have hn := trich K h0 h1
    obtain ⟨p, q⟩ := sqrt_facts hn
    have t := cosh_sq (√(-K) * l)
    rw [div_pow, show √(-K) ^ 2 = -K by rw [pow_two, q]]
    rw [t]
    field_simp
    ring

theorem cK_add (K a b : ℝ) : cK K (a + b) = cK K b * cK K a - K * sK K b * sK K a := by
  unfold cK sK
  split_ifs with h0 h1
  · simp [h0]
  · obtain ⟨p, q⟩ := sqrt_facts h1
    rw [mul_add, cos_add]
    have : K * (sin (√K * b) / √K) * (sin (√K * a) / √K) = sin (√K * b) * sin (√K * a) := by
      field_simp
      rw [pow_two, q]
    rw [this]; ring
  · have hn := trich K h0 h1
    obtain ⟨p, q⟩ := sqrt_facts hn
    rw [mul_add, cosh_add]
    have : (-K) * (sinh (√(-K) * b) / √(-K)) * (sinh (√(-K) * a) / √(-K)) = sinh (√(-K) * b) * sinh (√(-K) * a) := by
      field_simp
      rw [pow_two, q]
      ring
    linear_combination -this

theorem sK_add (K a b : ℝ) : sK K (a + b) = sK K b * cK K a + cK K b * sK K a := by
  unfold cK sK
  split_ifs with h0 h1
  · ring
  · rw [mul_add, sin_add]; ring
  · rw [mul_add, sinh_add]; ring

theorem hasDerivAt_cK (K l : ℝ) : HasDerivAt (cK K) (-K * sK K l) l := by
  rcases eq_or_ne K 0 with h0 | h0
  · have : cK K = fun _ => (1 : ℝ) := by funext x; simp [cK, h0]
    rw [this, h0]; simpa using hasDerivAt_const l (1 : ℝ)
  · by_cases h1 : 0 < K
    · obtain ⟨p, q⟩ := sqrt_facts h1
      have : cK K = fun x => cos (√K * x) := by funext x; simp [cK, h0, h1]
      rw [this]
      have d := ((hasDerivAt_id l).const_mul √K).cos
      refine d.congr_deriv ?_
      simp only [sK, h0, h1, if_false, if_true, id]
      field_simp
      linear_combination (-sin (√K * l)) * q
    · have hn := trich K h0 h1
      obtain ⟨p, q⟩ := sqrt_facts hn
      have : cK K = fun x => cosh (√(-K) * x) := by funext x; simp [cK, h0, h1]
      rw [this]
      have d := ((hasDerivAt_id l).const_mul √(-K)).cosh
      refine d.congr_deriv ?_
      simp only [sK, h0, h1, if_false, id]
      field_simp
      linear_combination (sinh (√(-K) * l)) * q

theorem hasDerivAt_sK (K l : ℝ) : HasDerivAt (sK K) (cK K l) l := by
  rcases eq_or_ne K 0 with h0 | h0
  · have : sK K = fun x => x := by funext x; simp [sK, h0]
    rw [this]; simpa [cK, h0] using hasDerivAt_id' l
  · by_cases h1 : 0 < K
    · obtain ⟨p, q⟩ := sqrt_facts h1
      have : sK K = fun x => sin (√K * x) / √K := by funext x; simp [sK, h0, h1]
      rw [this]
      have d := (((hasDerivAt_id l).const_mul √K).sin).div_const √K
      refine d.congr_deriv ?_
      simp only [cK, h0, h1, if_false, if_true, id]
      field_simp
    · have hn := trich K h0 h1
      obtain ⟨p, q⟩ := sqrt_facts hn
      have : sK K = fun x => sinh (√(-K) * x) / √(-K) := by funext x; simp [sK, h0, h1]
      rw [this]
      have d := (((hasDerivAt_id l).const_mul √(-K)).sinh).div_const √(-K)
      refine d.congr_deriv ?_
      simp only [cK, h0, h1, if_false, id]
      field_simp

/-- The matrix of a magnet in terms of `cK` and `sK`. -/
def closed (l h Kx Ky : ℝ) (i j : Nat) : ℝ :=
  match i, j with
  | 0, 0 => cK Kx l | 0, 1 => sK Kx l | 1, 0 => -Kx * sK Kx l | 1, 1 => cK Kx l
  | 2, 2 => cK Ky l | 2, 3 => sK Ky l | 3, 2 => -Ky * sK Ky l | 3, 3 => cK Ky l
  | 0, 5 => h * (1 - cK Kx l) / Kx | 1, 5 => h * sK Kx l
  | 4, 0 => -h * sK Kx l | 4, 1 => -h * (1 - cK Kx l) / Kx | 4, 4 => 1
  | 4, 5 => -h * h * (l - sK Kx l) / Kx | 5, 5 => 1
  | _, _ => 0

theorem sbrX_eq (l K : ℝ) (R : Mat) (h0 : R 0 0 = 1) (h1 : R 1 1 = 1) (h2 : R 1 0 = 0) :
    sbrX l K R 0 0 = cK K l ∧ sbrX l K R 0 1 = sK K l ∧ sbrX l K R 1 0 = -K * sK K l ∧ sbrX l K R 1 1 = cK K l ∧
    ∀ i j, (2 ≤ i ∨ 2 ≤ j) → sbrX l K R i j = R i j := by
  unfold sbrX cK sK
  split_ifs with a b
  · refine ⟨?_, ?_, ?_, ?_, ?_⟩
    all_goals simp [set, h0, h1, h2, a]
    intro i j hi e1 e2; omega
  · obtain ⟨p, q⟩ := sqrt_facts b
    refine ⟨?_, ?_, ?_, ?_, ?_⟩
    · simp [set]
    · simp [set]
    · simp only [set]
      simp
      field_simp
      linear_combination (sin (√K * l)) * q
    · simp [set]
    · intro i j hi
      simp only [set]
      rw [if_neg (by omega), if_neg (by omega), if_neg (by omega), if_neg (by omega)]
  · have hn := trich K a b
    obtain ⟨p, q⟩ := sqrt_facts hn
    refine ⟨?_, ?_, ?_, ?_, ?_⟩
    · simp [set]
    · simp [set]
    · simp only [set]
      simp
      field_simp
      linear_combination (sinh (√(-K) * l)) * q
    · simp [set]
    · intro i j hi
      simp only [set]
      rw [if_neg (by omega), if_neg (by omega), if_neg (by omega), if_neg (by omega)]

theorem sbrY_eq (l K : ℝ) (R : Mat) (h0 : R 2 2 = 1) (h1 : R 3 3 = 1) (h2 : R 3 2 = 0) :
    sbrY l K R 2 2 = cK K l ∧ sbrY l K R 2 3 = sK K l ∧ sbrY l K R 3 2 = -K * sK K l ∧ sbrY l K R 3 3 = cK K l ∧
    ∀ i j, (i < 2 ∨ 4 ≤ i ∨ j < 2 ∨ 4 ≤ j) → sbrY l K R i j = R i j := by
  unfold sbrY cK sK
  split_ifs with a b
  · refine ⟨?_, ?_, ?_, ?_, ?_⟩
    all_goals simp [set, h0, h1, h2, a]
    intro i j hi e1 e2; omega
  · obtain ⟨p, q⟩ := sqrt_facts b
    refine ⟨?_, ?_, ?_, ?_, ?_⟩
    · simp [set]
    · simp [set]
    · simp only [set]
      simp
      field_simp
      linear_combination (sin (√K * l)) * q
    · simp [set]
    · intro i j hi
      simp only [set]
      rw [if_neg (by omega), if_neg (by omega), if_neg (by omega), if_neg (by omega)]
  · have hn := trich K a b
    obtain ⟨p, q⟩ := sqrt_facts hn
    refine ⟨?_, ?_, ?_, ?_, ?_⟩
    · simp [set]
    · simp [set]
    · simp only [set]
      simp
      field_simp
      linear_combination (sinh (√(-K) * l)) * q
    · simp [set]
    · intro i j hi
      simp only [set]
      rw [if_neg (by omega), if_neg (by omega), if_neg (by omega), if_neg (by omega)]

/-- The entries of the dispersion of a magnet. -/
def dispEntry (l h K : ℝ) (R : Mat) (i j : Nat) : ℝ :=
  match i, j with
  | 0, 5 => h * (1 - cK K l) / K | 1, 5 => h * sK K l
  | 4, 0 => -h * sK K l | 4, 1 => -h * (1 - cK K l) / K
  | 4, 5 => -h * h * (l - sK K l) / K
  | _, _ => R i j

set_option linter.unusedSimpArgs false in
theorem sbrD_eq (l h K : ℝ) (R : Mat) (hh : h ≠ 0) (hK : K ≠ 0) : Same 6 (sbrD 6 l h K R) (dispEntry l h K R) := by
  intro i j hi hj
  unfold sbrD
  by_cases b : 0 < K
  · obtain ⟨p, q⟩ := sqrt_facts b
    simp only [hh, hK, b, ne_eq, not_false_eq_true, and_self, if_true, if_false]
    interval_cases i <;> interval_cases j <;>
      simp only [set, dispEntry, cK, sK, hh, hK, b, if_true, if_false] <;> simp <;> try (field_simp)
  · have hn := trich K hK b
    obtain ⟨p, q⟩ := sqrt_facts hn
    simp only [hh, hK, b, ne_eq, not_false_eq_true, and_self, if_true, if_false]
    interval_cases i <;> interval_cases j <;>
      simp only [set, dispEntry, cK, sK, hh, hK, b, if_true, if_false] <;> simp <;> try (field_simp)

theorem sbrD_four (n : Nat) (l h K : ℝ) (R : Mat) : Same 4 (sbrD n l h K R) R := by
  intro i j hi hj
  unfold sbrD
  split_ifs <;> simp only [set]
  all_goals repeat rw [if_neg (by omega)]

theorem sbrD_zero (n : Nat) (l h K : ℝ) (R : Mat) (hz : h = 0 ∨ K = 0) : sbrD n l h K R = R := by
  unfold sbrD
  split_ifs with a b
  · rcases hz with e | e <;> simp [e] at b
  · rcases hz with e | e <;> simp [e] at b
  · rfl
  · rfl

theorem closed_zero (h Kx Ky : ℝ) : Same 6 (closed 0 h Kx Ky) initR := by
  intro i j hi hj
  interval_cases i <;> interval_cases j <;> simp [closed, initR]

/-- A bend with four or more rows. -/
theorem sbr_closed4 (n : Nat) (l h K1 : ℝ) : Same 4 (sbr n l h K1 initR) (closed l h (K1 + h * h) (-K1)) := by
  intro i j hi hj
  unfold sbr
  split_ifs with hl
  · rw [hl, closed_zero h _ _ i j (by omega) (by omega)]
  · simp only
    rw [sbrD_four n l h _ _ i j hi hj]
    obtain ⟨a1, a2, a3, a4, a5⟩ := sbrX_eq l (K1 + h * h) initR (by simp [initR]) (by simp [initR]) (by simp [initR])
    have e : ∀ i j, (2 ≤ i ∨ 2 ≤ j) → sbrX l (K1 + h * h) initR i j = initR i j := a5
    obtain ⟨b1, b2, b3, b4, b5⟩ := sbrY_eq l (-K1) (sbrX l (K1 + h * h) initR)
      (by rw [e _ _ (by omega)]; simp [initR]) (by rw [e _ _ (by omega)]; simp [initR])
      (by rw [e _ _ (by omega)]; simp [initR])
    interval_cases i <;> interval_cases j <;>
      first
        | (simp only [b1, b2, b3, b4, closed]; done)
        | (rw [b5 _ _ (by omega)]; simp only [a1, a2, a3, a4, closed]; done)
        | (rw [b5 _ _ (by omega), e _ _ (by omega)]; simp [initR, closed])

/-- A bend with six rows. -/
theorem sbr_closed6 (l h K1 : ℝ) (hd : h = 0 ∨ K1 + h * h ≠ 0) :
    Same 6 (sbr 6 l h K1 initR) (closed l h (K1 + h * h) (-K1)) := by
  intro i j hi hj
  unfold sbr
  split_ifs with hl
  · rw [hl, closed_zero h _ _ i j hi hj]
  · simp only
    obtain ⟨a1, a2, a3, a4, a5⟩ := sbrX_eq l (K1 + h * h) initR (by simp [initR]) (by simp [initR]) (by simp [initR])
    have e : ∀ i j, (2 ≤ i ∨ 2 ≤ j) → sbrX l (K1 + h * h) initR i j = initR i j := a5
    obtain ⟨b1, b2, b3, b4, b5⟩ := sbrY_eq l (-K1) (sbrX l (K1 + h * h) initR)
      (by rw [e _ _ (by omega)]; simp [initR]) (by rw [e _ _ (by omega)]; simp [initR])
      (by rw [e _ _ (by omega)]; simp [initR])
    by_cases hh : h = 0
    · rw [sbrD_zero 6 l h _ _ (Or.inl hh)]
      interval_cases i <;> interval_cases j <;>
        first
          | (simp only [b1, b2, b3, b4, closed]; done)
          | (rw [b5 _ _ (by omega)]; simp only [a1, a2, a3, a4, closed]; done)
          | (rw [b5 _ _ (by omega), e _ _ (by omega)]; simp [initR, closed, hh])
    · have hK := hd.resolve_left hh
      rw [sbrD_eq l h _ _ hh hK i j hi hj]
      interval_cases i <;> interval_cases j <;>
        first
          | (simp only [dispEntry, closed]; done)
          | (simp only [dispEntry, b1, b2, b3, b4, closed]; done)
          | (simp only [dispEntry]; rw [b5 _ _ (by omega)]; simp only [a1, a2, a3, a4, closed]; done)
          | (simp only [dispEntry]; rw [b5 _ _ (by omega), e _ _ (by omega)]; simp [initR, closed])

/-- A bend of six rows with any curvature: where the focusing vanishes, the curvature is not seen. -/
theorem sbr_gen (l h K1 : ℝ) :
    Same 6 (sbr 6 l h K1 initR) (closed l (if K1 + h * h = 0 then 0 else h) (K1 + h * h) (-K1)) := by
  by_cases hK : K1 + h * h = 0
  · rw [if_pos hK]
    intro i j hi hj
    have e : sbr 6 l h K1 initR = if l = 0 then initR else sbrY l (-K1) (sbrX l (K1 + h * h) initR) := by
      unfold sbr
      simp only
      rw [sbrD_zero 6 l h _ _ (Or.inr hK)]
    rw [e, hK]
    split_ifs with hl
    · rw [hl, closed_zero 0 _ _ i j hi hj]
    · obtain ⟨a1, a2, a3, a4, a5⟩ := sbrX_eq l 0 initR (by simp [initR]) (by simp [initR]) (by simp [initR])
      have e : ∀ i j, (2 ≤ i ∨ 2 ≤ j) → sbrX l 0 initR i j = initR i j := a5
      obtain ⟨b1, b2, b3, b4, b5⟩ := sbrY_eq l (-K1) (sbrX l 0 initR)
        (by rw [e _ _ (by omega)]; simp [initR]) (by rw [e _ _ (by omega)]; simp [initR])
        (by rw [e _ _ (by omega)]; simp [initR])
      interval_cases i <;> interval_cases j <;>
        first
          | (simp only [b1, b2, b3, b4, closed]; done)
          | (rw [b5 _ _ (by omega)]; simp only [a1, a2, a3, a4, closed]; done)
          | (rw [b5 _ _ (by omega), e _ _ (by omega)]; simp [initR, closed])
  · rw [if_neg hK]
    exact sbr_closed6 l h K1 (Or.inr hK)

theorem sumTo_congr {n : Nat} {f g : Nat → ℝ} (h : ∀ k, k < n → f k = g k) : sumTo n f = sumTo n g := by
  unfold sumTo
  congr 1
  exact List.map_congr_left (fun k hk => h k (List.mem_range.1 hk))

theorem mul_congr {n : Nat} {A B C D : Mat} (h1 : Same n A B) (h2 : Same n C D) : Same n (mul n A C) (mul n B D) := by
  intro i j hi hj
  exact sumTo_congr (fun k hk => by rw [h1 i k hi hk, h2 k j hk hj])

theorem symplectic_congr {m : Nat} {A B : Mat} (h : Same (2 * m) A B) (hB : Symplectic (2 * m) B) :
    Symplectic (2 * m) A := by
  intro i j hi hj
  rw [← hB i j hi hj]
  refine sumTo_congr (fun k hk => ?_)
  have e : 2 * m / 2 = m := by omega
  rw [e] at hk
  rw [h _ i (by omega) hi, h _ j (by omega) hj, h _ i (by omega) hi, h _ j (by omega) hj]

theorem flow_congr {n : Nat} {A : Mat} {R S : ℝ → Mat} (h : ∀ l, Same n (R l) (S l)) (hS : Flow n A S) :
    Flow n A R := by
  refine ⟨fun i j hi hj => by rw [h 0 i j hi hj, hS.1 i j hi hj], fun l i j hi hj => ?_⟩
  have e : (fun l => R l i j) = fun l => S l i j := by funext l; exact h l i j hi hj
  have e2 : mul n A (R l) i j = mul n A (S l) i j := mul_congr (fun _ _ _ _ => rfl) (h l) i j hi hj
  rw [e, e2]
  exact hS.2 l i j hi hj

theorem sumTo2 (f : Nat → ℝ) : sumTo 2 f = f 0 + f 1 := by simp [sumTo, List.range_succ]
theorem sumTo3 (f : Nat → ℝ) : sumTo 3 f = f 0 + f 1 + f 2 := by simp [sumTo, List.range_succ]; ring
theorem sumTo4 (f : Nat → ℝ) : sumTo 4 f = f 0 + f 1 + f 2 + f 3 := by simp [sumTo, List.range_succ]; ring
theorem sumTo6 (f : Nat → ℝ) : sumTo 6 f = f 0 + f 1 + f 2 + f 3 + f 4 + f 5 := by
  simp [sumTo, List.range_succ]; ring

set_option maxHeartbeats 2000000 in
theorem closed_symplectic (l h Kx Ky : ℝ) (hd : h = 0 ∨ Kx ≠ 0) : Symplectic 6 (closed l h Kx Ky) := by
  have hx := cK_sq Kx l
  have hy := cK_sq Ky l
  intro i j hi hj
  rw [show 6 / 2 = 3 from rfl, sumTo3]
  rcases hd with h0 | h0
  · subst h0
    interval_cases i <;> interval_cases j <;> simp [closed, form] <;> linarith
  · interval_cases i <;> interval_cases j <;> simp [closed, form] <;> field_simp <;>
      first | linarith | linear_combination h * hx | linear_combination -h * hx

end Verif.Transport
