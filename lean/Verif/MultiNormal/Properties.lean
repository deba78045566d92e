import Mathlib.Tactic.Ring
import Mathlib.Tactic.LinearCombination
import Mathlib.Tactic.Linarith
import Mathlib.Tactic.FieldSimp
import Mathlib.Tactic.NormNum
import Mathlib.Algebra.BigOperators.Group.Finset.Basic
import Mathlib.Algebra.Order.Ring.Rat
import Mathlib.Analysis.SpecialFunctions.Sqrt
import Verif.MultiNormal.Model
import Verif.MultiNormal.Spec
import Verif.LinMap.Lemmas

/-!
# Correlated normal numbers: the decomposition and the vectors
-/

set_option linter.unusedSectionVars false

namespace Verif.MultiNormal
open Verif Verif.LinMap Verif.MultiNormal.Spec Finset

variable {K : Type} [Field K] [LinearOrder K] [IsStrictOrderedRing K]

/-- The lower triangle of the matrix. -/
def low (L : Mat K) (i k : Nat) : K := if k ≤ i then L i k else 0

theorem fold_sum (f : Nat → K) (n : Nat) (a : K) : (List.range n).foldl (fun s k => s + f k) a = a + ∑ k ∈ range n, f k := by
  induction n with
  | zero => simp
  | succ n ih => rw [List.range_succ, List.foldl_append, ih, sum_range_succ]; simp [add_assoc]

/-- What the loops have reached: row `i`, of which `n` columns are done. -/
structure Inv (C : Mat K) (i n : Nat) (L : Mat K) : Prop where
  upper : ∀ a b, a < b → L a b = C a b
  diag : ∀ a, i < a ∨ (i = a ∧ n ≤ a) → L a a = C a a
  done : ∀ a b, b ≤ a → a < i ∨ (a = i ∧ b < n) → ∑ k ∈ range (b + 1), L a k * L b k = C b a

theorem cell_inv (sqrt : K → K) (hs : ∀ x, 0 ≤ x → sqrt x * sqrt x = x) (C : Mat K) (i n : Nat) (hn : n ≤ i) (L L' : Mat K)
    (h : Inv C i n L) (hc : cell sqrt i L n = .ok L') : Inv C i (n + 1) L' := by
  unfold cell at hc
  simp only at hc
  rw [fold_sum (fun k => L i k * L n k), zero_add] at hc
  -- only one element changes
  have key : ∀ v, L' = setM L i n v → v * (if i = n then v else L n n) + ∑ k ∈ range n, L i k * L n k = C n i →
      Inv C i (n + 1) L' := by
    intro v hv he
    subst hv
    have hne : ∀ a b, ¬ (a = i ∧ b = n) → setM L i n v a b = L a b := fun a b hab => by simp [setM, hab]
    refine ⟨fun a b hab => ?_, fun a ha => ?_, fun a b hba hd => ?_⟩
    · rw [hne a b (by omega)]; exact h.upper a b hab
    · rw [hne a a (by omega)]; exact h.diag a (by omega)
    · by_cases hnew : a = i ∧ b = n
      · obtain ⟨rfl, rfl⟩ := hnew
        rw [sum_range_succ]
        have e1 : ∑ k ∈ range b, setM L a b v a k * setM L a b v b k = ∑ k ∈ range b, L a k * L b k := by
          refine sum_congr rfl fun k hk => ?_
          rw [mem_range] at hk
          rw [hne a k (by omega), hne b k (by omega)]
        rw [e1]
        have e2 : setM L a b v a b = v := by simp [setM]
        have e3 : setM L a b v b b = if a = b then v else L b b := by
          by_cases hab : a = b
          · subst hab; simp [setM]
          · rw [if_neg hab, hne b b (by omega)]
        rw [e2, e3, add_comm]
        exact he
      · rw [← h.done a b hba (by omega)]
        refine sum_congr rfl fun k hk => ?_
        rw [mem_range] at hk
        rw [hne a k (by omega), hne b k (by omega)]
  by_cases hin : i = n
  · rw [if_pos hin] at hc
    split_ifs at hc with hx
    injection hc with hc
    refine key _ hc.symm ?_
    rw [if_pos hin, hs _ (not_lt.mp hx)]
    subst hin
    rw [h.diag i (Or.inr ⟨rfl, le_refl _⟩)]
    ring
  · rw [if_neg hin] at hc
    split_ifs at hc with hz
    injection hc with hc
    refine key _ hc.symm ?_
    rw [if_neg hin, h.upper n i (by omega)]
    field_simp
    ring

theorem row_inv (sqrt : K → K) (hs : ∀ x, 0 ≤ x → sqrt x * sqrt x = x) (C : Mat K) (i : Nat) (L : Mat K) (h : Inv C i 0 L) :
    ∀ (n : Nat), n ≤ i + 1 → ∀ L', row sqrt i L n = .ok L' → Inv C i n L' := by
  intro n
  induction n with
  | zero =>
    intro _ L' hr
    injection hr with hr
    subst hr
    exact h
  | succ n ih =>
    intro hn L' hr
    rw [row] at hr
    cases h1 : row sqrt i L n with
    | ub => rw [h1] at hr; simp [Outcome.bind] at hr
    | throw e => rw [h1] at hr; simp [Outcome.bind] at hr
    | ok L1 =>
      rw [h1] at hr
      exact cell_inv sqrt hs C i n (by omega) L1 L' (ih (by omega) L1 h1) hr

theorem cholesky_inv (sqrt : K → K) (hs : ∀ x, 0 ≤ x → sqrt x * sqrt x = x) (C : Mat K) : ∀ (n : Nat) (L' : Mat K),
    cholesky sqrt C n = .ok L' → Inv C n 0 L'
  | 0, L', h => by
    injection h with h
    subst h
    exact ⟨fun _ _ _ => rfl, fun _ _ => rfl, fun a b _ h => by omega⟩
  | n + 1, L', h => by
    rw [cholesky] at h
    cases h1 : cholesky sqrt C n with
    | ub => rw [h1] at h; simp [Outcome.bind] at h
    | throw e => rw [h1] at h; simp [Outcome.bind] at h
    | ok L1 =>
      rw [h1] at h
      have := row_inv sqrt hs C n L1 (cholesky_inv sqrt hs C n L1 h1) (n + 1) (le_refl _) L' h
      exact ⟨this.upper, fun a ha => this.diag a (by omega), fun a b hb hd => this.done a b hb (by omega)⟩

/-- Sums of the lower triangle. -/
theorem low_sum (L : Mat K) (n a b : Nat) (ha : a < n) (hb : b ≤ a) :
    ∑ k ∈ range n, low L a k * low L b k = ∑ k ∈ range (b + 1), L a k * L b k := by
  have : ∑ k ∈ range (b + 1), L a k * L b k = ∑ k ∈ range (b + 1), low L a k * low L b k := by
    refine sum_congr rfl fun k hk => ?_
    rw [mem_range] at hk
    rw [low, low, if_pos (by omega), if_pos (by omega)]
  rw [this]
  refine (sum_subset (fun k hk => ?_) fun k _ hk => ?_).symm
  · rw [mem_range] at *; omega
  · rw [mem_range] at hk
    rw [low, low, if_neg (by omega : ¬ k ≤ b), mul_zero]

/-- **C133.** The decomposition, if it succeeds, is one: the lower triangle of the result times its transpose is the symmetric
matrix of which the upper triangle was given.  The lower triangle that was there before does not matter. -/
theorem cholesky_product (sqrt : K → K) (hs : ∀ x, 0 ≤ x → sqrt x * sqrt x = x) (C : Mat K) (n : Nat) (L : Mat K)
    (h : cholesky sqrt C n = .ok L) (a b : Nat) (ha : a < n) (hb : b < n) :
    ∑ k ∈ range n, low L a k * low L b k = full C a b := by
  have inv := cholesky_inv sqrt hs C n L h
  rcases Nat.lt_trichotomy a b with hab | hab | hab
  · rw [full, if_pos hab.le, ← inv.done b a hab.le (by omega), ← low_sum L n b a hb hab.le]
    exact sum_congr rfl fun k _ => mul_comm _ _
  · subst hab
    rw [full, if_pos (le_refl _), ← inv.done a a (le_refl _) (by omega), ← low_sum L n a a ha (le_refl _)]
  · rw [full, if_neg (by omega), ← inv.done a b hab.le (by omega), ← low_sum L n a b ha hab.le]

/-- A root of the squares of rationals used in the examples. -/
def exRoot (x : ℚ) : ℚ := if x = 4 then 2 else if x = 9 then 3 else if x = 1 then 1 else 0

def exCov : Mat ℚ := fun i j => match i, j with
  | 0, 0 => 4 | 0, 1 => 2 | 1, 1 => 10 | 0, 2 => 6 | 1, 2 => 9 | 2, 2 => 14 | _, _ => 77

example : (match cholesky exRoot exCov 3 with
    | .ok L => some (low L 0 0, low L 1 0, low L 1 1, low L 2 0, low L 2 1, low L 2 2)
    | _ => none) = some (2, 1, 3, 3, 2, 1) := by decide +kernel

/-! ## The vectors -/

theorem turn_fold (g : Gen K) (i : Nat) : ∀ (m : Nat), m ≤ i → ∀ (x : Nat → K) (a : Nat),
    ((List.range m).foldl (fun x j => upd x i (x i + g.L i j * x j)) x) a
      = if a = i then x i + ∑ j ∈ range m, g.L i j * x j else x a
  | 0, _, x, a => by
    by_cases h : a = i
    · subst h; simp
    · simp [h]
  | m + 1, hm, x, a => by
    rw [List.range_succ, List.foldl_append]
    simp only [List.foldl_cons, List.foldl_nil]
    have ih := turn_fold g i m (by omega) x
    by_cases h : a = i
    · subst h
      rw [upd, if_pos rfl, if_pos rfl, ih a, if_pos rfl, ih m, if_neg (by omega), sum_range_succ]
      ring
    · rw [upd, if_neg h, if_neg h, ih a, if_neg h]

theorem turn_eq (g : Gen K) (x : Nat → K) (i a : Nat) :
    turn g x i a = if a = i then g.mean i + ∑ k ∈ range (i + 1), g.L i k * x k else x a := by
  unfold turn
  rw [turn_fold g i i (le_refl _)]
  by_cases h : a = i
  · subst h
    rw [if_pos rfl, if_pos rfl, sum_range_succ]
    have : ∑ j ∈ range a, g.L a j * upd (upd x a (x a * g.L a a)) a (upd x a (x a * g.L a a) a + g.mean a) j
        = ∑ j ∈ range a, g.L a j * x j := by
      refine sum_congr rfl fun j hj => ?_
      rw [mem_range] at hj
      simp [upd, show j ≠ a by omega]
    rw [this]
    simp only [upd, if_true]
    ring
  · rw [if_neg h, if_neg h]
    simp [upd, h]

/-- **C133.** The vector is the mean plus the lower triangle times the numbers drawn, although it is computed in
place. -/
theorem randVec_eq (g : Gen K) (x : Nat → K) (i : Nat) (hi : i < g.n) :
    g.randVec x i = g.mean i + ∑ k ∈ range g.n, low g.L i k * x k := by
  have key : ∀ (n : Nat) (x : Nat → K) (a : Nat), (List.range n).reverse.foldl (turn g) x a
      = if a < n then g.mean a + ∑ k ∈ range (a + 1), g.L a k * x k else x a := by
    intro n
    induction n with
    | zero => intro x a; simp
    | succ n ih =>
      intro x a
      rw [List.range_succ, List.reverse_append, List.reverse_singleton, List.singleton_append, List.foldl_cons, ih]
      by_cases h : a < n
      · rw [if_pos h, if_pos (by omega)]
        congr 1
        refine sum_congr rfl fun k hk => ?_
        rw [mem_range] at hk
        rw [turn_eq, if_neg (by omega)]
      · rw [if_neg h, turn_eq]
        by_cases h2 : a = n
        · subst h2
          rw [if_pos rfl, if_pos (by omega)]
        · rw [if_neg h2, if_neg (by omega)]
  rw [Gen.randVec, key, if_pos hi]
  congr 1
  have : ∑ k ∈ range (i + 1), g.L i k * x k = ∑ k ∈ range (i + 1), low g.L i k * x k := by
    refine sum_congr rfl fun k hk => ?_
    rw [mem_range] at hk
    rw [low, if_pos (by omega)]
  rw [this]
  refine sum_subset (fun k hk => ?_) fun k _ hk => ?_
  · rw [mem_range] at *; omega
  · rw [mem_range] at hk
    rw [low, if_neg (by omega), zero_mul]

theorem expect_add (d : List (K × (Nat → K))) (f g : (Nat → K) → K) :
    average d (fun x => f x + g x) = average d f + average d g := by
  simp only [average, mul_add, List.sum_map_add]

theorem expect_smul (d : List (K × (Nat → K))) (a : K) (f : (Nat → K) → K) :
    average d (fun x => a * f x) = a * average d f := by
  simp only [average]
  induction d with
  | nil => simp
  | cons p d ih => simp only [List.map_cons, List.sum_cons, ih]; ring

theorem expect_sum (d : List (K × (Nat → K))) (n : Nat) (f : Nat → (Nat → K) → K) :
    average d (fun x => ∑ k ∈ range n, f k x) = ∑ k ∈ range n, average d (f k) := by
  induction n with
  | zero => simp [average]
  | succ n ih => simp only [sum_range_succ]; rw [expect_add, ih]

theorem expect_congr (d : List (K × (Nat → K))) (f g : (Nat → K) → K) (h : ∀ x, f x = g x) : average d f = average d g := by
  rw [show f = g from funext h]

/-- **C133.** If the numbers drawn are independent with mean zero and variance one, the vectors have the mean and the
covariances that were asked for. -/
theorem randVec_moments (sqrt : K → K) (hs : ∀ x, 0 ≤ x → sqrt x * sqrt x = x) (n : Nat) (cov : Cov K) (size : Nat)
    (m : Nat → K) (junk : Mat K) (g : Gen K) (h : Gen.ofCov sqrt n cov size m junk = .ok g)
    (d : List (K × (Nat → K))) (hd : Standard n d) :
    (∀ i < n, average d (fun x => g.randVec x i) = m i) ∧
    ∀ i < n, ∀ j < n, average d (fun x => (g.randVec x i - m i) * (g.randVec x j - m j)) = sig n cov i j := by
  unfold Gen.ofCov at h
  split_ifs at h
  cases hc : cholesky sqrt (fun i j => if i ≤ j then sig n cov i j else junk i j) n with
  | ub => rw [hc] at h; simp [Outcome.bind] at h
  | throw e => rw [hc] at h; simp [Outcome.bind] at h
  | ok L =>
    rw [hc] at h
    simp only [Outcome.bind] at h
    injection h with h
    subst h
    have hv : ∀ x i, i < n → (⟨n, m, L⟩ : Gen K).randVec x i = m i + ∑ k ∈ range n, low L i k * x k :=
      fun x i hi => randVec_eq ⟨n, m, L⟩ x i hi
    obtain ⟨h1, h2, h3⟩ := hd
    constructor
    · intro i hi
      rw [expect_congr d _ (fun x => m i * 1 + ∑ k ∈ range n, low L i k * x k) (fun x => by rw [hv x i hi, mul_one]),
        expect_add, expect_smul, h1, expect_sum d n (fun k x => low L i k * x k)]
      rw [sum_eq_zero (fun k hk => by rw [expect_smul, h2 k (mem_range.mp hk), mul_zero])]
      ring
    · intro i hi j hj
      rw [expect_congr d _ (fun x => ∑ k ∈ range n, ∑ l ∈ range n, low L i k * low L j l * (x k * x l)) (fun x => by
        rw [hv x i hi, hv x j hj, add_sub_cancel_left, add_sub_cancel_left, sum_mul_sum]
        exact sum_congr rfl fun k _ => sum_congr rfl fun l _ => by ring)]
      rw [expect_sum d n (fun k x => ∑ l ∈ range n, low L i k * low L j l * (x k * x l))]
      have e : ∀ k ∈ range n, average d (fun x => ∑ l ∈ range n, low L i k * low L j l * (x k * x l))
          = low L i k * low L j k := by
        intro k hk
        rw [expect_sum d n (fun l x => low L i k * low L j l * (x k * x l))]
        rw [sum_eq_single k]
        · rw [expect_smul, h3 k (mem_range.mp hk) k (mem_range.mp hk), if_pos rfl, mul_one]
        · intro l hl hlk
          rw [expect_smul, h3 k (mem_range.mp hk) l (mem_range.mp hl), if_neg (fun h => hlk h.symm), mul_zero]
        · intro hk'
          exact absurd hk hk'
      rw [sum_congr rfl e, cholesky_product sqrt hs _ n L hc i j hi hj, full]
      by_cases hij : i ≤ j
      · rw [if_pos hij, if_pos hij]
      · rw [if_neg hij, if_pos (by omega)]
        rw [sig, sig, off_comm]
        exact if_congr and_comm rfl rfl

/-- A standard distribution in two dimensions: four corners. -/
example : Standard 2 ([(1 / 4, fun _ => 1), (1 / 4, fun n => if n = 0 then 1 else -1), (1 / 4, fun n => if n = 0 then -1 else 1),
    (1 / 4, fun _ => -1)] : List (ℚ × (Nat → ℚ))) := by
  refine ⟨by decide +kernel, fun i hi => ?_, fun i hi j hj => ?_⟩
  · interval_cases i <;> decide +kernel
  · interval_cases i <;> interval_cases j <;> decide +kernel

/-! ## Which matrices are accepted -/

theorem square_form (T : Mat K) (v : Nat → K) (n m : Nat) :
    ∑ a ∈ range n, ∑ b ∈ range n, v a * (∑ k ∈ range m, T a k * T b k) * v b
      = ∑ k ∈ range m, (∑ a ∈ range n, v a * T a k) * (∑ a ∈ range n, v a * T a k) := by
  have h1 : ∀ k ∈ range m, (∑ a ∈ range n, v a * T a k) * (∑ a ∈ range n, v a * T a k)
      = ∑ a ∈ range n, ∑ b ∈ range n, v a * (T a k * T b k) * v b := by
    intro k _
    rw [sum_mul_sum]
    exact sum_congr rfl fun a _ => sum_congr rfl fun b _ => by ring
  rw [sum_congr rfl h1, sum_comm (s := range m)]
  refine sum_congr rfl fun a _ => ?_
  rw [sum_comm (s := range m)]
  refine sum_congr rfl fun b _ => ?_
  rw [mul_sum, sum_mul]

/-- **C133.** A matrix that is accepted has no direction of negative variance: others are not decomposed. -/
theorem accepted_semidef (sqrt : K → K) (hs : ∀ x, 0 ≤ x → sqrt x * sqrt x = x) (C : Mat K) (n : Nat) (L : Mat K)
    (h : cholesky sqrt C n = .ok L) (v : Nat → K) : 0 ≤ quad C n v := by
  have : quad C n v = ∑ a ∈ range n, ∑ b ∈ range n, v a * (∑ k ∈ range n, low L a k * low L b k) * v b := by
    refine sum_congr rfl fun a ha => sum_congr rfl fun b hb => ?_
    rw [cholesky_product sqrt hs C n L h a b (mem_range.mp ha) (mem_range.mp hb)]
  rw [this, square_form]
  exact sum_nonneg fun k _ => mul_self_nonneg _

/-- A triangular system of equations with a diagonal has a solution. -/
theorem solve (L : Mat K) : ∀ (n : Nat), (∀ k < n, L k k ≠ 0) → ∀ l : Nat → K,
    ∃ y : Nat → K, ∀ k < n, ∑ a ∈ range n, y a * low L a k = l k
  | 0, _, l => ⟨l, fun k hk => by omega⟩
  | n + 1, hd, l => by
    obtain ⟨y, hy⟩ := solve L n (fun k hk => hd k (by omega)) (fun k => l k - l n / L n n * low L n k)
    refine ⟨fun a => if a = n then l n / L n n else y a, fun k hk => ?_⟩
    rw [sum_range_succ]
    simp only [if_true]
    have e : ∑ a ∈ range n, (if a = n then l n / L n n else y a) * low L a k = ∑ a ∈ range n, y a * low L a k := by
      refine sum_congr rfl fun a ha => ?_
      rw [mem_range] at ha
      rw [if_neg (by omega)]
    rw [e]
    by_cases hkn : k = n
    · subst hkn
      have h0 : ∑ a ∈ range k, y a * low L a k = 0 := by
        refine sum_eq_zero fun a ha => ?_
        rw [mem_range] at ha
        rw [low, if_neg (by omega), mul_zero]
      have := hd k (by omega)
      rw [h0, low, if_pos (le_refl _)]
      field_simp
      ring
    · rw [hy k (by omega)]
      ring

/-- The remainder of the diagonal is positive for a positive definite matrix. -/
theorem pivot_pos (C L : Mat K) (n : Nat) (h : Inv C n n L) (hd : ∀ k < n, L k k ≠ 0) (hC : PosDef C (n + 1)) :
    0 < C n n - ∑ k ∈ range n, L n k * L n k := by
  obtain ⟨y, hy⟩ := solve L n hd (fun k => L n k)
  -- a row of the decomposition without its last element
  let T : Mat K := fun a k => if a = n then L n k else low L a k
  let v : Nat → K := fun a => if a = n then 1 else -y a
  have hq := hC v ⟨n, by omega, by simp [v]⟩
  have hT : ∀ a b, a ≤ n → b ≤ n → full C a b
      = ∑ k ∈ range n, T a k * T b k + if a = n ∧ b = n then C n n - ∑ k ∈ range n, L n k * L n k else 0 := by
    have key : ∀ a b, b < a → a ≤ n → ∑ k ∈ range n, T a k * T b k = C b a := by
      intro a b hab ha
      rw [← h.done a b hab.le (by omega)]
      have e1 : ∑ k ∈ range (b + 1), L a k * L b k = ∑ k ∈ range (b + 1), T a k * T b k := by
        refine sum_congr rfl fun k hk => ?_
        rw [mem_range] at hk
        have hb : T b k = L b k := by simp only [T]; rw [if_neg (by omega), low, if_pos (by omega)]
        have hak : T a k = L a k := by
          simp only [T]
          by_cases han : a = n
          · rw [if_pos han, han]
          · rw [if_neg han, low, if_pos (by omega)]
        rw [hb, hak]
      rw [e1]
      refine (sum_subset (fun k hk => ?_) fun k _ hk => ?_).symm
      · rw [mem_range] at *; omega
      · rw [mem_range] at hk
        have hb : T b k = 0 := by simp only [T]; rw [if_neg (by omega), low, if_neg (by omega)]
        rw [hb, mul_zero]
    intro a b ha hb
    rcases Nat.lt_trichotomy a b with hab | hab | hab
    · rw [if_neg (by omega), add_zero, full, if_pos hab.le, ← key b a hab hb]
      exact sum_congr rfl fun k _ => mul_comm _ _
    · subst hab
      rw [full, if_pos (le_refl _)]
      by_cases han : a = n
      · subst han
        simp [T]
      · rw [if_neg (by omega), add_zero, ← h.done a a (le_refl _) (by omega), ← low_sum L n a a (by omega) (le_refl _)]
        refine sum_congr rfl fun k _ => ?_
        simp [T, han]
    · rw [if_neg (by omega), add_zero, full, if_neg (by omega), ← key a b hab ha]
  have e : quad C (n + 1) v = ∑ k ∈ range n, (∑ a ∈ range (n + 1), v a * T a k) * (∑ a ∈ range (n + 1), v a * T a k)
      + (C n n - ∑ k ∈ range n, L n k * L n k) := by
    rw [← square_form]
    have e1 : quad C (n + 1) v = ∑ a ∈ range (n + 1), ∑ b ∈ range (n + 1), (v a * (∑ k ∈ range n, T a k * T b k) * v b
        + if a = n then (if b = n then C n n - ∑ k ∈ range n, L n k * L n k else 0) else 0) := by
      refine sum_congr rfl fun a ha => sum_congr rfl fun b hb => ?_
      rw [mem_range] at ha hb
      rw [hT a b (by omega) (by omega), mul_add, add_mul]
      congr 1
      by_cases han : a = n <;> by_cases hbn : b = n <;> simp [han, hbn, v]
    rw [e1]
    simp only [sum_add_distrib]
    congr 1
    have e2 : ∀ a ∈ range (n + 1), (∑ b ∈ range (n + 1),
        if a = n then (if b = n then C n n - ∑ k ∈ range n, L n k * L n k else 0) else 0)
        = if a = n then C n n - ∑ k ∈ range n, L n k * L n k else 0 := by
      intro a _
      by_cases han : a = n
      · simp only [han, if_true]
        rw [sum_ite_eq' (range (n + 1)) n (fun _ => C n n - ∑ k ∈ range n, L n k * L n k), if_pos (mem_range.mpr (by omega))]
      · simp [han]
    rw [sum_congr rfl e2, sum_ite_eq' (range (n + 1)) n (fun _ => C n n - ∑ k ∈ range n, L n k * L n k),
      if_pos (mem_range.mpr (by omega))]
  have hz : ∀ k ∈ range n, (∑ a ∈ range (n + 1), v a * T a k) * (∑ a ∈ range (n + 1), v a * T a k) = 0 := by
    intro k hk
    rw [mem_range] at hk
    have : ∑ a ∈ range (n + 1), v a * T a k = 0 := by
      rw [sum_range_succ]
      have e3 : ∑ a ∈ range n, v a * T a k = -∑ a ∈ range n, y a * low L a k := by
        rw [← sum_neg_distrib]
        refine sum_congr rfl fun a ha => ?_
        rw [mem_range] at ha
        simp only [v, T]
        rw [if_neg (by omega), if_neg (by omega)]
        ring
      rw [e3, hy k hk]
      simp [v, T]
    rw [this, mul_zero]
  rw [e, sum_eq_zero hz, zero_add] at hq
  exact hq

/-- A part of a positive definite matrix is positive definite. -/
theorem posDef_prefix (C : Mat K) (n : Nat) (h : PosDef C (n + 1)) : PosDef C n := by
  intro v ⟨i, hi, hv⟩
  have := h (fun a => if a = n then 0 else v a) ⟨i, by omega, by rw [if_neg (by omega)]; exact hv⟩
  have e : quad C (n + 1) (fun a => if a = n then 0 else v a) = quad C n v := by
    unfold quad
    rw [sum_range_succ]
    simp only [if_true, zero_mul, sum_const_zero, add_zero]
    refine sum_congr rfl fun a ha => ?_
    rw [mem_range] at ha
    rw [sum_range_succ]
    simp only [if_true, mul_zero, add_zero]
    refine sum_congr rfl fun b hb => ?_
    rw [mem_range] at hb
    rw [if_neg (by omega), if_neg (by omega)]
  rw [e] at this
  exact this

theorem row_ok (sqrt : K → K) (i : Nat) (L : Mat K) (hd : ∀ k < i, L k k ≠ 0) :
    ∀ (n : Nat), n ≤ i → ∃ L', row sqrt i L n = .ok L' ∧ ∀ a b, a ≠ i → L' a b = L a b := by
  intro n
  induction n with
  | zero => intro _; exact ⟨L, rfl, fun _ _ _ => rfl⟩
  | succ n ih =>
    intro hn
    obtain ⟨L1, h1, h2⟩ := ih (by omega)
    rw [row, h1]
    simp only [Outcome.bind, cell]
    rw [if_neg (by omega), if_neg (by rw [h2 n n (by omega)]; exact hd n (by omega))]
    refine ⟨_, rfl, fun a b ha => ?_⟩
    rw [setM, if_neg (by omega), h2 a b ha]

/-- **C133.** Every positive definite covariance matrix is accepted. -/
theorem posDef_accepted (sqrt : K → K) (hs : ∀ x, 0 ≤ x → sqrt x * sqrt x = x) (C : Mat K) : ∀ (n : Nat),
    PosDef C n → ∃ L, cholesky sqrt C n = .ok L ∧ ∀ k < n, L k k ≠ 0
  | 0, _ => ⟨C, rfl, fun k hk => by omega⟩
  | n + 1, hC => by
    obtain ⟨L, h1, hd⟩ := posDef_accepted sqrt hs C n (posDef_prefix C n hC)
    have inv := cholesky_inv sqrt hs C n L h1
    obtain ⟨L1, h2, h3⟩ := row_ok sqrt n L hd n (le_refl _)
    have inv1 := row_inv sqrt hs C n L inv n (by omega) L1 h2
    have hd1 : ∀ k < n, L1 k k ≠ 0 := fun k hk => by rw [h3 k k (by omega)]; exact hd k hk
    have hp := pivot_pos C L1 n inv1 hd1 hC
    have hx : L1 n n - (List.range n).foldl (fun s k => s + L1 n k * L1 n k) 0 = C n n - ∑ k ∈ range n, L1 n k * L1 n k := by
      rw [fold_sum (fun k => L1 n k * L1 n k), zero_add, inv1.diag n (Or.inr ⟨rfl, le_refl _⟩)]
    rw [cholesky, h1]
    simp only [Outcome.bind]
    rw [row, h2]
    simp only [Outcome.bind, cell, if_true]
    rw [hx, if_neg (not_lt.mpr hp.le)]
    refine ⟨_, rfl, fun k hk => ?_⟩
    by_cases hkn : k = n
    · subst hkn
      simp only [setM, and_self, if_true]
      intro h0
      have := hs _ hp.le
      rw [h0, mul_zero] at this
      exact hp.ne this
    · rw [setM, if_neg (by omega)]
      exact hd1 k (by omega)

/-- The square root of the real numbers is as the theorems ask. -/
example : ∀ x : ℝ, 0 ≤ x → Real.sqrt x * Real.sqrt x = x := fun _ hx => Real.mul_self_sqrt hx

/-- **C133.** Every generator of a positive definite covariance matrix is made, whatever is in the memory of the matrix. -/
theorem ofCov_accepted (sqrt : K → K) (hs : ∀ x, 0 ≤ x → sqrt x * sqrt x = x) (n : Nat) (cov : Cov K) (size : Nat)
    (m : Nat → K) (junk : Mat K) (h0 : 0 < n) (hsz : n ≤ size) (hC : PosDef (sig n cov) n) :
    ∃ g, Gen.ofCov sqrt n cov size m junk = .ok g ∧ g.n = n := by
  have : PosDef (fun i j => if i ≤ j then sig n cov i j else junk i j) n := by
    intro v hv
    have e : quad (fun i j => if i ≤ j then sig n cov i j else junk i j) n v = quad (sig n cov) n v := by
      refine sum_congr rfl fun a _ => sum_congr rfl fun b _ => ?_
      have : full (fun i j => if i ≤ j then sig n cov i j else junk i j) a b = full (sig n cov) a b := by
        unfold full
        by_cases hab : a ≤ b
        · simp [hab]
        · have : b ≤ a := by omega
          simp [hab, this]
      rw [this]
    rw [e]
    exact hC v hv
  obtain ⟨L, hL, _⟩ := posDef_accepted sqrt hs _ n this
  refine ⟨⟨n, m, L⟩, ?_, rfl⟩
  rw [Gen.ofCov, if_neg (by omega), hL]
  rfl

/-- Twice the identity in two dimensions is positive definite. -/
example : PosDef (fun i j => if i = j then (2 : ℚ) else 0) 2 := by
  intro v ⟨i, hi, hv⟩
  have e : quad (fun i j => if i = j then (2 : ℚ) else 0) 2 v = 2 * (v 0 * v 0) + 2 * (v 1 * v 1) := by
    simp [quad, full, sum_range_succ]
    ring
  rw [e]
  have h0 := mul_self_nonneg (v 0)
  have h1 := mul_self_nonneg (v 1)
  interval_cases i
  · have := mul_self_pos.mpr hv; linarith
  · have := mul_self_pos.mpr hv; linarith

/-- **C133 (violated).** A covariance matrix of a beam without spread in its first coordinate — which has no negative direction —
is not decomposed: an element is divided by zero. -/
theorem noSpread_violated (sqrt : K → K) (hs : ∀ x, 0 ≤ x → sqrt x * sqrt x = x) (C : Mat K) (h0 : C 0 0 = 0) (n : Nat) :
    cholesky sqrt C (n + 2) = .ub := by
  have hr : sqrt 0 = 0 := by
    have := hs 0 (le_refl _)
    exact mul_self_eq_zero.mp this
  have h1 : cholesky sqrt C 1 = .ok (setM C 0 0 0) := by
    simp [cholesky, row, cell, Outcome.bind, h0, hr]
  have h2 : cholesky sqrt C 2 = .ub := by
    rw [cholesky, h1]
    simp only [Outcome.bind, row, cell]
    simp [setM]
  induction n with
  | zero => exact h2
  | succ n ih => rw [cholesky, ih]; rfl

/-- Such a matrix, which is that of a beam with spread in its second coordinate only. -/
example : ∀ v : Nat → ℚ, 0 ≤ quad (fun i j => if i = 1 ∧ j = 1 then (4 : ℚ) else 0) 2 v := by
  intro v
  have e : quad (fun i j => if i = 1 ∧ j = 1 then (4 : ℚ) else 0) 2 v = 4 * (v 1 * v 1) := by
    simp [quad, full, sum_range_succ]
    ring
  rw [e]
  have := mul_self_nonneg (v 1)
  linarith

/-- **C133.** Dimensions that do not fit are refused, before anything is computed. -/
theorem dimension_refused (sqrt : K → K) (n rows cols : Nat) (cov : Mat K) (size : Nat) (m : Nat → K) :
    Gen.ofMatrix sqrt n rows cols cov size m = .throw .dimension ↔ n = 0 ∨ cols < n ∨ rows ≠ cols ∨ size < n := by
  have hne : ∀ (C : Mat K) (i j : Nat), cell sqrt i C j ≠ .throw .dimension := by
    intro C i j
    unfold cell
    simp only
    split_ifs <;> simp
  have hrow : ∀ (C : Mat K) (i n : Nat), row sqrt i C n ≠ .throw .dimension := by
    intro C i n
    induction n with
    | zero => simp [row]
    | succ n ih =>
      rw [row]
      cases h : row sqrt i C n with
      | ok L => exact hne L i n
      | throw e => simp only [Outcome.bind]; rw [h] at ih; exact ih
      | ub => simp [Outcome.bind]
  have hch : ∀ n, cholesky sqrt cov n ≠ .throw .dimension := by
    intro n
    induction n with
    | zero => simp [cholesky]
    | succ n ih =>
      rw [cholesky]
      cases h : cholesky sqrt cov n with
      | ok L => exact hrow L n (n + 1)
      | throw e => simp only [Outcome.bind]; rw [h] at ih; exact ih
      | ub => simp [Outcome.bind]
  unfold Gen.ofMatrix
  by_cases hc : n = 0 ∨ n > cols ∨ cols ≠ rows ∨ n > size
  · rw [if_pos hc]
    refine ⟨fun _ => ?_, fun _ => rfl⟩
    rcases hc with h | h | h | h
    · exact Or.inl h
    · exact Or.inr (Or.inl h)
    · exact Or.inr (Or.inr (Or.inl (Ne.symm h)))
    · exact Or.inr (Or.inr (Or.inr h))
  · rw [if_neg hc]
    refine ⟨fun h => ?_, fun h => ?_⟩
    · exfalso
      cases h1 : cholesky sqrt cov n with
      | ok L => rw [h1] at h; simp [Outcome.bind] at h
      | throw e =>
        rw [h1] at h
        simp only [Outcome.bind] at h
        have := hch n
        rw [h1] at this
        injection h with h
        exact this (by rw [h])
      | ub => rw [h1] at h; simp [Outcome.bind] at h
    · exfalso
      apply hc
      rcases h with h | h | h | h
      · exact Or.inl h
      · exact Or.inr (Or.inl h)
      · exact Or.inr (Or.inr (Or.inl (Ne.symm h)))
      · exact Or.inr (Or.inr (Or.inr h))

end Verif.MultiNormal
