import Mathlib.Tactic.Ring
import Mathlib.Tactic.FieldSimp
import Mathlib.Tactic.LinearCombination
import Mathlib.Tactic.IntervalCases
import Mathlib.Data.List.Perm.Subperm
import Verif.LinMap.Spec

/-!
# Lemmas on covariance matrices and linear maps
-/

set_option linter.unusedSectionVars false

namespace Verif.LinMap
open Verif Verif.LinMap.Spec

/-! ## Offsets -/

/-- Triangular numbers. -/
def tri (n : Nat) : Nat := (n * (n + 1)) / 2

theorem tri_succ (n : Nat) : tri (n + 1) = tri n + n + 1 := by
  have : (n + 1) * (n + 1 + 1) = n * (n + 1) + 2 * (n + 1) := by ring
  rw [tri, tri, this]
  omega

theorem tri_mono (a b : Nat) (h : a < b) : tri a + a + 1 ≤ tri b := by
  induction b with
  | zero => omega
  | succ b ih =>
    rw [tri_succ]
    by_cases hab : a = b
    · subst hab; omega
    · have := ih (by omega)
      omega

theorem off_eq (i j : Nat) : off i j = min i j + tri (max i j) := by
  rw [off]
  split
  · rw [Nat.min_eq_right (by omega), Nat.max_eq_left (by omega)]; rfl
  · rw [Nat.min_eq_left (by omega), Nat.max_eq_right (by omega)]; rfl

theorem off_comm (i j : Nat) : off i j = off j i := by
  rw [off_eq, off_eq, Nat.min_comm, Nat.max_comm]

theorem off1_eq (i : Nat) : off1 i = off i i := by
  have : i * (i + 3) = i * (i + 1) + 2 * i := by ring
  rw [off1, off_eq, Nat.min_self, Nat.max_self, tri, this]
  omega

/-- Two cells share a place only if they are the same up to order. -/
theorem off_inj (i j k l : Nat) : off i j = off k l ↔ (i = k ∧ j = l) ∨ (i = l ∧ j = k) := by
  constructor
  · intro h
    rw [off_eq, off_eq] at h
    have hmax : max i j = max k l := by
      rcases Nat.lt_trichotomy (max i j) (max k l) with hlt | heq | hgt
      · have := tri_mono _ _ hlt
        omega
      · exact heq
      · have := tri_mono _ _ hgt
        omega
    rw [hmax] at h
    omega
  · rintro (⟨rfl, rfl⟩ | ⟨rfl, rfl⟩)
    · rfl
    · exact off_comm _ _

theorem off_lt (n i j : Nat) (hi : i < n) (hj : j < n) : off i j < tri n := by
  rw [off_eq]
  have := tri_mono (max i j) n (by omega)
  omega

/-- Every place of the array belongs to a cell. -/
theorem off_surj (n : Nat) : ∀ k < tri n, ∃ i j, i ≤ j ∧ j < n ∧ off i j = k := by
  induction n with
  | zero => intro k hk; simp [tri] at hk
  | succ n ih =>
    intro k hk
    rw [tri_succ] at hk
    by_cases h : k < tri n
    · obtain ⟨i, j, h1, h2, h3⟩ := ih k h
      exact ⟨i, j, h1, by omega, h3⟩
    · refine ⟨k - tri n, n, by omega, by omega, ?_⟩
      rw [off_eq, Nat.min_eq_left (by omega), Nat.max_eq_right (by omega)]
      omega

section
variable {K : Type} [Field K]

/-! ## Sums -/

theorem sumTo_zero (n : Nat) : sumTo n (fun _ => (0 : K)) = 0 := by
  simp [sumTo]

theorem sumTo_add (n : Nat) (f g : Nat → K) : sumTo n (fun k => f k + g k) = sumTo n f + sumTo n g := by
  simp only [sumTo, List.sum_map_add]

theorem lsum_mul_left {α : Type} (a : K) (f : α → K) : ∀ l : List α, (l.map (fun n => a * f n)).sum = a * (l.map f).sum
  | [] => by simp
  | n :: l => by rw [List.map_cons, List.sum_cons, lsum_mul_left a f l, List.map_cons, List.sum_cons, mul_add]

theorem sumTo_mul_left (n : Nat) (a : K) (f : Nat → K) : sumTo n (fun k => a * f k) = a * sumTo n f :=
  lsum_mul_left a f _

theorem sumTo_single (n : Nat) (a : Nat) (ha : a < n) (f : Nat → K) :
    sumTo n (fun k => if k = a then f k else 0) = f a := by
  have key : ∀ n, sumTo n (fun k => if k = a then f k else 0) = if a < n then f a else 0 := by
    intro n
    induction n with
    | zero => simp [sumTo]
    | succ n ih =>
      rw [sumTo, List.range_succ, List.map_append, List.sum_append]
      rw [sumTo] at ih
      rw [ih]
      by_cases h : n = a
      · subst h
        simp
      · simp only [List.map_cons, List.map_nil, List.sum_cons, List.sum_nil, if_neg h, add_zero]
        by_cases h2 : a < n
        · rw [if_pos h2, if_pos (by omega)]
        · rw [if_neg h2, if_neg (by omega)]
  rw [key n, if_pos ha]

theorem lsum_comm {α β : Type} (f : α → β → K) (l2 : List β) : ∀ l1 : List α,
    (l1.map (fun a => (l2.map (f a)).sum)).sum = (l2.map (fun b => (l1.map (fun a => f a b)).sum)).sum
  | [] => by simp
  | a :: l1 => by
    rw [List.map_cons, List.sum_cons, lsum_comm f l2 l1, ← List.sum_map_add]
    rfl

/-! ## The matrix of a list of terms -/

theorem mat_cons (t : Rij K) (m : Map K) (i j : Nat) :
    mat (t :: m) i j = (if i = t.i ∧ j = t.j then t.val else 0) + mat m i j := by
  by_cases h : t.i = i ∧ t.j = j
  · have : i = t.i ∧ j = t.j := ⟨h.1.symm, h.2.symm⟩
    simp [mat, h]
  · have : ¬ (i = t.i ∧ j = t.j) := fun h' => h ⟨h'.1.symm, h'.2.symm⟩
    rw [if_neg this, zero_add, mat, List.filter_cons_of_neg (by simpa using h)]
    rfl

theorem mat_nil (i j : Nat) : mat ([] : Map K) i j = 0 := rfl

/-- A sum over the terms of a row as a product of the matrix. -/
theorem row_sum (n : Nat) (i : Nat) (g : Nat → K) : ∀ (m : Map K),
    (m.map (fun t => if t.i = i ∧ t.j < n then t.val * g t.j else 0)).sum = sumTo n (fun j => mat m i j * g j)
  | [] => by simp [mat_nil, sumTo]
  | t :: m => by
    rw [List.map_cons, List.sum_cons, row_sum n i g m]
    have hsplit : sumTo n (fun j => mat (t :: m) i j * g j) =
        sumTo n (fun j => if j = t.j then (if t.i = i then t.val * g j else 0) else 0) + sumTo n (fun j => mat m i j * g j) := by
      rw [← sumTo_add]
      congr 1
      funext j
      rw [mat_cons]
      by_cases hj : j = t.j
      · subst hj
        by_cases hi : t.i = i
        · simp [hi]; ring
        · simp [hi, Ne.symm hi]
      · simp [hj]
    rw [hsplit]
    congr 1
    by_cases hj : t.j < n
    · rw [sumTo_single n t.j hj (fun j => if t.i = i then t.val * g j else 0)]
      simp [hj]
    · have hz : sumTo n (fun j => if j = t.j then (if t.i = i then t.val * g j else 0) else 0) = 0 := by
        apply List.sum_eq_zero
        intro v hv
        obtain ⟨j, hjm, rfl⟩ := List.mem_map.1 hv
        rw [List.mem_range] at hjm
        have hne : j ≠ t.j := by omega
        simp [hne]
      rw [hz]
      simp [hj]

/-! ## Vectors -/

theorem applyLoop_eq (x : Nat → K) : ∀ (m : Map K) (y : Nat → K), Within 6 m →
    ∃ y', applyLoop x m y = .ok y' ∧
      ∀ i, y' i = y i + (m.map (fun t => if t.i = i ∧ t.j < 6 then t.val * x t.j else 0)).sum
  | [], y, _ => ⟨y, rfl, fun i => by simp⟩
  | t :: m, y, h => by
    have ht := h t (by simp)
    obtain ⟨y', h1, h2⟩ := applyLoop_eq x m (upd y t.i (y t.i + t.val * x t.j)) (fun s hs => h s (by simp [hs]))
    refine ⟨y', ?_, ?_⟩
    · rw [applyLoop, applyTerm, if_pos ht]
      exact h1
    · intro i
      rw [h2 i, List.map_cons, List.sum_cons, upd]
      by_cases hi : i = t.i
      · subst hi
        simp [ht.2]
        ring
      · simp [hi, Ne.symm hi]

/-! ## Covariance -/

theorem sig_comm (n : Nat) (c : Cov K) (i j : Nat) : sig n c i j = sig n c j i := by
  simp only [sig, off_comm i j, and_comm]

theorem sig_setSig (n : Nat) (c : Cov K) (i j k l : Nat) (v : K) (hk : k < n) (hl : l < n) :
    sig n (setSig c i j v) k l = if (k = i ∧ l = j) ∨ (k = j ∧ l = i) then v else sig n c k l := by
  simp only [sig, setSig, upd, hk, hl, and_self, if_true, off_inj]

/-- What a pair of terms adds to a cell. -/
def pairTo (n : Nat) (s : Cov K) (i j : Nat) (t1 t2 : Rij K) : K :=
  if t1.i = i ∧ t2.i = j ∧ t1.j < n ∧ t2.j < n then t1.val * t2.val * sig n s t1.j t2.j else 0

theorem pairTo_swap (n : Nat) (s : Cov K) (i j : Nat) (t1 t2 : Rij K) : pairTo n s i j t1 t2 = pairTo n s j i t2 t1 := by
  simp only [pairTo]
  rw [sig_comm n s t1.j t2.j, mul_comm t1.val t2.val]
  by_cases h : t1.i = i ∧ t2.i = j ∧ t1.j < n ∧ t2.j < n
  · rw [if_pos h, if_pos ⟨h.2.1, h.1, h.2.2.2, h.2.2.1⟩]
  · rw [if_neg h, if_neg (fun h' => h ⟨h'.2.1, h'.1, h'.2.2.2, h'.2.2.1⟩)]

variable [NeZero (2 : K)]

theorem sig_map2nd (n : Nat) (res s : Cov K) (t1 t2 : Rij K) (i j : Nat) (hi : i < n) (hj : j < n) :
    sig n (map2nd n res t1 t2 s) i j =
      sig n res i j + (if i = j then pairTo n s i j t1 t2 else (pairTo n s i j t1 t2 + pairTo n s j i t1 t2) / 2) := by
  rw [map2nd]
  by_cases h : t1.i < n ∧ t2.i < n ∧ t1.j < n ∧ t2.j < n
  · obtain ⟨h1, h2, h3, h4⟩ := h
    rw [if_pos ⟨h1, h2, h3, h4⟩]
    dsimp only
    rw [sig_setSig n _ _ _ _ _ _ hi hj]
    by_cases he : (i = t1.i ∧ j = t2.i) ∨ (i = t2.i ∧ j = t1.i)
    · rw [if_pos he]
      have hs : sig n res t1.i t2.i = sig n res i j := by
        rcases he with ⟨rfl, rfl⟩ | ⟨rfl, rfl⟩
        · rfl
        · exact sig_comm ..
      rw [hs]
      congr 1
      by_cases hd : t1.i = t2.i
      · have hij : i = j := by rcases he with ⟨rfl, rfl⟩ | ⟨rfl, rfl⟩ <;> simp [hd]
        subst hij
        have hi1 : t1.i = i := by rcases he with ⟨h, _⟩ | ⟨_, h⟩ <;> exact h.symm
        have hi2 : t2.i = i := hd ▸ hi1
        simp [pairTo, hd, hi1, hi2, h3, h4]
      · rw [if_neg hd]
        have hij : i ≠ j := by
          rintro rfl
          rcases he with ⟨h, h'⟩ | ⟨h, h'⟩ <;> exact hd (by omega)
        rw [if_neg hij]
        rcases he with ⟨rfl, rfl⟩ | ⟨rfl, rfl⟩
        · simp [pairTo, h3, h4, hd]
        · simp [pairTo, h3, h4, hd]
    · rw [if_neg he]
      have h5 : pairTo n s i j t1 t2 = 0 := if_neg (fun h => he (.inl ⟨h.1.symm, h.2.1.symm⟩))
      have h6 : pairTo n s j i t1 t2 = 0 := if_neg (fun h => he (.inr ⟨h.2.1.symm, h.1.symm⟩))
      rw [h5, h6]
      simp
  · rw [if_neg h]
    have h5 : pairTo n s i j t1 t2 = 0 := by
      rw [pairTo, if_neg]
      rintro ⟨a, b, c, d⟩
      exact h ⟨by omega, by omega, c, d⟩
    have h6 : pairTo n s j i t1 t2 = 0 := by
      rw [pairTo, if_neg]
      rintro ⟨a, b, c, d⟩
      exact h ⟨by omega, by omega, c, d⟩
    rw [h5, h6]
    simp

/-- What a pair adds, symmetrised. -/
def share (n : Nat) (s : Cov K) (i j : Nat) (t1 t2 : Rij K) : K :=
  if i = j then pairTo n s i j t1 t2 else (pairTo n s i j t1 t2 + pairTo n s j i t1 t2) / 2

theorem covInner_eq (n : Nat) (s : Cov K) (t1 : Rij K) (i j : Nat) (hi : i < n) (hj : j < n) : ∀ (m : Map K) (res : Cov K),
    sig n (covInner n s t1 m res) i j = sig n res i j + (m.map (share n s i j t1)).sum
  | [], res => by simp [covInner]
  | t2 :: m, res => by
    rw [covInner, covInner_eq n s t1 i j hi hj m, sig_map2nd n res s t1 t2 i j hi hj, List.map_cons, List.sum_cons,
      add_assoc]
    rfl

theorem covOuter_eq (n : Nat) (s : Cov K) (all : Map K) (i j : Nat) (hi : i < n) (hj : j < n) :
    ∀ (m : Map K) (res : Cov K), sig n (covOuter n s all m res) i j =
      sig n res i j + (m.map (fun t1 => (all.map (share n s i j t1)).sum)).sum
  | [], res => by simp [covOuter]
  | t1 :: m, res => by
    rw [covOuter, covOuter_eq n s all i j hi hj m, covInner_eq n s t1 i j hi hj, List.map_cons, List.sum_cons, add_assoc]

theorem half_sum {α : Type} (f : α → K) (l : List α) : (l.map (fun a => f a / 2)).sum = (l.map f).sum / 2 := by
  simp only [div_eq_inv_mul]
  exact lsum_mul_left _ f l

theorem share_sum (n : Nat) (s : Cov K) (m : Map K) (i j : Nat) :
    (m.map (fun t1 => (m.map (share n s i j t1)).sum)).sum = (m.map (fun t1 => (m.map (pairTo n s i j t1)).sum)).sum := by
  by_cases h : i = j
  · have : share n s i j = pairTo n s i j := by funext a b; simp [share, h]
    rw [this]
  · have h1 : ∀ t1, (m.map (share n s i j t1)).sum =
        ((m.map (pairTo n s i j t1)).sum + (m.map (pairTo n s j i t1)).sum) / 2 := by
      intro t1
      rw [← List.sum_map_add, ← half_sum]
      congr 2
      funext t2
      simp [share, h]
    have h2 : (m.map (fun t1 => (m.map (pairTo n s j i t1)).sum)).sum =
        (m.map (fun t1 => (m.map (pairTo n s i j t1)).sum)).sum := by
      rw [lsum_comm]
      congr 2
      funext t1
      congr 2
      funext t2
      exact pairTo_swap n s j i t2 t1
    simp only [h1]
    rw [half_sum, List.sum_map_add, h2]
    exact add_self_div_two _

theorem pair_sum (n : Nat) (s : Cov K) (m : Map K) (i j : Nat) :
    (m.map (fun t1 => (m.map (pairTo n s i j t1)).sum)).sum = conjugate n (mat m) (sig n s) i j := by
  have h1 : ∀ t1 : Rij K, (m.map (pairTo n s i j t1)).sum =
      if t1.i = i ∧ t1.j < n then t1.val * sumTo n (fun l => mat m j l * sig n s t1.j l) else 0 := by
    intro t1
    by_cases h : t1.i = i ∧ t1.j < n
    · rw [if_pos h, ← row_sum n j (fun l => sig n s t1.j l) m, ← lsum_mul_left]
      congr 2
      funext t2
      simp only [pairTo, h.1, h.2, true_and]
      by_cases h2 : t2.i = j ∧ t2.j < n
      · rw [if_pos h2, if_pos h2]; ring
      · rw [if_neg h2, if_neg h2, mul_zero]
    · rw [if_neg h]
      apply List.sum_eq_zero
      intro v hv
      obtain ⟨t2, _, rfl⟩ := List.mem_map.1 hv
      exact if_neg (fun h' => h ⟨h'.1, h'.2.2.1⟩)
  simp only [h1]
  rw [row_sum n i (fun k => sumTo n (fun l => mat m j l * sig n s k l)) m, conjugate]
  congr 1
  funext k
  rw [← sumTo_mul_left]
  congr 1
  funext l
  ring

end

end Verif.LinMap
