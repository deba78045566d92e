import Verif.LU.Spec
import Mathlib.Algebra.BigOperators.Intervals
import Mathlib.Algebra.BigOperators.Ring.Finset
import Mathlib.Tactic.Ring
import Mathlib.Tactic.Linarith
import Mathlib.Tactic.LinearCombination
import Mathlib.Tactic.FieldSimp

/-!
# One column of the decomposition, and the substitutions
-/

set_option linter.unusedSectionVars false

namespace Verif.LU
open Finset

variable {K : Type} [Field K] [LinearOrder K] [IsStrictOrderedRing K]

theorem foldl_sub (f : Nat → K) : ∀ (l : List Nat) (s : K), l.foldl (fun s j => s - f j) s = s - (l.map f).sum
  | [], s => by simp
  | a :: l, s => by
    rw [List.foldl_cons, foldl_sub f l, List.map_cons, List.sum_cons]
    ring

theorem sum_range' (f : Nat → K) (a b : Nat) : ((List.range' a b).map f).sum = ∑ c ∈ Ico a (a + b), f c := by
  induction b with
  | zero => simp
  | succ b ih =>
    rw [List.range'_1_concat, List.map_append, List.sum_append, ih, ← Nat.add_assoc, Finset.sum_Ico_succ_top (by omega)]
    simp

/-- The reduction of one element. -/
theorem reduce_eq (m : Nat → Nat → K) (i j : Nat) : ∀ b, b ≤ i → b ≤ j →
    reduce m i j b = set m i j (m i j - ∑ k ∈ range b, m i k * m k j)
  | 0, _, _ => by
    funext r c
    simp only [reduce, List.range_zero, List.foldl_nil, set, range_zero, sum_empty, sub_zero]
    split
    · rename_i h; rw [h.1, h.2]
    · rfl
  | b + 1, hi, hj => by
    have ih := reduce_eq m i j b (by omega) (by omega)
    rw [reduce, List.range_succ, List.foldl_append]
    rw [reduce] at ih
    rw [ih]
    simp only [List.foldl_cons, List.foldl_nil]
    funext r c
    simp only [set, sum_range_succ]
    have h1 : ¬ (b = j) := by omega
    have h2 : ¬ (b = i) := by omega
    simp only [h1, h2, and_false, false_and, if_false, and_self, if_true]
    split
    · ring
    · rfl

/-- The upper part of a column. -/
theorem upper_spec (m : Nat → Nat → K) (j : Nat) : ∀ b, b ≤ j →
    (∀ r c, ¬ (c = j ∧ r < b) → upper m j b r c = m r c) ∧
    (∀ r, r < b → upper m j b r j = m r j - ∑ k ∈ range r, m r k * upper m j b k j)
  | 0, _ => ⟨fun r c _ => rfl, fun r h => absurd h (by omega)⟩
  | b + 1, hb => by
    obtain ⟨h1, h2⟩ := upper_spec m j b (by omega)
    have hu : upper m j (b + 1) = set (upper m j b) b j
        (upper m j b b j - ∑ k ∈ range b, upper m j b b k * upper m j b k j) := by
      rw [← reduce_eq _ b j b le_rfl (by omega)]
      simp only [upper, List.range_succ, List.foldl_append, List.foldl_cons, List.foldl_nil]
    have hother : ∀ r c, ¬ (r = b ∧ c = j) → upper m j (b + 1) r c = upper m j b r c := by
      intro r c h
      rw [hu, set, if_neg h]
    constructor
    · intro r c h
      rw [hother r c (fun hc => h ⟨hc.2, by omega⟩), h1 r c (fun hc => h ⟨hc.1, by omega⟩)]
    · intro r hr
      have hsum : ∀ s, s ≤ b → ∑ k ∈ range s, m r k * upper m j (b + 1) k j = ∑ k ∈ range s, m r k * upper m j b k j := by
        intro s hs
        apply sum_congr rfl
        intro k hk
        rw [mem_range] at hk
        rw [hother k j (fun hc => by omega)]
      rw [hsum r (by omega)]
      by_cases hrb : r = b
      · subst hrb
        rw [hu, set, if_pos ⟨rfl, rfl⟩, h1 r j (fun hc => by omega)]
        congr 1
        apply sum_congr rfl
        intro k hk
        rw [mem_range] at hk
        rw [h1 r k (fun hc => by omega)]
      · rw [hother r j (fun hc => hrb hc.1), h2 r (by omega)]

/-- What is known after a number of rows of the lower part. -/
structure LowInv (scale : Nat → K) (m : Nat → Nat → K) (j b : Nat) (s : Low K) : Prop where
  other : ∀ r c, ¬ (c = j ∧ j ≤ r ∧ r < j + b) → s.m r c = m r c
  value : ∀ r, j ≤ r → r < j + b → s.m r j = m r j - ∑ k ∈ range j, m r k * m k j
  found : 0 < b → ∃ p, s.imax = some p ∧ j ≤ p ∧ p < j + b ∧ s.big = scale p * |s.m p j|
  max : ∀ r, j ≤ r → r < j + b → scale r * |s.m r j| ≤ s.big
  start : b = 0 → s.big = 0

theorem lower_spec (scale : Nat → K) (hs : ∀ i, 0 ≤ scale i) (m : Nat → Nat → K) (j : Nat) : ∀ b,
    LowInv scale m j b (lower scale m j b)
  | 0 => by
    refine ⟨fun r c _ => rfl, fun r h1 h2 => absurd h2 (by omega), fun h => absurd h (by omega),
      fun r h1 h2 => absurd h2 (by omega), fun _ => rfl⟩
  | b + 1 => by
    have ih := lower_spec scale hs m j b
    have hl : lower scale m j (b + 1) = lowStep scale j (lower scale m j b) (j + b) := by
      simp only [lower, List.range'_1_concat, List.foldl_append, List.foldl_cons, List.foldl_nil]
    rw [hl]
    set s := lower scale m j b with hsdef
    have hred : reduce s.m (j + b) j j = set s.m (j + b) j (m (j + b) j - ∑ k ∈ range j, m (j + b) k * m k j) := by
      rw [reduce_eq _ _ _ _ (by omega) le_rfl]
      congr 1
      rw [ih.other (j + b) j (by omega)]
      congr 1
      apply sum_congr rfl
      intro k hk
      rw [mem_range] at hk
      rw [ih.other (j + b) k (by omega), ih.other k j (by omega)]
    have hm : ∀ r c, reduce s.m (j + b) j j r c =
        if r = j + b ∧ c = j then m (j + b) j - ∑ k ∈ range j, m (j + b) k * m k j else s.m r c := by
      intro r c
      rw [hred, set]
    have hmm : (lowStep scale j s (j + b)).m = reduce s.m (j + b) j j := by
      rw [lowStep]
      split <;> rfl
    have hbig0 : 0 ≤ s.big := by
      by_cases hb : b = 0
      · rw [ih.start hb]
      · obtain ⟨p, _, _, _, h4⟩ := ih.found (by omega)
        rw [h4]
        exact mul_nonneg (hs p) (abs_nonneg _)
    have hold : ∀ r, j ≤ r → r < j + b → reduce s.m (j + b) j j r j = s.m r j := by
      intro r h1 h2
      rw [hm, if_neg (by omega)]
    refine ⟨?_, ?_, ?_, ?_, fun h => absurd h (by omega)⟩
    · intro r c h
      rw [hmm, hm, if_neg (by omega), ih.other r c (by omega)]
    · intro r h1 h2
      rw [hmm, hm]
      by_cases hr : r = j + b
      · rw [if_pos ⟨hr, rfl⟩, hr]
      · rw [if_neg (fun h => hr h.1), ih.value r h1 (by omega)]
    · intro _
      rw [hmm]
      rw [lowStep]
      split
      · exact ⟨j + b, rfl, by omega, by omega, rfl⟩
      · rename_i hlt
        by_cases hb : b = 0
        · exfalso
          apply hlt
          rw [ih.start hb]
          exact mul_nonneg (hs _) (abs_nonneg _)
        · obtain ⟨p, h1, h2, h3, h4⟩ := ih.found (by omega)
          exact ⟨p, h1, h2, by omega, by rw [hold p h2 h3]; exact h4⟩
    · intro r h1 h2
      rw [hmm]
      rw [lowStep]
      split
      · rename_i hge
        by_cases hr : r = j + b
        · rw [hr]
        · rw [hold r h1 (by omega)]
          exact (ih.max r h1 (by omega)).trans hge
      · rename_i hlt
        by_cases hr : r = j + b
        · rw [hr]
          exact (not_le.1 hlt).le
        · rw [hold r h1 (by omega)]
          exact ih.max r h1 (by omega)

/-! ## Triangles -/

/-- The lower triangle. -/
def lo (m : Nat → Nat → K) (i k : Nat) : K := if k < i then m i k else if k = i then 1 else 0

/-- The upper triangle. -/
def up (m : Nat → Nat → K) (k c : Nat) : K := if k ≤ c then m k c else 0

/-- The first `j` columns are decomposed. -/
structure Inv (n : Nat) (a m : Nat → Nat → K) (j : Nat) : Prop where
  ready : ∀ i, i < n → ∀ c, c < j → a i c = ∑ k ∈ range j, lo m i k * up m k c
  todo : ∀ i, i < n → ∀ c, j ≤ c → c < n → m i c = a i c
  diag : ∀ c, c < j → m c c ≠ 0

theorem swapAt_lt {α : Type} (i p r : Nat) (f : Nat → α) (h1 : r ≠ i) (h2 : r ≠ p) : swapAt i p f r = f r := by
  rw [swapAt, if_neg h2, if_neg h1]

/-- Where a row comes from. -/
def src (i p r : Nat) : Nat := if r = p then i else if r = i then p else r

theorem swapAt_src {α : Type} (i p r : Nat) (f : Nat → α) : swapAt i p f r = f (src i p r) := by
  unfold swapAt src
  split
  · rfl
  · split <;> rfl

theorem src_src (i p r : Nat) : src i p (src i p r) = r := by
  unfold src
  by_cases h1 : r = p
  · subst h1
    by_cases h2 : i = r
    · simp [h2]
    · simp [h2]
  · by_cases h2 : r = i
    · subst h2; simp [h1]
    · simp [h1, h2]

theorem src_lt (n i p r : Nat) (hi : i < n) (hp : p < n) (hr : r < n) : src i p r < n := by
  unfold src
  split
  · exact hi
  · split
    · exact hp
    · exact hr

theorem src_ge (j p r : Nat) (hp : j ≤ p) (hr : j ≤ r) : j ≤ src j p r := by
  unfold src
  split
  · exact le_rfl
  · split
    · exact hp
    · exact hr

theorem src_lt_self (j p r : Nat) (hp : j ≤ p) (hr : r < j) : src j p r = r := by
  unfold src
  rw [if_neg (by omega), if_neg (by omega)]

/-! ## Back substitution -/

theorem back_ge (m : Nat → Nat → K) (n : Nat) : ∀ (i : Nat) (v : Nat → K) (r : Nat), i ≤ r → back m n i v r = v r
  | 0, v, r, _ => rfl
  | i + 1, v, r, h => by
    rw [back, back_ge m n i _ r (by omega), setv, if_neg (by omega)]

theorem back_spec (m : Nat → Nat → K) (n : Nat) (y : Nat → K) : ∀ (i : Nat) (v : Nat → K), i ≤ n →
    (∀ c, c < i → m c c ≠ 0) → (∀ r, r < i → v r = y r) →
    (∀ r, i ≤ r → r < n → ∑ c ∈ Ico r n, m r c * v c = y r) →
    ∀ r, r < n → ∑ c ∈ Ico r n, m r c * back m n i v c = y r
  | 0, v, _, _, _, h => fun r hr => h r (by omega) hr
  | i + 1, v, hi, hd, hv, h => by
    rw [back]
    set x := (List.range' (i + 1) (n - (i + 1))).foldl (fun sum j => sum - m i j * v j) (v i) / m i i with hx
    have hx' : m i i * x = y i - ∑ c ∈ Ico (i + 1) n, m i c * v c := by
      rw [hx, foldl_sub (fun j => m i j * v j), sum_range', Nat.add_sub_cancel' hi, hv i (by omega)]
      have := hd i (by omega)
      field_simp
    refine back_spec m n y i _ (by omega) (fun c hc => hd c (by omega)) ?_ ?_
    · intro r hr
      rw [setv, if_neg (by omega), hv r (by omega)]
    · intro r h1 h2
      have hcongr : ∀ s, i < s → ∑ c ∈ Ico s n, m r c * setv v i x c = ∑ c ∈ Ico s n, m r c * v c := by
        intro s hs
        apply sum_congr rfl
        intro c hc
        rw [mem_Ico] at hc
        rw [setv, if_neg (by omega)]
      by_cases hr : r = i
      · subst hr
        rw [Finset.sum_eq_sum_Ico_succ_bot h2, hcongr (r + 1) (by omega), setv, if_pos rfl, hx']
        ring
      · rw [hcongr r (by omega)]
        exact h r (by omega) h2

/-- A triangle of which no diagonal element is zero can be solved. -/
theorem triangle (m : Nat → Nat → K) (j : Nat) (u : Nat → K) (hd : ∀ c, c < j → m c c ≠ 0) :
    ∃ y : Nat → K, ∀ k, k < j → ∑ c ∈ range j, up m k c * y c = u k := by
  refine ⟨back m j j u, fun k hk => ?_⟩
  have h := back_spec m j u j u le_rfl hd (fun r _ => rfl) (fun r h1 h2 => absurd h2 (by omega)) k hk
  rw [← h, ← Finset.sum_range_add_sum_Ico (fun c => up m k c * back m j j u c) hk.le]
  have h0 : ∑ c ∈ range k, up m k c * back m j j u c = 0 := by
    apply sum_eq_zero
    intro c hc
    rw [mem_range] at hc
    rw [up, if_neg (by omega), zero_mul]
  rw [h0, zero_add]
  apply sum_congr rfl
  intro c hc
  rw [mem_Ico] at hc
  rw [up, if_pos hc.1]

/-! ## One column -/

/-- The elements of a column before the division: all products with the columns before are taken off. -/
theorem column_pre (n j : Nat) (hj : j < n) (a m : Nat → Nat → K) (h : Inv n a m j) (scale : Nat → K)
    (hs0 : ∀ i, 0 ≤ scale i) (hs : ∀ i, i < n → 0 < scale i) :
    ∃ p, (lower scale (upper m j j) j (n - j)).imax = some p ∧ j ≤ p ∧ p < n ∧
      (∀ r c, c ≠ j → (lower scale (upper m j j) j (n - j)).m r c = m r c) ∧
      (∀ i, i < n → a i j = (∑ k ∈ range (min i j), m i k * (lower scale (upper m j j) j (n - j)).m k j) +
        (lower scale (upper m j j) j (n - j)).m i j) ∧
      ((lower scale (upper m j j) j (n - j)).m p j = 0 → ∀ i, j ≤ i → i < n →
        (lower scale (upper m j j) j (n - j)).m i j = 0) := by
  obtain ⟨u1, u2⟩ := upper_spec m j j le_rfl
  have hl := lower_spec scale hs0 (upper m j j) j (n - j)
  set l := lower scale (upper m j j) j (n - j) with hldef
  obtain ⟨p, h1, h2, h3, h4⟩ := hl.found (by omega)
  have hlow : ∀ k, k < j → l.m k j = upper m j j k j := fun k hk => hl.other k j (by omega)
  refine ⟨p, h1, h2, by omega, ?_, ?_, ?_⟩
  · intro r c hc
    rw [hl.other r c (fun hh => hc hh.1), u1 r c (fun hh => hc hh.1)]
  · intro i hi
    by_cases hij : i < j
    · rw [min_eq_left hij.le, hlow i hij, u2 i hij, ← h.todo i hi j le_rfl hj]
      have : ∑ k ∈ range i, m i k * l.m k j = ∑ k ∈ range i, m i k * upper m j j k j := by
        apply sum_congr rfl
        intro k hk
        rw [mem_range] at hk
        rw [hlow k (by omega)]
      rw [this]
      ring
    · rw [min_eq_right (by omega), hl.value i (by omega) (by omega), u1 i j (by omega), ← h.todo i hi j le_rfl hj]
      have : ∑ k ∈ range j, m i k * l.m k j = ∑ k ∈ range j, upper m j j i k * upper m j j k j := by
        apply sum_congr rfl
        intro k hk
        rw [mem_range] at hk
        rw [hlow k hk, u1 i k (by omega)]
      rw [this]
      ring
  · intro h0 i hi1 hi2
    have := hl.max i hi1 (by omega)
    rw [h4, h0, abs_zero, mul_zero] at this
    have h5 : |l.m i j| ≤ 0 := by
      by_contra hc
      rw [not_le] at hc
      exact absurd (mul_pos (hs i hi2) hc) (not_lt.2 this)
    exact abs_eq_zero.1 (le_antisymm h5 (abs_nonneg _))

theorem swapAt_if {α : Type} (j p : Nat) (f : Nat → α) : (if j ≠ p then swapAt j p f else f) = swapAt j p f := by
  split
  · rfl
  · rename_i h
    simp only [ne_eq, not_not] at h
    subst h
    funext r
    unfold swapAt
    split
    · rename_i h; rw [h]
    · rfl

/-- A sum over the columns before with the triangles. -/
theorem lo_sum (m : Nat → Nat → K) (i j : Nat) (f : Nat → K) :
    ∑ k ∈ range j, lo m i k * f k = (∑ k ∈ range (min i j), m i k * f k) + if i < j then f i else 0 := by
  induction j with
  | zero => simp
  | succ j ih =>
    rw [sum_range_succ, ih]
    rcases lt_trichotomy i j with hlt | heq | hgt
    · rw [min_eq_left hlt.le, min_eq_left (by omega), if_pos hlt, if_pos (by omega), lo, if_neg (by omega), if_neg (by omega)]
      ring
    · subst heq
      rw [min_self, min_eq_left (by omega), if_neg (by omega), if_pos (by omega), lo, if_neg (by omega), if_pos rfl]
      ring
    · rw [min_eq_right hgt.le, min_eq_right (by omega), if_neg (by omega), if_neg (by omega), sum_range_succ, lo,
        if_pos hgt]
      ring

/-- One column: an exchange of rows, and the invariant for one column more unless the pivot is zero, which can only be for a
matrix with a vector in its kernel. -/
theorem column_spec (n j : Nat) (hj : j < n) (eps : K) (a : Nat → Nat → K) (s : Fac K) (h : Inv n a s.m j)
    (hs0 : ∀ i, 0 ≤ s.scale i) (hs : ∀ i, i < n → 0 < s.scale i) (hp : j < s.pivot.length) :
    ∃ p s', column n eps s j = .ok s' ∧ j ≤ p ∧ p < n ∧ s'.pivot = s.pivot.set j p ∧
      s'.sign = (if j ≠ p then - s.sign else s.sign) ∧ (∀ i, 0 ≤ s'.scale i) ∧ (∀ i, i < n → 0 < s'.scale i) ∧
      (Inv n (swapAt j p a) s'.m (j + 1) ∨ ∃ x, Spec.Solves n a x (fun _ => 0) ∧ x j ≠ 0) := by
  obtain ⟨p, h1, h2, h3, h4, h5, h6⟩ := column_pre n j hj a s.m h s.scale hs0 hs
  rw [column]
  simp only
  rw [h1]
  simp only
  rw [if_pos hp]
  set m2 := (lower s.scale (upper s.m j j) j (n - j)).m with hm2
  refine ⟨p, _, rfl, h2, h3, rfl, rfl, ?_, ?_, ?_⟩
  · intro i
    simp only
    split
    · show 0 ≤ if i = p then s.scale j else s.scale i
      split
      · exact hs0 j
      · exact hs0 i
    · exact hs0 i
  · intro i hi
    simp only
    split
    · show 0 < if i = p then s.scale j else s.scale i
      split
      · exact hs j hj
      · exact hs i hi
    · exact hs i hi
  · simp only [swapAt_if]
    by_cases h0 : m2 p j = 0
    · right
      have hz := h6 h0
      obtain ⟨y, hy⟩ := triangle s.m j (fun k => m2 k j) h.diag
      refine ⟨fun c => if c = j then 1 else if c < j then - y c else 0, ?_, by simp⟩
      intro i hi
      have hcut : ∑ c ∈ range n, a i c * (if c = j then 1 else if c < j then - y c else 0) =
          a i j - ∑ c ∈ range j, a i c * y c := by
        rw [← Finset.sum_range_add_sum_Ico _ hj.le, Finset.sum_eq_sum_Ico_succ_bot hj]
        have e1 : ∑ c ∈ range j, a i c * (if c = j then 1 else if c < j then - y c else 0) = - ∑ c ∈ range j, a i c * y c := by
          rw [← Finset.sum_neg_distrib]
          apply sum_congr rfl
          intro c hc
          rw [mem_range] at hc
          rw [if_neg (by omega), if_pos hc]
          ring
        have e2 : ∑ c ∈ Ico (j + 1) n, a i c * (if c = j then 1 else if c < j then - y c else 0) = 0 := by
          apply sum_eq_zero
          intro c hc
          rw [mem_Ico] at hc
          rw [if_neg (by omega), if_neg (by omega), mul_zero]
        rw [e1, e2, if_pos rfl]
        ring
      rw [hcut]
      have e3 : ∑ c ∈ range j, a i c * y c = ∑ k ∈ range j, lo s.m i k * m2 k j := by
        have : ∀ c ∈ range j, a i c * y c = ∑ k ∈ range j, lo s.m i k * (up s.m k c * y c) := by
          intro c hc
          rw [mem_range] at hc
          rw [h.ready i hi c hc, Finset.sum_mul]
          exact sum_congr rfl fun k _ => by ring
        rw [sum_congr rfl this, Finset.sum_comm]
        apply sum_congr rfl
        intro k hk
        rw [mem_range] at hk
        rw [← Finset.mul_sum, hy k hk]
      rw [e3, lo_sum, h5 i hi]
      by_cases hij : i < j
      · rw [if_pos hij]; ring
      · rw [if_neg hij, hz i (by omega) hi]; ring
    · left
      set m3 := swapAt j p m2 with hm3
      have hjj : m3 j j = m2 p j := by
        rw [hm3, swapAt_src]
        unfold src
        by_cases hjp : j = p
        · simp [hjp]
        · simp [hjp]
      have hfix : fixPivot eps j m3 = m3 := by
        rw [fixPivot, if_neg (by rw [hjj]; exact h0)]
      rw [hfix]
      have hdiv : ∀ r c, divide j m3 r c = if c = j ∧ j < r then m3 r c * (1 / m3 j j) else m3 r c := fun r c => rfl
      have hne : m3 j j ≠ 0 := by rw [hjj]; exact h0
      -- the column before the division, with the exchanged rows
      have hcol : ∀ i, i < n → swapAt j p a i j = (∑ k ∈ range (min i j), m3 i k * m3 k j) + m3 i j := by
        intro i hi
        rw [swapAt_src, h5 _ (src_lt n j p i hj h3 hi)]
        have hmin : min (src j p i) j = min i j := by
          by_cases hij : i < j
          · rw [src_lt_self j p i h2 hij]
          · have := src_ge j p i h2 (by omega)
            omega
        rw [hmin]
        congr 1
        · apply sum_congr rfl
          intro k hk
          rw [mem_range] at hk
          have hkj : k < j := by omega
          rw [hm3, swapAt_src, swapAt_src, src_lt_self j p k h2 hkj, h4 _ k (by omega)]
        · rw [hm3, swapAt_src]
      constructor
      · intro i hi c hc
        by_cases hcj : c = j
        · subst hcj
          rw [hcol i hi, lo_sum]
          by_cases hic : i < c + 1
          · rw [min_eq_left (by omega), min_eq_left (by omega), if_pos hic]
            congr 1
            · apply sum_congr rfl
              intro k hk
              rw [mem_range] at hk
              rw [up, if_pos (by omega), hdiv, hdiv, if_neg (by omega), if_neg (by omega)]
            · rw [up, if_pos (by omega), hdiv, if_neg (by omega)]
          · rw [min_eq_right (by omega), min_eq_right (by omega), if_neg hic, sum_range_succ, add_zero]
            congr 1
            · apply sum_congr rfl
              intro k hk
              rw [mem_range] at hk
              rw [up, if_pos (by omega), hdiv, hdiv, if_neg (by omega), if_neg (by omega)]
            · rw [up, if_pos le_rfl, hdiv, hdiv, if_pos ⟨rfl, by omega⟩, if_neg (by omega)]
              field_simp
        · have hcj' : c < j := by omega
          rw [swapAt_src, h.ready _ (src_lt n j p i hj h3 hi) c hcj', sum_range_succ]
          have hlast : up (divide j m3) j c = 0 := by rw [up, if_neg (by omega)]
          rw [hlast, mul_zero, add_zero]
          apply sum_congr rfl
          intro k hk
          rw [mem_range] at hk
          by_cases hkc : k ≤ c
          · have hup : up (divide j m3) k c = up s.m k c := by
              rw [up, up, if_pos hkc, if_pos hkc, hdiv, if_neg (by omega), hm3, swapAt_src, src_lt_self j p k h2 hk, h4 k c hcj]
            rw [hup]
            congr 1
            have hval : divide j m3 i k = s.m (src j p i) k := by
              rw [hdiv, if_neg (by omega), hm3, swapAt_src, h4 _ k (by omega)]
            by_cases hij : i < j
            · rw [src_lt_self j p i h2 hij] at hval ⊢
              unfold lo
              rw [hval]
            · have := src_ge j p i h2 (by omega)
              unfold lo
              rw [if_pos (by omega), if_pos (by omega), hval]
          · have e1 : up s.m k c = 0 := by rw [up, if_neg hkc]
            have e2 : up (divide j m3) k c = 0 := by rw [up, if_neg hkc]
            rw [e1, e2, mul_zero, mul_zero]
      · intro i hi c hc1 hc2
        rw [hdiv, if_neg (by omega), hm3, swapAt_src, swapAt_src, h4 _ c (by omega),
          h.todo _ (src_lt n j p i hj h3 hi) c (by omega) hc2]
      · intro c hc
        by_cases hcj : c = j
        · subst hcj
          rw [hdiv, if_neg (by omega)]
          exact hne
        · rw [hdiv, if_neg (by omega), hm3, swapAt_src, src_lt_self j p c h2 (by omega), h4 c c hcj]
          exact h.diag c (by omega)

end Verif.LU
