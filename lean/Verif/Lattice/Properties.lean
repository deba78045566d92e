import Verif.Lattice.Model
import Verif.Ring.Properties
import Verif.StringPattern.Properties
import Mathlib.Tactic.Linarith
import Mathlib.Tactic.Ring

/-! # C13 to C17: beamline selection and element installation -/

namespace Verif.Lattice
open Verif

variable {α K : Type}

/-! ## Specification vocabulary -/

namespace Spec

/-- Indices, in order, of the elements with property `p` (first index `k`). -/
def occurrencesFrom (p : α → Bool) : Nat → List α → List Nat
  | _, [] => []
  | k, x :: xs => if p x then k :: occurrencesFrom p (k + 1) xs else occurrencesFrom p (k + 1) xs

/-- Indices of the elements with property `p`. -/
def occurrences (p : α → Bool) (xs : List α) : List Nat := occurrencesFrom p 0 xs

/-- Path length of a list of frames. -/
def pathLength [Field K] (fs : List (Frame K)) : K := (fs.map (·.len)).sum

end Spec
open Spec

theorem mem_occurrencesFrom {p : α → Bool} {k i : Nat} {xs : List α} :
    i ∈ occurrencesFrom p k xs ↔ k ≤ i ∧ ∃ x, xs[i - k]? = some x ∧ p x = true := by
  induction xs generalizing k with
  | nil => simp [occurrencesFrom]
  | cons x xs ih =>
    have key : (∃ y, (x :: xs)[i - k]? = some y ∧ p y = true) ∧ k ≤ i ↔
        (i = k ∧ p x = true) ∨ (k + 1 ≤ i ∧ ∃ y, xs[i - (k + 1)]? = some y ∧ p y = true) := by
      by_cases hik : i = k
      · subst hik; simp
      · by_cases hle : k ≤ i
        · obtain ⟨m, hm⟩ : ∃ m, i - k = m + 1 := ⟨i - k - 1, by omega⟩
          rw [hm, List.getElem?_cons_succ, show i - (k + 1) = m by omega]
          simp [hik, hle, show k + 1 ≤ i by omega]
        · simp [hik, hle, show ¬ k + 1 ≤ i by omega]
    rw [and_comm, key]
    unfold occurrencesFrom
    split
    · next h => rw [List.mem_cons, ih]; simp [h]
    · next h => rw [ih]; simp [h]

/-- The occurrences are exactly the positions whose element has the property. -/
theorem mem_occurrences {p : α → Bool} {i : Nat} {xs : List α} :
    i ∈ occurrences p xs ↔ ∃ x, xs[i]? = some x ∧ p x = true := by
  unfold occurrences
  rw [mem_occurrencesFrom]; simp

theorem occurrencesFrom_sorted (p : α → Bool) (k : Nat) (xs : List α) :
    (occurrencesFrom p k xs).Pairwise (· < ·) := by
  induction xs generalizing k with
  | nil => exact List.Pairwise.nil
  | cons x xs ih =>
    unfold occurrencesFrom
    split
    · refine List.Pairwise.cons ?_ (ih _)
      intro j hj
      have := (mem_occurrencesFrom.1 hj).1
      omega
    · exact ih _

/-- ... and they are listed in increasing order. -/
theorem occurrences_sorted (p : α → Bool) (xs : List α) : (occurrences p xs).Pairwise (· < ·) :=
  occurrencesFrom_sorted p 0 xs

/-! ## C13 -/

theorem iterate_ok (n : Nat) (k : Nat) : ∀ i, i + k ≤ n →
    iterate n i (i + k) = .ok (List.range' i k) := by
  induction k with
  | zero => intro i _; rw [iterate]; simp
  | succ k ih =>
    intro i h
    rw [iterate, if_neg (by omega), if_pos (by omega), show i + (k + 1) = i + 1 + k by omega,
      ih (i + 1) (by omega)]
    simp [List.range'_succ]

theorem iterate_off (n : Nat) : ∀ k i stop, n - i = k → stop < i → iterate n i stop = .ub := by
  intro k
  induction k with
  | zero =>
    intro i stop h hlt
    rw [iterate, if_neg (by omega), if_neg (by omega)]
  | succ k ih =>
    intro i stop h hlt
    rw [iterate, if_neg (by omega), if_pos (by omega), ih (i + 1) stop (by omega) (by omega)]
    rfl

/-- C13: with `n1 ≤ n2` inside the lattice the slice is found and a loop over it sees elements
`n1, ..., n2` once each, in order; the index accessors agree. -/
theorem slice_exact (n n1 n2 : Nat) (h : n1 ≤ n2) (hn : n2 < n) :
    ∃ b, getBeamline2 n n1 n2 = .ok b ∧ b.firstI = n1 ∧ b.lastI = n2 ∧
      b.visit n = .ok (List.range' n1 (n2 + 1 - n1)) := by
  refine ⟨⟨n1, n2, n1, n2⟩, ?_, rfl, rfl, ?_⟩
  · unfold getBeamline2; rw [if_neg (by omega), if_neg (by omega)]
  · have := iterate_ok n (n2 + 1 - n1) n1 (by omega)
    rw [show n1 + (n2 + 1 - n1) = n2 + 1 by omega] at this
    exact this

/-- C13: an upper index outside the lattice is rejected, whatever the lower one. -/
theorem slice_bad_range (n n1 n2 : Nat) (h : n ≤ n2) : getBeamline2 n n1 n2 = .throw .badRange := by
  unfold getBeamline2; rw [if_pos h]

/-- C13: the whole beamline of a non-empty lattice visits every element in order. -/
theorem whole_beamline (n : Nat) (h : 0 < n) :
    ∃ b, getBeamline n = .ok b ∧ b.visit n = .ok (List.range n) ∧ b.firstI = 0 ∧ b.lastI = n - 1 := by
  refine ⟨⟨0, n - 1, 0, n - 1⟩, by unfold getBeamline; rw [if_neg (by omega)], ?_, rfl, rfl⟩
  have := iterate_ok n n 0 (by omega)
  rw [Nat.zero_add] at this
  unfold Beamline.visit
  rw [show n - 1 + 1 = n by omega, this, List.range_eq_range']

/-- The lower index is not checked: a slice with `n1 > n2 + 1` is returned without complaint and
a loop over it runs past the end of the lattice (for `n1 = n2 + 1` the loop is empty). -/
theorem slice_lower_unchecked (n n1 n2 : Nat) (h : n2 + 1 < n1) (h1 : n1 ≤ n) :
    ∃ b, getBeamline2 n n1 n2 = .ok b ∧ b.visit n = .ub := by
  refine ⟨⟨n1, n2, n1, n2⟩, ?_, iterate_off n _ n1 (n2 + 1) rfl h⟩
  unfold getBeamline2; rw [if_neg (by omega), if_neg (by omega)]

example : ∃ b, getBeamline2 5 1 3 = .ok b ∧ b.visit 5 = .ok [1, 2, 3] := by
  obtain ⟨b, h, _, _, hv⟩ := slice_exact 5 1 3 (by decide) (by decide)
  exact ⟨b, h, hv⟩

example : ∃ b, getBeamline 3 = .ok b ∧ b.visit 3 = .ok [0, 1, 2] := by
  obtain ⟨b, h, hv, _⟩ := whole_beamline 3 (by decide)
  exact ⟨b, h, hv⟩

example : ∃ b, getBeamline2 5 4 2 = .ok b ∧ b.visit 5 = .ub :=
  slice_lower_unchecked 5 4 2 (by decide) (by decide)

/-! ## C14 -/

theorem scan_found (p1 p2 : α → Bool) (n1 n2 : Nat) (xs : List α) :
    ∀ nn2 ni a i2, nn2 ≤ n2 →
    scan p1 p2 n1 n2 n1 nn2 ni (some a) i2 xs =
      (some a, if nn2 = n2 then i2 else
        match (occurrencesFrom p2 ni xs)[n2 - nn2 - 1]? with
        | some b => some b
        | none => i2) := by
  induction xs with
  | nil =>
    intro nn2 ni a i2 _
    simp [scan, occurrencesFrom]
  | cons x xs ih =>
    intro nn2 ni a i2 hle
    unfold scan
    by_cases hn : nn2 = n2
    · simp [hn]
    · rw [if_neg (by simp [hn]), if_neg (by simp)]
      simp only [Nat.lt_irrefl, false_and, if_false]
      by_cases hp : p2 x = true
      · by_cases hl : nn2 + 1 = n2
        · rw [if_pos ⟨by omega, hp, hl⟩, hl, ih n2 _ _ _ (Nat.le_refl _)]
          simp [hn, occurrencesFrom, hp, show n2 - nn2 - 1 = 0 by omega]
        · rw [if_neg (by simp [hl]), if_pos ⟨by omega, hp⟩, ih _ _ _ _ (by omega), if_neg hl,
            if_neg hn]
          simp only [occurrencesFrom, hp, if_true]
          rw [show n2 - nn2 - 1 = (n2 - (nn2 + 1) - 1) + 1 by omega, List.getElem?_cons_succ]
      · rw [if_neg (by simp [hp]), if_neg (by simp [hp]), ih _ _ _ _ hle]
        simp only [occurrencesFrom, hp, if_false, Bool.false_eq_true]

theorem filter_fresh (p : α → Bool) (a ni : Nat) (xs : List α) (h : a < ni) :
    (occurrencesFrom p ni xs).filter (fun i => decide (i ≠ a)) = occurrencesFrom p ni xs := by
  apply List.filter_eq_self.2
  intro i hi
  have := (mem_occurrencesFrom.1 hi).1
  simp; omega

theorem scan_main (p1 p2 : α → Bool) (n1 n2 : Nat) (xs : List α) :
    ∀ nn1 nn2 ni i2, nn1 < n1 → nn2 ≤ n2 →
    (scan p1 p2 n1 n2 nn1 nn2 ni none i2 xs).1 = (occurrencesFrom p1 ni xs)[n1 - nn1 - 1]? ∧
    ∀ a, (occurrencesFrom p1 ni xs)[n1 - nn1 - 1]? = some a →
      (scan p1 p2 n1 n2 nn1 nn2 ni none i2 xs).2 = (if nn2 = n2 then i2 else
        match ((occurrencesFrom p2 ni xs).filter (fun i => decide (i ≠ a)))[n2 - nn2 - 1]? with
        | some b => some b
        | none => i2) := by
  induction xs with
  | nil => intro nn1 nn2 ni i2 _ _; simp [scan, occurrencesFrom]
  | cons x xs ih =>
    intro nn1 nn2 ni i2 h1 h2
    have hne : ¬ (nn1 = n1 ∧ nn2 = n2) := by omega
    by_cases hp1 : p1 x = true ∧ nn1 + 1 = n1
    · -- the first iterator is found here
      have e : scan p1 p2 n1 n2 nn1 nn2 ni none i2 (x :: xs) =
          scan p1 p2 n1 n2 n1 nn2 (ni + 1) (some ni) i2 xs := by
        rw [scan, if_neg hne, if_pos ⟨h1, hp1⟩, hp1.2]
      rw [e, scan_found _ _ _ _ _ _ _ _ _ h2]
      have e0 : n1 - nn1 - 1 = 0 := by omega
      have o1 : (occurrencesFrom p1 ni (x :: xs))[n1 - nn1 - 1]? = some ni := by
        simp [occurrencesFrom, hp1.1, e0]
      rw [o1]
      refine ⟨rfl, ?_⟩
      intro a ha
      injection ha with ha
      subst ha
      have o2 : (occurrencesFrom p2 ni (x :: xs)).filter (fun i => decide (i ≠ ni)) =
          occurrencesFrom p2 (ni + 1) xs := by
        have hf := filter_fresh p2 ni (ni + 1) xs (by omega)
        by_cases hp : p2 x = true
        · simp only [occurrencesFrom, hp, if_true, List.filter_cons]
          simpa using hf
        · simpa [occurrencesFrom, hp] using hf
      rw [o2]
    · -- it is not
      have hcond : ¬ (nn1 < n1 ∧ p1 x = true ∧ nn1 + 1 = n1) := fun hc => hp1 hc.2
      obtain ⟨nn1', hnn1, hlt, hocc⟩ : ∃ nn1', (if nn1 < n1 ∧ p1 x = true then nn1 + 1 else nn1) = nn1' ∧
          nn1' < n1 ∧ (occurrencesFrom p1 ni (x :: xs))[n1 - nn1 - 1]? =
            (occurrencesFrom p1 (ni + 1) xs)[n1 - nn1' - 1]? := by
        by_cases hp : p1 x = true
        · have hl : nn1 + 1 ≠ n1 := fun hc => hp1 ⟨hp, hc⟩
          refine ⟨nn1 + 1, by simp [hp, h1], by omega, ?_⟩
          simp only [occurrencesFrom, hp, if_true]
          rw [show n1 - nn1 - 1 = (n1 - (nn1 + 1) - 1) + 1 by omega, List.getElem?_cons_succ]
        · exact ⟨nn1, by simp [hp], h1, by simp [occurrencesFrom, hp]⟩
      rw [hocc]
      have hgt : ∀ a, (occurrencesFrom p1 (ni + 1) xs)[n1 - nn1' - 1]? = some a → ni < a := by
        intro a ha
        have := (mem_occurrencesFrom.1 (List.mem_of_getElem? ha)).1
        omega
      by_cases hp2 : nn2 < n2 ∧ p2 x = true
      · -- the second pattern counts this element
        have hfil : ∀ a, ni < a → (occurrencesFrom p2 ni (x :: xs)).filter (fun i => decide (i ≠ a)) =
            ni :: (occurrencesFrom p2 (ni + 1) xs).filter (fun i => decide (i ≠ a)) := by
          intro a ha
          simp only [occurrencesFrom, hp2.2, if_true]
          rw [List.filter_cons, if_pos (by simp; omega)]
        by_cases hl : nn2 + 1 = n2
        · have e : scan p1 p2 n1 n2 nn1 nn2 ni none i2 (x :: xs) =
              scan p1 p2 n1 n2 nn1' n2 (ni + 1) none (some ni) xs := by
            rw [scan, if_neg hne, if_neg hcond]
            simp only [hnn1]
            rw [if_pos ⟨hp2.1, hp2.2, hl⟩, hl]
          rw [e]
          obtain ⟨a1, a2⟩ := ih nn1' n2 (ni + 1) (some ni) hlt (Nat.le_refl _)
          refine ⟨a1, ?_⟩
          intro a ha
          rw [a2 a ha, hfil a (hgt a ha), if_pos rfl, if_neg (by omega)]
          simp [show n2 - nn2 - 1 = 0 by omega]
        · have e : scan p1 p2 n1 n2 nn1 nn2 ni none i2 (x :: xs) =
              scan p1 p2 n1 n2 nn1' (nn2 + 1) (ni + 1) none i2 xs := by
            rw [scan, if_neg hne, if_neg hcond]
            simp only [hnn1]
            rw [if_neg (by simp [hl]), if_pos hp2]
          rw [e]
          obtain ⟨a1, a2⟩ := ih nn1' (nn2 + 1) (ni + 1) i2 hlt (by omega)
          refine ⟨a1, ?_⟩
          intro a ha
          rw [a2 a ha, hfil a (hgt a ha), if_neg hl, if_neg (by omega)]
          rw [show n2 - nn2 - 1 = (n2 - (nn2 + 1) - 1) + 1 by omega, List.getElem?_cons_succ]
      · have e : scan p1 p2 n1 n2 nn1 nn2 ni none i2 (x :: xs) =
            scan p1 p2 n1 n2 nn1' nn2 (ni + 1) none i2 xs := by
          rw [scan, if_neg hne, if_neg hcond]
          simp only [hnn1]
          rw [if_neg (fun hc => hp2 ⟨hc.1, hc.2.1⟩), if_neg hp2]
        rw [e]
        obtain ⟨a1, a2⟩ := ih nn1' nn2 (ni + 1) i2 hlt h2
        refine ⟨a1, ?_⟩
        intro a ha
        rw [a2 a ha]
        by_cases hn : nn2 = n2
        · rw [if_pos hn, if_pos hn]
        · have hp : ¬ p2 x = true := fun hc => hp2 ⟨by omega, hc⟩
          rw [if_neg hn, if_neg hn]
          simp only [occurrencesFrom, hp, if_false, Bool.false_eq_true]

/-- C14, what the function computes: it starts at the `n1`-th occurrence of the first pattern and
ends at the `n2`-th occurrence of the second pattern *not counting the start element*;
`BadRange` is thrown exactly when one of the two does not exist. -/
theorem pattern_beamline_characterised (p1 p2 : α → Bool) (n1 n2 : Nat) (xs : List α)
    (h1 : 1 ≤ n1) (h2 : 1 ≤ n2) :
    getBeamlineP p1 p2 n1 n2 xs =
      match (occurrences p1 xs)[n1 - 1]? with
      | none => .throw .badRange
      | some a =>
        match ((occurrences p2 xs).filter (fun i => decide (i ≠ a)))[n2 - 1]? with
        | none => .throw .badRange
        | some b => .ok ⟨a, b, a, b⟩ := by
  unfold getBeamlineP occurrences
  rw [if_neg (by omega)]
  obtain ⟨a1, a2⟩ := scan_main p1 p2 n1 n2 xs 0 0 0 none (by omega) (by omega)
  simp only [Nat.sub_zero] at a1 a2
  generalize scan p1 p2 n1 n2 0 0 0 none none xs = r at a1 a2
  obtain ⟨r1, r2⟩ := r
  simp only at a1 a2
  subst a1
  cases ha : (occurrencesFrom p1 0 xs)[n1 - 1]? with
  | none => rfl
  | some a =>
    have := a2 a ha
    rw [if_neg (by omega)] at this
    rw [this]
    simp only
    cases ((occurrencesFrom p2 0 xs).filter (fun i => decide (i ≠ a)))[n2 - 1]? with
    | none => rfl
    | some b => rfl

theorem sorted_split {l : List Nat} (hs : l.Pairwise (· < ·)) {k b a : Nat} (hb : l[k]? = some b)
    (hlt : b < a) : (l.filter (fun i => decide (i ≠ a)))[k]? = some b := by
  induction l generalizing k with
  | nil => simp at hb
  | cons x l ih =>
    have hx := List.pairwise_cons.1 hs
    cases k with
    | zero =>
      simp only [List.getElem?_cons_zero, Option.some.injEq] at hb
      subst hb
      rw [List.filter_cons, if_pos (by simp; omega)]; rfl
    | succ k =>
      rw [List.getElem?_cons_succ] at hb
      have : x < b := hx.1 b (List.mem_of_getElem? hb)
      rw [List.filter_cons, if_pos (by simp; omega), List.getElem?_cons_succ]
      exact ih hx.2 hb

/-- C14 (partial; missing: a start element that also matches the second pattern and lies before
its `n2`-th occurrence, see `pattern_beamline_violated`, and the rejection of an end before the
start, see `pattern_beamline_reversed`). If the `n1`-th occurrence of the first pattern does not
match the second pattern, or the `n2`-th occurrence of the second pattern comes earlier, the
beamline runs between precisely these two occurrences. -/
theorem pattern_beamline_partial (p1 p2 : α → Bool) (n1 n2 : Nat) (xs : List α)
    (h1 : 1 ≤ n1) (h2 : 1 ≤ n2) (a b : Nat)
    (ha : (occurrences p1 xs)[n1 - 1]? = some a) (hb : (occurrences p2 xs)[n2 - 1]? = some b)
    (hs : a ∉ occurrences p2 xs ∨ b < a) :
    getBeamlineP p1 p2 n1 n2 xs = .ok ⟨a, b, a, b⟩ := by
  rw [pattern_beamline_characterised p1 p2 n1 n2 xs h1 h2, ha]
  simp only
  have : ((occurrences p2 xs).filter (fun i => decide (i ≠ a)))[n2 - 1]? = some b := by
    rcases hs with hs | hs
    · rw [List.filter_eq_self.2, hb]
      intro i hi
      simp only [ne_eq, decide_eq_true_eq]
      rintro rfl
      exact hs hi
    · exact sorted_split (occurrences_sorted p2 xs) hb hs
  rw [this]

/-- C14: `BadRange` is thrown when an occurrence does not exist. -/
theorem pattern_beamline_bad_range (p1 p2 : α → Bool) (n1 n2 : Nat) (xs : List α)
    (h1 : 1 ≤ n1) (h2 : 1 ≤ n2)
    (h : (occurrences p1 xs).length < n1 ∨ (occurrences p2 xs).length < n2) :
    getBeamlineP p1 p2 n1 n2 xs = .throw .badRange := by
  rw [pattern_beamline_characterised p1 p2 n1 n2 xs h1 h2]
  rcases h with h | h
  · rw [List.getElem?_eq_none (by omega)]
  · cases (occurrences p1 xs)[n1 - 1]? with
    | none => rfl
    | some a =>
      have hl := List.length_filter_le (fun i => decide (i ≠ a)) (occurrences p2 xs)
      simp only
      rw [List.getElem?_eq_none (by omega)]

/-- Frames named `M.Q1`, `M.D`, `M.Q2` of length one, for examples. -/
def exFrame (type name : String) (len : K) (drift : Bool) : Frame K :=
  ⟨(type ++ "." ++ name).toList, true, type.toList, name.toList, drift, len, len, 0⟩

def exLine : List (Frame Nat) :=
  [exFrame "Quad" "q1" 1 false, exFrame "Drift" "d" 1 true, exFrame "Quad" "q2" 1 false]

/-- C14 is violated when the start element also matches the second pattern: `GetBeamline("Quad.q1",
"Quad.*")` does not end at the first `Quad.*` but at the second, and `GetBeamline("Quad.q1",
"Quad.q1")` throws although both occurrences exist. -/
theorem pattern_beamline_violated :
    (occurrences (fun f : Frame Nat => StringPattern.matchStr "Quad.*".toList f.id) exLine) = [0, 2] ∧
    getBeamlinePat exLine "Quad.q1".toList "Quad.*".toList 1 1 = .ok ⟨0, 2, 0, 2⟩ ∧
    getBeamlinePat exLine "Quad.q1".toList "Quad.q1".toList 1 1 = .throw .badRange := by
  refine ⟨by decide +kernel, by decide +kernel, by decide +kernel⟩

/-- C14: an end before the start is not rejected; the result is a beamline marked reversed that
cannot be iterated. -/
theorem pattern_beamline_reversed :
    getBeamlinePat exLine "Quad.q2".toList "Quad.q1".toList 1 1 = .ok ⟨2, 0, 2, 0⟩ ∧
    Beamline.visit 3 ⟨2, 0, 2, 0⟩ = .ub := by
  refine ⟨by decide +kernel, iterate_off 3 _ 2 1 rfl (by decide)⟩

example : getBeamlinePat exLine "Drift.*".toList "Quad.*".toList 1 2 = .ok ⟨1, 2, 1, 2⟩ :=
  pattern_beamline_partial _ _ 1 2 exLine (by decide) (by decide) 1 2 (by decide +kernel)
    (by decide +kernel) (Or.inl (by decide +kernel))

/-! ## C15 -/

/-- C15: `GetRing(n)` with `n` inside the lattice gives an iterator that sees every frame exactly
once, in lattice order starting at frame `n`, and is back at `n` after one turn. -/
theorem ring_full_turn (xs : List α) (n : Nat) (h : n < xs.length) :
    ∃ p, getRing xs.length n = .ok p ∧
      Ring.walk (Ring.inc xs.length) xs xs.length p = .ok (xs.drop n ++ xs.take n, p) := by
  refine ⟨n, ?_, Ring.full_turn xs n h⟩
  unfold getRing
  rw [if_pos (by omega)]
  simp

/-- Start indices outside the lattice are not rejected: one past the end gives an iterator whose
first use is undefined, anything else is undefined at once. -/
theorem ring_outside (xs : List α) :
    (∃ p, getRing xs.length xs.length = .ok p ∧ Ring.deref xs p = .ub ∧
      Ring.inc xs.length p = .ub) ∧
    (∀ n : Int, n < 0 ∨ (xs.length : Int) < n → getRing xs.length n = .ub) := by
  refine ⟨⟨xs.length, ?_, ?_, ?_⟩, ?_⟩
  · unfold getRing; rw [if_pos (by omega)]; simp
  · simp [Ring.deref]
  · simp [Ring.inc, Ring.rawInc]
  · intro n h; unfold getRing; rw [if_neg (by omega)]

example : ∃ p, getRing 4 2 = .ok p ∧
    Ring.walk (Ring.inc 4) ["a", "b", "c", "d"] 4 p = .ok (["c", "d", "a", "b"], p) :=
  ring_full_turn ["a", "b", "c", "d"] 2 (by decide)

/-! ## C16 -/

/-- C16 is violated: for a lattice of two frames the loop over the reversed beamline is empty, for
three or more it runs past the end. -/
theorem reversed_beamline_violated (n : Nat) :
    (∃ b, getReversedBeamline 2 = .ok b ∧ b.visit 2 = .ok []) ∧
    (3 ≤ n → ∃ b, getReversedBeamline n = .ok b ∧ b.visit n = .ub) := by
  constructor
  · exact ⟨⟨1, 0, 1, 0⟩, rfl, by unfold Beamline.visit; rw [iterate]; rfl⟩
  · intro h
    refine ⟨⟨n - 1, 0, n - 1, 0⟩, by unfold getReversedBeamline; rw [if_neg (by omega)], ?_⟩
    exact iterate_off n _ (n - 1) 1 rfl (by omega)

/-- C16 (partial; the full claim is that every non-empty lattice is visited backwards, which fails
by `reversed_beamline_violated`): a lattice of one frame is visited once, the ends and the
direction flag are right for every non-empty lattice. -/
theorem reversed_beamline_partial (n : Nat) (h : 0 < n) :
    ∃ b, getReversedBeamline n = .ok b ∧ b.firstI = n - 1 ∧ b.lastI = 0 ∧
      (b.isReversed = true ↔ 1 < n) ∧ (n = 1 → b.visit n = .ok [0]) := by
  refine ⟨⟨n - 1, 0, n - 1, 0⟩, by unfold getReversedBeamline; rw [if_neg (by omega)], rfl, rfl, ?_, ?_⟩
  · simp [Beamline.isReversed]
  · rintro rfl
    exact iterate_ok 1 1 0 (by omega)

example : ∃ b, getReversedBeamline 5 = .ok b ∧ b.isReversed = true := by
  obtain ⟨b, h, _, _, hr, _⟩ := reversed_beamline_partial 5 (by decide)
  exact ⟨b, h, hr.2 (by decide)⟩

/-! ## C56: selecting components by pattern -/

theorem star_matches (s : Str) : StringPattern.matchStr "*".toList s = true := by
  rw [StringPattern.match_iff_glob_of_trailing_star _ _ (by decide) (by decide)]
  exact (StringPattern.glob_star [] s).2 ⟨s, [], by simp, .nil⟩

/-- C56: `ExtractComponents` returns exactly the frames whose component name matches, in beamline
order, also for the pattern `*`. -/
theorem extract_is_filter (xs : List (Frame K)) (pat : Str) :
    extractComponents xs pat = xs.filter (fun f => StringPattern.matchStr pat f.qualified) := by
  unfold extractComponents
  split
  · next h => subst h; simp only [star_matches]; exact (List.filter_eq_self.2 fun _ _ => rfl).symm
  · rfl

theorem getIndexesLoop_eq (pat : Str) (n0 : Nat) (fs : List (Frame K)) :
    getIndexesLoop pat n0 fs =
      occurrencesFrom (fun f => f.isComponent && StringPattern.matchStr pat f.qualified) n0 fs := by
  induction fs generalizing n0 with
  | nil => rfl
  | cons f fs ih => unfold getIndexesLoop occurrencesFrom; rw [ih]

/-- C56: `GetIndexes` over a slice returns, in increasing order, exactly the lattice positions
inside the slice whose frame holds a component with a matching name. -/
theorem indexes_exact (xs : List (Frame K)) (n1 n2 : Nat) (h : n1 ≤ n2) (hn : n2 < xs.length)
    (pat : Str) :
    ∃ b is, getBeamline2 xs.length n1 n2 = .ok b ∧ getIndexes xs b pat = .ok is ∧
      is.Pairwise (· < ·) ∧
      ∀ i, i ∈ is ↔ n1 ≤ i ∧ i ≤ n2 ∧ ∃ f, xs[i]? = some f ∧ f.isComponent = true ∧
        StringPattern.matchStr pat f.qualified = true := by
  obtain ⟨b, hb, h1, h2, hv⟩ := slice_exact xs.length n1 n2 h hn
  have hbe : b = ⟨n1, n2, n1, n2⟩ := by
    unfold getBeamline2 at hb
    rw [if_neg (by omega), if_neg (by omega)] at hb
    injection hb with hb
    exact hb.symm
  subst hbe
  refine ⟨_, _, hb, by unfold getIndexes; rw [hv]; rfl, ?_, ?_⟩
  · rw [getIndexesLoop_eq]; exact occurrencesFrom_sorted _ _ _
  · intro i
    rw [getIndexesLoop_eq, mem_occurrencesFrom]
    simp only [List.length_range', List.getElem?_take, List.getElem?_drop, Bool.and_eq_true]
    constructor
    · rintro ⟨hle, f, hf, hp⟩
      split at hf
      · next hlt =>
        rw [show n1 + (i - n1) = i by omega] at hf
        exact ⟨hle, by omega, f, hf, hp⟩
      · cases hf
    · rintro ⟨hle, hle2, f, hf, hp⟩
      refine ⟨hle, f, ?_, hp⟩
      rw [if_pos (by omega), show n1 + (i - n1) = i by omega]
      exact hf

/-! ## C17 -/

variable [Field K] [LinearOrder K] [IsStrictOrderedRing K]

theorem findAt_some {at_ : K} {fs : List (Frame K)} : ∀ {i0 : Nat} {s0 : K} {i : Nat} {s : K}
    {f : Frame K}, findAt at_ i0 s0 fs = some (i, s, f) →
    ∃ pre post, fs = pre ++ f :: post ∧ i = i0 + pre.length ∧
      s = s0 + pathLength pre + f.len ∧ at_ < s ∧
      (pre ≠ [] → s0 + pathLength pre ≤ at_) := by
  induction fs with
  | nil => intro i0 s0 i s f h; simp [findAt] at h
  | cons g fs ih =>
    intro i0 s0 i s f h
    unfold findAt at h
    simp only at h
    split at h
    · next hgt =>
      simp only [Option.some.injEq, Prod.mk.injEq] at h
      obtain ⟨rfl, rfl, rfl⟩ := h
      exact ⟨[], fs, rfl, by simp, by simp [pathLength], hgt, by simp⟩
    · next hgt =>
      obtain ⟨pre, post, e1, e2, e3, e4, e5⟩ := ih h
      refine ⟨g :: pre, post, by rw [e1]; rfl, by rw [e2]; simp; omega, ?_, e4, ?_⟩
      · rw [e3]; simp [pathLength]; ring
      · intro _
        by_cases hp : pre = []
        · subst hp; simpa [pathLength] using hgt
        · have := e5 hp
          simp only [pathLength, List.map_cons, List.sum_cons] at this ⊢
          linarith

omit [LinearOrder K] [IsStrictOrderedRing K] in
theorem pathLength_append (a b : List (Frame K)) :
    pathLength (a ++ b) = pathLength a + pathLength b := by
  simp [pathLength]

omit [Field K] [LinearOrder K] [IsStrictOrderedRing K] in
theorem insert_spare (grow : Nat → Nat) (pre rest : List (Frame K)) (cap buf : Nat) (x : Frame K)
    (hc : (pre ++ rest).length < cap) :
    Vec.insert grow ⟨pre ++ rest, cap, buf⟩ ⟨buf, pre.length⟩ x =
      .ok ⟨pre ++ x :: rest, cap, buf⟩ := by
  unfold Vec.insert
  rw [if_neg (by simp), if_pos hc]
  simp

/-- C17 (partial; missing: a full vector, see `install_violated`, a position before the start, see
`install_negative`, and elements with a length, which the function refuses). If a zero-length
element is installed at `at_ ≥ 0` and the vector has spare capacity, the call succeeds only by
replacing one drift by two drifts of the same total length with the element between them at path
length `at_`; all other frames stay, in order. -/
theorem install_partial (grow : Nat → Nat) (v v' : Vec (Frame K)) (e : Frame K) (at_ : K)
    (hcap : v.items.length < v.cap) (hat : 0 ≤ at_) (h : install grow v e at_ = .ok v') :
    ∃ pre d d1 e' d2 post, v.items = pre ++ d :: post ∧ v'.items = pre ++ d1 :: e' :: d2 :: post ∧
      d.isDrift = true ∧ d1.isDrift = true ∧ d2.isDrift = true ∧
      e'.name = e.name ∧ e'.type = e.type ∧ e'.len = 0 ∧
      pathLength (pre ++ [d1]) = at_ ∧ e'.pos = at_ ∧ d2.pos = at_ ∧ d1.pos = pathLength pre ∧
      0 ≤ d1.len ∧ 0 < d2.len ∧ d1.len + d2.len = d.len ∧
      pathLength v'.items = pathLength v.items := by
  unfold install at h
  split at h
  · cases h
  · next hlen =>
    have hlen : e.len = 0 := by simpa using hlen
    cases hf : findAt at_ 0 0 v.items with
    | none => rw [hf] at h; cases h
    | some r =>
      obtain ⟨i, s, f⟩ := r
      rw [hf] at h
      simp only at h
      split at h
      swap
      · cases h
      · next hd =>
        obtain ⟨pre, post, e1, e2, e3, e4, e5⟩ := findAt_some hf
        rw [Nat.zero_add] at e2
        rw [zero_add] at e3 e5
        subst e2
        have hit : v.items.eraseIdx pre.length = pre ++ post := by
          rw [e1, List.eraseIdx_append_of_length_le (Nat.le_refl _)]; simp
        have hl : v.items.length = pre.length + post.length + 1 := by rw [e1]; simp; omega
        simp only [Vec.erase, hit] at h
        rw [insert_spare _ _ _ _ _ _ (by simp; omega)] at h
        simp only [Outcome.bind_ok] at h
        rw [insert_spare _ _ _ _ _ _ (by simp; omega)] at h
        simp only [Outcome.bind_ok] at h
        have hv : v'.items = pre ++ newDrift (f.name ++ "_part1".toList) (at_ - s + f.len)
            (at_ - (at_ - s + f.len)) :: { e with pos := at_, index := 0 } ::
            newDrift (f.name ++ "_part2".toList) (s - at_) at_ :: post := by
          unfold Vec.insert at h
          rw [if_neg (by simp)] at h
          simp only [List.take_left, List.drop_left] at h
          split at h
          · injection h with h; rw [← h]
          · injection h with h; rw [← h]
        have hpre : pathLength pre ≤ at_ := by
          by_cases hp : pre = []
          · subst hp; simpa [pathLength] using hat
          · exact e5 hp
        refine ⟨pre, f, _, _, _, post, e1, hv, hd, rfl, rfl, rfl, rfl, hlen, ?_, rfl, rfl, ?_, ?_, ?_,
          ?_, ?_⟩
        · rw [pathLength_append]
          simp only [pathLength, newDrift, List.map_cons, List.map_nil, List.sum_cons,
            List.sum_nil] at e3 ⊢
          linarith
        · simp only [newDrift]; linarith
        · simp only [newDrift]; linarith
        · simp only [newDrift]; linarith
        · simp only [newDrift]; ring
        · rw [hv, e1, pathLength_append, pathLength_append]
          simp only [pathLength, newDrift, List.map_cons, List.sum_cons, hlen]
          ring

/-- C17, when the call succeeds: position inside the lattice and the element found there is a
drift. -/
theorem install_succeeds (grow : Nat → Nat) (v : Vec (Frame K)) (e d : Frame K)
    (pre post : List (Frame K)) (at_ : K) (hcap : v.items.length < v.cap) (he : e.len = 0)
    (hv : v.items = pre ++ d :: post) (hd : d.isDrift = true)
    (hpos : ∀ f ∈ pre, 0 ≤ f.len)
    (h1 : pathLength pre ≤ at_) (h2 : at_ < pathLength pre + d.len) :
    ∃ v', install grow v e at_ = .ok v' := by
  have hfind : ∀ (pre : List (Frame K)) (i0 : Nat) (s0 : K), (∀ f ∈ pre, 0 ≤ f.len) →
      s0 + pathLength pre ≤ at_ → at_ < s0 + pathLength pre + d.len →
      findAt at_ i0 s0 (pre ++ d :: post) =
        some (i0 + pre.length, s0 + pathLength pre + d.len, d) := by
    intro pre
    induction pre with
    | nil =>
      intro i0 s0 _ h1 h2
      simp only [pathLength, List.map_nil, List.sum_nil, add_zero] at h1 h2
      simp [findAt, h2, pathLength]
    | cons f pre ih =>
      intro i0 s0 hp h1 h2
      have hnn : 0 ≤ pathLength pre := by
        have : ∀ l : List (Frame K), (∀ f ∈ l, 0 ≤ f.len) → 0 ≤ pathLength l := by
          intro l
          induction l with
          | nil => intro _; simp [pathLength]
          | cons g l ihl =>
            intro hl
            have a := hl g (by simp)
            have b := ihl fun x hx => hl x (by simp [hx])
            simp only [pathLength, List.map_cons, List.sum_cons] at b ⊢
            linarith
        exact this pre fun x hx => hp x (by simp [hx])
      have e : pathLength (f :: pre) = f.len + pathLength pre := by simp [pathLength]
      rw [e] at h1 h2 ⊢
      show findAt at_ i0 s0 (f :: (pre ++ d :: post)) = _
      unfold findAt
      simp only
      rw [if_neg (by simp only [gt_iff_lt, not_lt]; linarith),
        ih _ _ (fun x hx => hp x (by simp [hx])) (by linarith) (by linarith)]
      simp only [List.length_cons, Option.some.injEq, Prod.mk.injEq, and_true]
      exact ⟨by omega, by ring⟩
  have hf := hfind pre 0 0 hpos (by linarith) (by linarith)
  rw [← hv] at hf
  unfold install
  rw [if_neg (by simpa using he), hf]
  simp only [hd, if_true, Vec.erase, Nat.zero_add]
  have hl : v.items.length = pre.length + post.length + 1 := by rw [hv]; simp; omega
  have hit : v.items.eraseIdx pre.length = pre ++ post := by
    rw [hv, List.eraseIdx_append_of_length_le (Nat.le_refl _)]; simp
  rw [hit]
  rw [insert_spare _ _ _ _ _ _ (by simp; omega)]
  simp only [Outcome.bind_ok]
  rw [insert_spare _ _ _ _ _ _ (by simp; omega)]
  simp only [Outcome.bind_ok]
  unfold Vec.insert
  rw [if_neg (by simp)]
  simp only [List.take_left, List.drop_left]
  split
  · exact ⟨_, rfl⟩
  · exact ⟨_, rfl⟩

/-- A marker (zero length) for the examples. -/
def exMarker : Frame ℚ := exFrame "Marker" "m" 0 false

def exRatLine : List (Frame ℚ) := [exFrame "Quad" "q" 1 false, exFrame "Drift" "d" 4 true]

/-- C17 is violated: when the vector is full, the second insertion moves it to a new buffer and the third
one uses a dangling iterator. -/
theorem install_violated :
    install (fun c => 2 * c) ⟨exRatLine, 2, 0⟩ exMarker 3 = .ub := by
  decide +kernel

/-- C17: a negative position is accepted and creates a drift of negative length. -/
theorem install_negative : ∃ v', install (fun c => 2 * c)
    ⟨[exFrame "Drift" "d" 4 true], 8, 0⟩ exMarker (-1) = .ok v' ∧
    v'.items.map (·.len) = [-1, 0, 5] :=
  Outcome.exists_ok (by decide +kernel)

/-- Installation leaves the beamline indices of the frames behind it unchanged, and gives the new
frames index 0: afterwards indices and positions disagree. -/
theorem install_stale_index : ∃ v', install (fun c => 2 * c)
    ⟨[{ exFrame "Drift" "d" 4 true with index := 0 }, { exFrame "Quad" "q" 1 false with index := 1 }],
      8, 0⟩ exMarker 3 = .ok v' ∧ v'.items.map (·.index) = [0, 0, 0, 1] :=
  Outcome.exists_ok (by decide +kernel)

example : ∃ v', install (fun c => 2 * c) ⟨exRatLine, 8, 0⟩ exMarker 3 = .ok v' :=
  install_succeeds _ ⟨exRatLine, 8, 0⟩ exMarker (exFrame "Drift" "d" 4 true)
    [exFrame "Quad" "q" 1 false] [] 3 (by decide) rfl rfl rfl
    (by simp [exFrame]) (by simp [pathLength, exFrame])
    (by simp [pathLength, exFrame]; norm_num)

#print axioms slice_exact
#print axioms slice_bad_range
#print axioms whole_beamline
#print axioms slice_lower_unchecked
#print axioms pattern_beamline_characterised
#print axioms pattern_beamline_partial
#print axioms pattern_beamline_bad_range
#print axioms pattern_beamline_violated
#print axioms pattern_beamline_reversed
#print axioms ring_full_turn
#print axioms ring_outside
#print axioms reversed_beamline_violated
#print axioms reversed_beamline_partial
#print axioms extract_is_filter
#print axioms indexes_exact
#print axioms install_partial
#print axioms install_succeeds
#print axioms install_violated
#print axioms install_negative
#print axioms install_stale_index

end Verif.Lattice
