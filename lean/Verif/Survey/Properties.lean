import Verif.Survey.Spec
import Mathlib.Tactic.Ring
import Mathlib.Tactic.Linarith
import Mathlib.Tactic.NormNum
import Mathlib.Tactic.FieldSimp
import Mathlib.Tactic.Positivity
import Mathlib.Algebra.Order.Ring.Rat
import Mathlib.Algebra.Field.Rat
import Mathlib.Data.Rat.Floor

/-!
# Properties of the survey of apertures (C146, C147)
-/

set_option linter.unusedSectionVars false

namespace Verif.Survey
open Verif

variable {K : Type} [Field K] [LinearOrder K] [IsStrictOrderedRing K] [FloorRing K]

/-! ## The search for the edge -/

/-- After `n` rounds the interval is `2 ^ n` times shorter. -/
theorem scan_ends (inside : K → Bool) (delta : K) : ∀ (n : Nat) (below above : K), above - below ≤ 2 ^ n * delta →
    ∃ r, scan inside delta n below above = some r
  | 0, below, above, h => by
    refine ⟨(below, above), ?_⟩
    rw [scan, if_neg]
    simp only [pow_zero, one_mul] at h
    exact not_lt.2 h
  | n + 1, below, above, h => by
    rw [scan]
    rw [pow_succ] at h
    split
    · simp only
      split
      · exact scan_ends inside delta n _ _ (by linarith)
      · exact scan_ends inside delta n _ _ (by linarith)
    · exact ⟨_, rfl⟩

/-- What the loop finds: a short interval between a point inside and one outside, or an end of the range. -/
theorem scan_spec (inside : K → Bool) (delta lo hi : K) : ∀ (n : Nat) (below above : K) (r : K × K),
    lo ≤ below → below ≤ above → above ≤ hi → (below = lo ∨ inside below = true) → (above = hi ∨ inside above = false) →
    scan inside delta n below above = some r →
    lo ≤ r.1 ∧ r.1 ≤ r.2 ∧ r.2 ≤ hi ∧ r.2 - r.1 ≤ delta ∧ (r.1 = lo ∨ inside r.1 = true) ∧ (r.2 = hi ∨ inside r.2 = false)
  | 0, below, above, r, h1, h2, h3, h4, h5, h => by
    rw [scan] at h
    split at h
    · exact absurd h (by simp)
    · rename_i hd
      simp only [Option.some.injEq] at h
      subst h
      exact ⟨h1, h2, h3, not_lt.1 hd, h4, h5⟩
  | n + 1, below, above, r, h1, h2, h3, h4, h5, h => by
    rw [scan] at h
    split at h
    · simp only at h
      split at h
      · rename_i hi'
        exact scan_spec inside delta lo hi n _ _ r (by linarith) (by linarith) h3 (Or.inr hi') h5 h
      · rename_i hi'
        exact scan_spec inside delta lo hi n _ _ r h1 (by linarith) (by linarith) h4 (Or.inr (by simpa using hi')) h
    · rename_i hd
      simp only [Option.some.injEq] at h
      subst h
      exact ⟨h1, h2, h3, not_lt.1 hd, h4, h5⟩

/-- C146: if the edge of the opening is at a distance between zero and one in a direction, the survey finds it to half a
micrometre. -/
theorem limit_spec (ap : Ap K) (s : K) (d : K × K) (r : K) (h0 : 0 ≤ r) (h1 : r ≤ 1) (he : Spec.Edge ap s d r) :
    |limit ap s d - r| ≤ 1 / 2000000 := by
  obtain ⟨q, hq⟩ := scan_ends (fun g => ap (d.1 * g) (d.2 * g) s) (1 / 1000000 : K) 20 0 1 (by norm_num)
  obtain ⟨a1, a2, a3, a4, a5, a6⟩ := scan_spec (fun g => ap (d.1 * g) (d.2 * g) s) (1 / 1000000 : K) 0 1 20 0 1 q le_rfl
    zero_le_one le_rfl (Or.inl rfl) (Or.inl rfl) hq
  have hlow : q.1 ≤ r := by
    rcases a5 with h | h
    · rw [h]; exact h0
    · by_contra hc
      have := (he q.1 a1).2 (not_le.1 hc)
      rw [this] at h
      exact absurd h (by simp)
  have hup : r ≤ q.2 := by
    rcases a6 with h | h
    · rw [h]; exact h1
    · by_contra hc
      have := (he q.2 (a1.trans a2)).1 (not_le.1 hc)
      rw [this] at h
      exact absurd h (by simp)
  have hl : limit ap s d = (q.2 + q.1) / 2 := by simp only [limit, hq]
  rw [hl, abs_le]
  constructor <;> linarith

/-- An opening which has no edge up to one is given as one, to half a micrometre. -/
theorem limit_open (ap : Ap K) (s : K) (d : K × K) (h : ∀ a, 0 ≤ a → a ≤ 1 → ap (d.1 * a) (d.2 * a) s = true) :
    1 - 1 / 2000000 ≤ limit ap s d ∧ limit ap s d ≤ 1 := by
  obtain ⟨q, hq⟩ := scan_ends (fun g => ap (d.1 * g) (d.2 * g) s) (1 / 1000000 : K) 20 0 1 (by norm_num)
  obtain ⟨a1, a2, a3, a4, a5, a6⟩ := scan_spec (fun g => ap (d.1 * g) (d.2 * g) s) (1 / 1000000 : K) 0 1 20 0 1 q le_rfl
    zero_le_one le_rfl (Or.inl rfl) (Or.inl rfl) hq
  have hup : q.2 = 1 := by
    rcases a6 with h' | h'
    · exact h'
    · rw [h q.2 (a1.trans a2) a3] at h'
      exact absurd h' (by simp)
  have hl : limit ap s d = (q.2 + q.1) / 2 := by simp only [limit, hq]
  rw [hl]
  constructor <;> linarith

/-- The four limits are those to the right, to the left, above and below. -/
theorem checkAperture_spec (ap : Ap K) (s px mx py my : K) (hb : ∀ r ∈ [px, mx, py, my], 0 ≤ r ∧ r ≤ 1)
    (h1 : Spec.Edge ap s (1, 0) px) (h2 : Spec.Edge ap s (-1, 0) mx) (h3 : Spec.Edge ap s (0, 1) py)
    (h4 : Spec.Edge ap s (0, -1) my) :
    List.Forall₂ (fun a r => |a - r| ≤ 1 / 2000000) (checkAperture ap s) [px, mx, py, my] := by
  simp only [List.mem_cons, List.not_mem_nil, or_false, forall_eq_or_imp, forall_eq] at hb
  obtain ⟨b1, b2, b3, b4⟩ := hb
  exact .cons (limit_spec ap s _ px b1.1 b1.2 h1) (.cons (limit_spec ap s _ mx b2.1 b2.2 h2)
    (.cons (limit_spec ap s _ py b3.1 b3.2 h3) (.cons (limit_spec ap s _ my b4.1 b4.2 h4) .nil)))

/-! ## Places -/

/-- C147: points per element: that many places, from the entrance to the exit with equal distances. -/
theorem points_spec (step s last len : K) (n : Nat) (hn : ⌊step⌋₊ = n) (h2 : 2 ≤ n) :
    (points .pointsPerElement step s last len).1 = (List.range n).map fun k : Nat => (k : K) / ((n : K) - 1) * len := by
  have hr : List.range n = 0 :: List.range' 1 (n - 1) := by
    rw [List.range_eq_range']
    obtain ⟨m, rfl⟩ : ∃ m, n = m + 1 := ⟨n - 1, by omega⟩
    rw [List.range'_succ]; rfl
  simp only [points, hn, hr, List.map_cons, Nat.cast_zero, zero_div, zero_mul]
  congr 1
  apply List.map_congr_left
  intro k _
  ring

theorem points_ends (len : K) (n : Nat) (h2 : 2 ≤ n) :
    ((List.range n).map fun k : Nat => (k : K) / ((n : K) - 1) * len).getLast? = some len := by
  obtain ⟨m, rfl⟩ : ∃ m, n = m + 2 := ⟨n - 2, by omega⟩
  rw [List.range_succ, List.map_append, List.map_singleton, List.getLast?_concat]
  have : ((m : K) + 1) ≠ 0 := by positivity
  push_cast
  congr 1
  rw [show ((m : K) + 2 - 1) = m + 1 by ring, div_self this, one_mul]

theorem upTo_eq (step len : K) (hs : 0 < step) : ∀ (n k : Nat), len < (k + n : Nat) * step →
    upTo step len n (k * step) = ((List.range' k n).filter fun j : Nat => decide ((j : K) * step ≤ len)).map fun j : Nat => (j : K) * step
  | 0, k, h => by simp [upTo]
  | n + 1, k, h => by
    rw [upTo, List.range'_succ, List.filter_cons]
    by_cases hk : (k : K) * step ≤ len
    · rw [if_pos hk, if_pos (by simpa using hk)]
      have e : (k : K) * step + step = ((k + 1 : Nat) : K) * step := by push_cast; ring
      rw [e, upTo_eq step len hs n (k + 1) (by rw [show k + 1 + n = k + (n + 1) by omega]; exact h)]
      rfl
    · rw [if_neg hk, if_neg (by simpa using hk)]
      have : (List.range' (k + 1) n).filter (fun j : Nat => decide ((j : K) * step ≤ len)) = [] := by
        rw [List.filter_eq_nil_iff]
        intro j hj
        rw [List.mem_range'_1] at hj
        simp only [decide_eq_true_eq, not_le]
        have h1 : (k : K) ≤ j := by exact_mod_cast (by omega : k ≤ j)
        exact lt_of_lt_of_le (not_le.1 hk) (mul_le_mul_of_nonneg_right h1 hs.le)
      rw [this]; rfl

theorem floor_bound (a step : K) (hs : 0 < step) : a < ((⌊a / step⌋₊ : K) + 1) * step := by
  have := Nat.lt_floor_add_one (a / step)
  rwa [div_lt_iff₀ hs] at this

/-- C147 (partial): distances within the element: all multiples of the step which are in the element, and its end.  What
is missing is that no place is there twice (`distance_violated`). -/
theorem distance_partial (step s last len : K) (hs : 0 < step) (hl : 0 < len) :
    (points .distance step s last len).1 =
      ((List.range (⌊len / step⌋₊ + 1)).map fun j : Nat => (j : K) * step) ++ [len] ∧
    (∀ j : Nat, (j : K) * step ≤ len ↔ j ≤ ⌊len / step⌋₊) := by
  have hj : ∀ j : Nat, (j : K) * step ≤ len ↔ j ≤ ⌊len / step⌋₊ := by
    intro j
    rw [Nat.le_floor_iff (by positivity), le_div_iff₀ hs]
  refine ⟨?_, hj⟩
  have hb := floor_bound len step hs
  have h := upTo_eq step len hs (⌊len / step⌋₊ + 2) 0 (by
    push_cast
    nlinarith)
  simp only [Nat.cast_zero, zero_mul] at h
  simp only [points, h]
  congr 2
  rw [List.range_eq_range', show ⌊len / step⌋₊ + 2 = (⌊len / step⌋₊ + 1) + 1 by omega, List.range'_concat, List.filter_append]
  have h1 : (List.range' 0 (⌊len / step⌋₊ + 1)).filter (fun j : Nat => decide ((j : K) * step ≤ len)) =
      List.range' 0 (⌊len / step⌋₊ + 1) := by
    rw [List.filter_eq_self]
    intro j hj'
    rw [List.mem_range'_1] at hj'
    simp only [decide_eq_true_eq]
    exact (hj j).2 (by omega)
  have h2 : [0 + 1 * (⌊len / step⌋₊ + 1)].filter (fun j : Nat => decide ((j : K) * step ≤ len)) = [] := by
    rw [List.filter_eq_nil_iff]
    intro j hj'
    simp only [List.mem_singleton] at hj'
    simp only [decide_eq_true_eq]
    intro hc
    have := (hj j).1 hc
    omega
  rw [h1, h2, List.append_nil]

/-- C147 (violated): the exit of an element whose length is a multiple of the step is there twice. -/
theorem distance_violated (step s last : K) (hs : 0 < step) (m : Nat) (hm : 0 < m) :
    ∃ l, (points .distance step s last (m * step)).1 = l ++ [m * step, m * step] := by
  have hm' : (0 : K) < m := by exact_mod_cast hm
  have h := (distance_partial step s last (m * step) hs (by positivity)).1
  have hf : ⌊(m : K) * step / step⌋₊ = m := by
    rw [mul_div_assoc, div_self hs.ne', mul_one, Nat.floor_natCast]
  rw [h, hf, List.range_succ, List.map_append, List.map_singleton]
  exact ⟨(List.range m).map fun j : Nat => (j : K) * step, by simp⟩

/-- The loop from the place `k step` on. -/
theorem onwards_eq (step s len : K) (hs : 0 < step) : ∀ (n k : Nat), s + len ≤ ((k + n : Nat) : K) * step →
    ∃ m, k ≤ m ∧ (onwards step s len n ((k : K) * step - step)) =
      ((List.range' k (m - k)).map (fun j : Nat => (j : K) * step - s), (m : K) * step - step) ∧
      (s + len ≤ (m : K) * step) ∧ (∀ j, k ≤ j → j < m → (j : K) * step < s + len)
  | 0, k, h => ⟨k, le_rfl, by simp [onwards], by simpa using h, fun j h1 h2 => by omega⟩
  | n + 1, k, h => by
    rw [onwards]
    by_cases hc : (k : K) * step - step + step < s + len
    · rw [if_pos hc]
      have e : (k : K) * step - step + step = ((k + 1 : Nat) : K) * step - step := by push_cast; ring
      obtain ⟨m, h1, h2, h3, h4⟩ := onwards_eq step s len hs n (k + 1) (by rw [show k + 1 + n = k + (n + 1) by omega]; exact h)
      refine ⟨m, by omega, ?_, h3, ?_⟩
      · rw [e, h2]
        have : m - k = (m - (k + 1)) + 1 := by omega
        rw [this, List.range'_succ, List.map_cons]
        simp only [Prod.mk.injEq, and_true]
        congr 1
        push_cast; ring
      · intro j hj1 hj2
        by_cases hjk : j = k
        · rw [hjk]; linarith
        · exact h4 j (by omega) hj2
    · rw [if_neg hc]
      refine ⟨k, le_rfl, by simp, by linarith [not_lt.1 hc], fun j h1 h2 => by omega⟩

/-- One element in the mode of absolute distances. -/
theorem abs_step (step s len : K) (hs : 0 < step) (k : Nat) (hk : (k : K) * step < s + len + step) :
    ∃ m, k ≤ m ∧ points .absDistance step s ((k : K) * step - step) len =
      ((List.range' k (m - k)).map (fun j : Nat => (j : K) * step - s), (m : K) * step - step) ∧
      s + len ≤ (m : K) * step ∧ ∀ j, k ≤ j → j < m → (j : K) * step < s + len := by
  have hb := floor_bound (s + len - ((k : K) * step - step)) step hs
  refine onwards_eq step s len hs _ k ?_
  push_cast
  nlinarith

theorem range'_split (a b c : Nat) (h1 : a ≤ b) (h2 : b ≤ c) :
    List.range' a (c - a) = List.range' a (b - a) ++ List.range' b (c - b) := by
  have e : c - a = (b - a) + (c - b) := by omega
  rw [e, ← List.range'_append_1]
  congr 2
  omega

/-- The whole line from the place `s` on. -/
theorem abs_loop (step : K) (hs : 0 < step) : ∀ (l : List (Elem K)) (s : K) (k : Nat) (r : List (Row K)),
    (∀ e ∈ l, 0 ≤ e.len) → s ≤ (k : K) * step → ((k : K) * step < s + step) →
    loop .absDistance step l s ((k : K) * step - step) = .ok r →
    ∃ m, k ≤ m ∧ r.map Row.s = (List.range' k (m - k)).map (fun j : Nat => (j : K) * step) ∧
      s + (l.map Elem.len).sum ≤ (m : K) * step ∧
      (∀ j, k ≤ j → j < m → (j : K) * step < s + (l.map Elem.len).sum)
  | [], s, k, r, hl, h1, h2, h => by
    simp only [loop, Outcome.ok.injEq] at h
    subst h
    exact ⟨k, le_rfl, by simp, by simpa using h1, fun j a b => by omega⟩
  | e :: l, s, k, r, hl, h1, h2, h => by
    have hl' : ∀ e ∈ l, 0 ≤ e.len := fun a ha => hl a (List.mem_cons_of_mem _ ha)
    have he := hl e List.mem_cons_self
    have hsum : 0 ≤ (l.map Elem.len).sum := by
      clear h
      induction l with
      | nil => simp
      | cons a l ih =>
        rw [List.map_cons, List.sum_cons]
        have := hl' a List.mem_cons_self
        have := ih (fun x hx => hl x (by simp only [List.mem_cons] at hx ⊢; tauto)) (fun b hb => hl' b (List.mem_cons_of_mem _ hb))
        linarith
    rw [loop] at h
    split at h
    · rename_i h0
      obtain ⟨m, a1, a2, a3, a4⟩ := abs_loop step hs l s k r hl' h1 h2 h
      exact ⟨m, a1, a2, by simpa [h0] using a3, by simpa [h0] using a4⟩
    · rename_i h0
      split at h
      · exact absurd h (by simp)
      · obtain ⟨m, a1, a2, a3, a4⟩ := abs_step step s e.len hs k (by linarith)
        rw [a2] at h
        simp only at h
        have hnext : (m : K) * step < s + e.len + step := by
          by_cases hmk : m = k
          · rw [hmk]; linarith
          · have := a4 (m - 1) (by omega) (by omega)
            have e2 : ((m - 1 : Nat) : K) = (m : K) - 1 := by
              rw [Nat.cast_sub (by omega)]; simp
            rw [e2] at this
            linarith
        cases hr : loop .absDistance step l (s + e.len) ((m : K) * step - step) with
        | ok r' =>
          rw [hr] at h
          simp only [Outcome.ok.injEq] at h
          obtain ⟨m', b1, b2, b3, b4⟩ := abs_loop step hs l (s + e.len) m r' hl' a3 hnext hr
          refine ⟨m', by omega, ?_, ?_, ?_⟩
          · rw [← h, List.map_append, b2, range'_split k m m' a1 b1, List.map_append]
            congr 1
            simp only [rows, List.map_map]
            apply List.map_congr_left
            intro j _
            simp [Function.comp]
          · simp only [List.map_cons, List.sum_cons]; linarith
          · intro j hj1 hj2
            simp only [List.map_cons, List.sum_cons]
            by_cases hjm : j < m
            · have := a4 j hj1 hjm; linarith
            · have := b4 j (by omega) hj2; linarith
        | throw e' => rw [hr] at h; exact absurd h (by simp)
        | ub => rw [hr] at h; exact absurd h (by simp)

/-- C147: absolute distances: the places of the rows are the multiples of the step which lie before the end of the line,
each once and in order, whatever the lengths of the elements. -/
theorem abs_spec (step : K) (hs : 0 < step) (l : List (Elem K)) (hl : ∀ e ∈ l, 0 ≤ e.len) (r : List (Row K))
    (h : survey .absDistance step l = .ok r) : ∃ m : Nat,
    r.map Row.s = (List.range m).map (fun j : Nat => (j : K) * step) ∧
      ∀ j : Nat, j < m ↔ (j : K) * step < (l.map Elem.len).sum := by
  simp only [survey, if_neg (not_le.2 hs)] at h
  have e : (0 : K) - step = ((0 : Nat) : K) * step - step := by simp
  rw [e] at h
  obtain ⟨m, -, a2, a3, a4⟩ := abs_loop step hs l 0 0 r hl (by simp) (by simpa using hs) h
  refine ⟨m, by rw [a2, List.range_eq_range']; rfl, fun j => ⟨fun hj => by simpa using a4 j (by omega) hj, fun hj => ?_⟩⟩
  by_contra hc
  have : (m : K) ≤ j := by exact_mod_cast not_lt.1 hc
  have := mul_le_mul_of_nonneg_right this hs.le
  linarith

/-- Every row is of an element with its place in it, in the mode of absolute distances. -/
theorem abs_within (step s len : K) (hs : 0 < step) (k : Nat) (h1 : s ≤ (k : K) * step) (hk : (k : K) * step < s + len + step) :
    ∀ z ∈ (points .absDistance step s ((k : K) * step - step) len).1, 0 ≤ z ∧ z < len := by
  obtain ⟨m, a1, a2, a3, a4⟩ := abs_step step s len hs k hk
  intro z hz
  rw [a2] at hz
  simp only [List.mem_map] at hz
  obtain ⟨j, hj, rfl⟩ := hz
  rw [List.mem_range'_1] at hj
  have h2 := a4 j hj.1 (by omega)
  have h3 : (k : K) ≤ j := by exact_mod_cast hj.1
  have := mul_le_mul_of_nonneg_right h3 hs.le
  constructor <;> linarith

theorem loop_ok (mode : Mode) (step : K) : ∀ (l : List (Elem K)) (s last : K),
    (∀ se ∈ Spec.starts s l, se.2.pos = se.1) → ∃ r, loop mode step l s last = .ok r
  | [], s, last, h => ⟨[], rfl⟩
  | e :: l, s, last, h => by
    have he := h (s, e) (by simp [Spec.starts])
    have hl : ∀ se ∈ Spec.starts (s + e.len) l, se.2.pos = se.1 :=
      fun se hse => h se (by rw [Spec.starts]; exact List.mem_cons_of_mem _ hse)
    rw [loop]
    split
    · rename_i h0
      exact loop_ok mode step l s last (by simpa [h0] using hl)
    · rw [if_neg (by simp only at he; rw [he]; simp)]
      simp only
      obtain ⟨r, hr⟩ := loop_ok mode step l (s + e.len) (points mode step s last e.len).2 hl
      rw [hr]
      exact ⟨_, rfl⟩

/-- A line of which the elements are where their lengths put them is surveyed without an error. -/
theorem survey_ok (mode : Mode) (step : K) (hs : 1 ≤ step) (l : List (Elem K)) (h : Spec.InPlace l) :
    ∃ r, survey mode step l = .ok r := by
  have h0 : 0 < step := lt_of_lt_of_le zero_lt_one hs
  cases mode
  · have hf : ¬ ⌊step⌋₊ < 1 := by rw [not_lt, Nat.one_le_floor_iff]; exact hs
    simp only [survey, if_neg (not_lt.2 h0.le), if_neg hf]
    exact loop_ok _ step l 0 _ h
  · simp only [survey, if_neg (not_le.2 h0)]
    exact loop_ok _ step l 0 _ h
  · simp only [survey, if_neg (not_le.2 h0)]
    exact loop_ok _ step l 0 _ h

theorem loop_rows (mode : Mode) (step : K) : ∀ (l : List (Elem K)) (s last : K) (r : List (Row K)),
    loop mode step l s last = .ok r → ∀ w ∈ r, ∃ se ∈ Spec.starts s l, Spec.RowOf se w
  | [], s, last, r, h => by
    simp only [loop, Outcome.ok.injEq] at h
    subst h
    simp
  | e :: l, s, last, r, h => by
    rw [loop] at h
    split at h
    · rename_i h0
      intro w hw
      obtain ⟨se, hse, hr⟩ := loop_rows mode step l s last r h w hw
      exact ⟨se, by rw [Spec.starts, h0, add_zero]; exact List.mem_cons_of_mem _ hse, hr⟩
    · split at h
      · exact absurd h (by simp)
      · simp only at h
        split at h
        · rename_i q hq
          simp only [Outcome.ok.injEq] at h
          subst h
          intro w hw
          rcases List.mem_append.1 hw with hw | hw
          · refine ⟨(s, e), by simp [Spec.starts], ?_⟩
            simp only [rows, List.mem_map] at hw
            obtain ⟨z, _, rfl⟩ := hw
            refine ⟨rfl, rfl, rfl, ?_⟩
            simp only [add_sub_cancel_left]
            cases e.ap <;> rfl
          · obtain ⟨se, hse, hr⟩ := loop_rows mode step l (s + e.len) _ q hq w hw
            exact ⟨se, by rw [Spec.starts]; exact List.mem_cons_of_mem _ hse, hr⟩
        · exact absurd h (by simp)
        · exact absurd h (by simp)

/-- C147: in every mode, a row has the name and the length of an element and the limits of its aperture at the place which
the row gives. -/
theorem survey_rows (mode : Mode) (step : K) (l : List (Elem K)) (r : List (Row K)) (h : survey mode step l = .ok r) :
    ∀ w ∈ r, ∃ se ∈ Spec.starts 0 l, Spec.RowOf se w := by
  cases mode
  · simp only [survey] at h
    split at h
    · exact absurd h (by simp)
    · split at h
      · exact absurd h (by simp)
      · exact loop_rows _ _ _ _ _ _ h
  · simp only [survey] at h
    split at h
    · exact absurd h (by simp)
    · exact loop_rows _ _ _ _ _ _ h
  · simp only [survey] at h
    split at h
    · exact absurd h (by simp)
    · exact loop_rows _ _ _ _ _ _ h

/-! ## Cases which meet the hypotheses -/

/-- A rectangle for `limit_spec` and `checkAperture_spec`. -/
def rect : Ap ℚ := fun x y _ => decide (-3 / 10 ≤ x ∧ x ≤ 1 / 3 ∧ |y| ≤ 1 / 5)

example : Spec.Edge rect 0 (1, 0) (1 / 3) := by
  intro a ha
  simp only [rect, one_mul, zero_mul, abs_zero, decide_eq_true_eq, decide_eq_false_iff_not]
  constructor
  · intro h; exact ⟨by linarith, by linarith, by norm_num⟩
  · intro h hc; linarith [hc.2.1]

example : limit rect 0 (1, 0) = 699051 / 2097152 := by decide +kernel

/-- Two elements with a zero-length one between them in the mode of absolute distances. -/
def line2 : List (Elem ℚ) := [⟨0, 1 / 2, 0, none⟩, ⟨1, 0, 1 / 2, none⟩, ⟨2, 1, 1 / 2, none⟩]

example : Spec.InPlace line2 := by unfold line2; simp [Spec.InPlace, Spec.starts]

example : (survey .absDistance (2 / 5) line2).bind (fun r => Outcome.ok (ε := String) (r.map fun w => (w.name, w.s))) =
    .ok [(0, 0), (0, 2 / 5), (2, 4 / 5), (2, 6 / 5)] := by decide +kernel

end Verif.Survey
