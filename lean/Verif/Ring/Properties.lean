import Verif.Ring.Model

/-! # C11: ring iterators -/

namespace Verif.Ring
open Verif

variable {α : Type}

theorem inc_eq {n p : Nat} (h : p < n) : inc n p = .ok ((p + 1) % n) := by
  unfold inc rawInc
  rw [if_pos h]
  simp only [Outcome.bind_ok]
  by_cases hq : p + 1 = n
  · simp [hq]
  · rw [if_neg hq, Nat.mod_eq_of_lt (by omega)]

theorem dec_eq {n p : Nat} (h : p < n) : dec n p = .ok ((p + n - 1) % n) := by
  unfold dec rawDec
  by_cases hp : p = 0
  · subst hp
    simp only [if_true, if_pos h, Nat.zero_add]
    rw [Nat.mod_eq_of_lt (by omega)]
  · simp only [if_neg hp, if_pos (show 0 < p by omega)]
    have : p + n - 1 = (p - 1) + n := by omega
    rw [this, Nat.add_mod_right, Nat.mod_eq_of_lt (by omega)]

/-- C11: increment and decrement are inverse, for every position in a non-empty container. -/
theorem inc_dec_inverse {n p : Nat} (h : p < n) :
    (do let q ← inc n p; dec n q) = .ok p ∧ (do let q ← dec n p; inc n q) = .ok p := by
  have hn : 0 < n := by omega
  rw [inc_eq h, dec_eq h]
  simp only [Outcome.bind_ok]
  rw [dec_eq (Nat.mod_lt _ hn), inc_eq (Nat.mod_lt _ hn)]
  constructor
  · congr 1
    by_cases hq : p + 1 = n
    · rw [hq, Nat.mod_self, Nat.mod_eq_of_lt (by omega)]; omega
    · rw [Nat.mod_eq_of_lt (show p + 1 < n by omega), show p + 1 + n - 1 = p + n by omega,
        Nat.add_mod_right, Nat.mod_eq_of_lt h]
  · congr 1
    by_cases hp : p = 0
    · subst hp
      rw [Nat.mod_eq_of_lt (show 0 + n - 1 < n by omega), show 0 + n - 1 + 1 = n by omega,
        Nat.mod_self]
    · rw [show p + n - 1 = (p - 1) + n by omega, Nat.add_mod_right,
        Nat.mod_eq_of_lt (show p - 1 < n by omega), show p - 1 + 1 = p by omega,
        Nat.mod_eq_of_lt h]

/-- `k` increments from a valid position see the elements `p, p+1, ...` modulo the size and end at
`(p + k) mod n`; no step is undefined. -/
theorem walk_inc (xs : List α) (k p : Nat) (h : p < xs.length) :
    walk (inc xs.length) xs k p =
      .ok ((List.range k).map (fun j => xs[(p + j) % xs.length]'(Nat.mod_lt _ (by omega))),
        (p + k) % xs.length) := by
  induction k generalizing p with
  | zero => simp [walk, Nat.mod_eq_of_lt h]
  | succ k ih =>
    have hn : 0 < xs.length := by omega
    simp only [walk, deref, List.getElem?_eq_getElem h, Outcome.bind_ok, inc_eq h,
      ih _ (Nat.mod_lt _ hn), List.range_succ_eq_map, List.map_cons, List.map_map, Nat.add_zero]
    simp only [Nat.mod_eq_of_lt h, Nat.mod_add_mod]
    congr 2
    · congr 1
      apply List.map_congr_left
      intro j _
      simp only [Function.comp_def, Nat.succ_eq_add_one]
      congr 2
      omega
    · congr 1; omega

/-- C11: from any element, as many increments as there are elements see every element exactly
once, in cyclic order, and end where they started. -/
theorem full_turn (xs : List α) (p : Nat) (h : p < xs.length) :
    walk (inc xs.length) xs xs.length p = .ok (xs.drop p ++ xs.take p, p) := by
  rw [walk_inc xs _ p h, Nat.add_mod_right, Nat.mod_eq_of_lt h]
  congr 2
  apply List.ext_getElem
  · simp; omega
  · intro i h1 h2
    simp only [List.length_map, List.length_range] at h1
    simp only [List.getElem_map, List.getElem_range]
    by_cases hi : i < xs.length - p
    · rw [List.getElem_append_left (by simpa using hi)]
      simp only [List.getElem_drop]
      congr 1
      exact Nat.mod_eq_of_lt (by omega)
    · rw [List.getElem_append_right (by simpa using hi)]
      simp only [List.getElem_take, List.length_drop]
      congr 1
      rw [show p + i = (i - (xs.length - p)) + xs.length by omega, Nat.add_mod_right,
        Nat.mod_eq_of_lt (by omega)]

/-- C11 for decrements: the same turn backwards. -/
theorem full_turn_back (xs : List α) (p : Nat) (h : p < xs.length) :
    walk (dec xs.length) xs xs.length p =
      .ok ((xs.take (p + 1)).reverse ++ (xs.drop (p + 1)).reverse, p) := by
  have key : ∀ k p, p < xs.length →
      ∃ ys, walk (dec xs.length) xs k p = .ok (ys, (p + k * (xs.length - 1)) % xs.length) ∧
        ys.length = k ∧ ∀ j (hj : j < k), ys[j]? =
          xs[(p + j * (xs.length - 1)) % xs.length]? := by
    intro k
    induction k with
    | zero => intro p h; exact ⟨[], by simp [walk, Nat.mod_eq_of_lt h], rfl, by simp⟩
    | succ k ih =>
      intro p h
      have hn : 0 < xs.length := by omega
      obtain ⟨ys, e, hl, hy⟩ := ih _ (Nat.mod_lt (p + xs.length - 1) hn)
      refine ⟨xs[p] :: ys, ?_, by simp [hl], ?_⟩
      · simp only [walk, deref, List.getElem?_eq_getElem h, Outcome.bind_ok, dec_eq h, e,
          Nat.mod_add_mod]
        congr 3
        rw [Nat.add_mul]; omega
      · intro j hj
        cases j with
        | zero => simp [Nat.mod_eq_of_lt h]
        | succ j =>
          rw [List.getElem?_cons_succ, hy j (by omega), Nat.mod_add_mod]
          congr 2
          rw [Nat.add_mul]; omega
  obtain ⟨ys, e, hl, hy⟩ := key xs.length p h
  have hn : 0 < xs.length := by omega
  -- p - j modulo n
  have hm : ∀ j, j < xs.length → (p + j * (xs.length - 1)) % xs.length =
      if j ≤ p then p - j else p + xs.length - j := by
    intro j hj
    have e1 : p + j * (xs.length - 1) + j = p + j * xs.length := by
      have : j * (xs.length - 1) + j = j * xs.length := by
        rw [← Nat.mul_succ]; congr 1; omega
      omega
    by_cases hjp : j ≤ p
    · rw [if_pos hjp, show p + j * (xs.length - 1) = (p - j) + xs.length * j by
        rw [Nat.mul_comm xs.length j]; omega, Nat.add_mul_mod_self_left, Nat.mod_eq_of_lt (by omega)]
    · rw [if_neg hjp, show p + j * (xs.length - 1) = (p + xs.length - j) + xs.length * (j - 1) by
        have : xs.length * (j - 1) = j * xs.length - xs.length := by
          rw [Nat.mul_comm, Nat.sub_mul, Nat.one_mul]
        have : xs.length ≤ j * xs.length := Nat.le_mul_of_pos_left _ (by omega)
        omega, Nat.add_mul_mod_self_left, Nat.mod_eq_of_lt (by omega)]
  rw [e]
  congr 2
  · apply List.ext_getElem?
    intro i
    by_cases hi : i < xs.length
    · rw [hy i hi, hm i hi]
      by_cases hip : i ≤ p
      · rw [if_pos hip, List.getElem?_append_left (by simp; omega),
          List.getElem?_reverse (by simp; omega)]
        simp only [List.length_take, List.getElem?_take]
        rw [if_pos (by omega)]
        congr 1; omega
      · rw [if_neg hip, List.getElem?_append_right (by simp; omega),
          List.getElem?_reverse (by simp; omega)]
        simp only [List.length_take, List.length_reverse, List.length_drop, List.getElem?_drop]
        congr 1; omega
    · rw [List.getElem?_eq_none (by omega), List.getElem?_eq_none (by simp; omega)]
  · have e2 : p + xs.length * (xs.length - 1) = p + xs.length * (xs.length - 1) := rfl
    rw [Nat.add_mul_mod_self_left, Nat.mod_eq_of_lt h]

/-- C11: the container size is the exact period: `k` increments return to the start only if `k` is a
multiple of the size. -/
theorem period_exact (xs : List α) (k p : Nat) (h : p < xs.length) :
    (∃ ys, walk (inc xs.length) xs k p = .ok (ys, p)) ↔ xs.length ∣ k := by
  rw [walk_inc xs k p h]
  constructor
  · rintro ⟨ys, e⟩
    injection e with e
    have e := (Prod.mk.inj e).2
    have h2 := Nat.div_add_mod (p + k) xs.length
    exact ⟨(p + k) / xs.length, by omega⟩
  · rintro ⟨m, rfl⟩
    exact ⟨_, by rw [Nat.add_mul_mod_self_left, Nat.mod_eq_of_lt h]⟩

/-- On an empty container both moves are undefined. -/
theorem empty_ring_undefined (p : Nat) : inc 0 p = .ub ∧ dec 0 0 = .ub := by
  constructor <;> rfl

example : walk (inc 3) ["a", "b", "c"] 3 1 = .ok (["b", "c", "a"], 1) :=
  full_turn ["a", "b", "c"] 1 (by decide)

example : walk (dec 3) ["a", "b", "c"] 3 1 = .ok (["b", "a", "c"], 1) :=
  full_turn_back ["a", "b", "c"] 1 (by decide)

example : (∃ ys, walk (inc 3) ["a", "b", "c"] 6 2 = .ok (ys, 2)) :=
  (period_exact ["a", "b", "c"] 6 2 (by decide)).2 ⟨2, rfl⟩

#print axioms inc_dec_inverse
#print axioms full_turn
#print axioms full_turn_back
#print axioms period_exact
#print axioms empty_ring_undefined

end Verif.Ring
