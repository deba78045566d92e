import Mathlib.Tactic.Linarith
import Mathlib.Tactic.FieldSimp
import Mathlib.Tactic.Positivity
import Mathlib.Tactic.Ring
import Mathlib.Data.Rat.Floor
import Mathlib.Algebra.Order.Ring.Rat
import Mathlib.Algebra.BigOperators.Ring.Finset
import Verif.Distribution.Model
import Verif.Histogram.Properties

/-!
# The distribution of a coordinate of a bunch

The bins are those of `Verif.Histogram.Spec`.
-/

set_option linter.unusedSectionVars false

namespace Verif.Distribution
open Verif Verif.Histogram Verif.Histogram.Spec

variable {K : Type} [Field K] [LinearOrder K] [IsStrictOrderedRing K] [FloorRing K] {P : Type}

/-- In the range of the distribution. -/
def inside (u : P → K) (umin umax : K) (p : P) : Bool := decide (umin ≤ u p ∧ u p ≤ umax)

theorem inside_iff (u : P → K) (umin umax : K) (p : P) : inside u umin umax p = true ↔ ¬ (u p < umin ∨ u p > umax) := by
  unfold inside
  rw [decide_eq_true_iff, not_or, not_lt, gt_iff_lt, not_lt]

theorem sum_modify (l : List Nat) (i : Nat) (h : i < l.length) : (l.modify i (· + 1)).sum = l.sum + 1 := by
  induction l generalizing i with
  | nil => simp at h
  | cons a l ih =>
    cases i with
    | zero => simp; omega
    | succ i => simp [ih i (by simpa using h)]; omega

theorem loop_spec (u : P → K) (umin umax du : K) (nb : Nat) (tr : Bool) (hd : 0 < du) (hsz : umax - umin < 2 ^ 64 * du) :
    ∀ (l : List P) (s : St P), s.bins.length = nb → s.bins.sum = s.total →
      (∀ p ∈ l, u p ≤ umax → u p < umin + nb * du) → (tr = true → s.seen = [] → ∀ p ∈ l.head?, inside u umin umax p = true) →
      ∃ s', loop u umin umax du nb tr l s = .ok s' ∧
        s'.seen = s.seen ++ (if tr then l.filter (inside u umin umax) else l) ∧
        s'.lost = s.lost + l.countP (fun p => !inside u umin umax p) ∧ s'.bins.length = nb ∧ s'.bins.sum = s'.total ∧
        s'.total = s.total + l.countP (inside u umin umax) ∧
        ∀ i < nb, s'.bins.getD i 0 = s.bins.getD i 0 + inBin umin du i ((l.filter (inside u umin umax)).map u)
  | [], s, hb, ht, _, _ => ⟨s, rfl, by simp, by simp, hb, ht, by simp, fun i _ => by simp [inBin]⟩
  | p :: l, s, hb, ht, hedge, hfirst => by
    have hedge' : ∀ q ∈ l, u q ≤ umax → u q < umin + nb * du := fun q hq => hedge q (List.mem_cons_of_mem _ hq)
    by_cases hin : inside u umin umax p = true
    · have hin' := (inside_iff u umin umax p).mp hin
      have hin2 : umin ≤ u p ∧ u p ≤ umax := by
        unfold inside at hin
        exact of_decide_eq_true hin
      obtain ⟨k, e, k1, k2⟩ := quot_spec (u p - umin) du (by linarith) hd (by linarith)
      have hk : InBin umin du k (u p) := ⟨by linarith, by linarith⟩
      have hkn : k < nb := by
        have h1 := hedge p (List.mem_cons_self ..) hin2.2
        have h2 : (k : K) * du < nb * du := by linarith
        have h3 : (k : K) < nb := lt_of_mul_lt_mul_right h2 hd.le
        exact_mod_cast h3
      obtain ⟨s', e1, e2, e3, e4, e5, e6, e7⟩ := loop_spec u umin umax du nb tr hd hsz l
        ⟨s.seen ++ [p], s.bins.modify k (· + 1), s.lost, s.total + 1⟩ (by simp [hb])
        (by simp only; rw [sum_modify _ _ (by omega), ht]) hedge' (by simp)
      refine ⟨s', ?_, ?_, ?_, e4, e5, ?_, ?_⟩
      · rw [loop, if_neg hin', e]
        simp only [Outcome.bind]
        rw [if_pos hkn, e1]
      · rw [e2]
        cases tr <;> simp [hin]
      · rw [e3, List.countP_cons]
        simp [hin]
      · rw [e6, List.countP_cons]
        simp [hin]
        omega
      · intro i hi
        rw [e7 i hi, List.filter_cons_of_pos hin, List.map_cons, inBin_cons]
        simp only
        rw [List.getD_eq_getElem?_getD, List.getElem?_modify]
        by_cases hik : k = i
        · subst hik
          simp [hk, List.getElem?_eq_getElem (show k < s.bins.length by omega)]
          omega
        · have hn : ¬ InBin umin du i (u p) := fun h => hik (inBin_unique hd hk h)
          simp [hik, hn, List.getElem?_eq_getElem (show i < s.bins.length by omega)]
    · have hin' : u p < umin ∨ u p > umax := by
        by_contra h
        exact hin ((inside_iff u umin umax p).mpr h)
      have hinf : inside u umin umax p = false := by simpa using hin
      cases tr with
      | false =>
        obtain ⟨s', e1, e2, e3, e4, e5, e6, e7⟩ := loop_spec u umin umax du nb false hd hsz l
          { s with seen := s.seen ++ [p], lost := s.lost + 1 } hb ht hedge' (by simp)
        refine ⟨s', ?_, ?_, ?_, e4, e5, ?_, ?_⟩
        · rw [loop, if_pos hin', if_neg (by simp), e1]
        · rw [e2]; simp
        · rw [e3, List.countP_cons]; simp [hinf]; omega
        · rw [e6, List.countP_cons]; simp [hinf]
        · intro i hi
          rw [e7 i hi, List.filter_cons_of_neg hin]
      | true =>
        have hne : s.seen ≠ [] := fun h0 => hin (hfirst rfl h0 p (by simp))
        obtain ⟨s', e1, e2, e3, e4, e5, e6, e7⟩ := loop_spec u umin umax du nb true hd hsz l
          { s with lost := s.lost + 1 } hb ht hedge' (fun _ h0 => absurd h0 hne)
        refine ⟨s', ?_, ?_, ?_, e4, e5, ?_, ?_⟩
        · rw [loop, if_pos hin', if_pos rfl, if_neg hne, e1]
        · rw [e2]; simp [hinf]
        · rw [e3, List.countP_cons]; simp [hinf]; omega
        · rw [e6, List.countP_cons]; simp [hinf]
        · intro i hi
          rw [e7 i hi, List.filter_cons_of_neg hin]

variable [DecidableEq P]

/-- **C137.** If no particle is at or near the upper end of the range — beyond the last whole bin — and, when particles are
removed, the first one is not: the bins hold the numbers of particles of their intervals, every particle in the range is in
one of them and the others are counted as lost. -/
theorem distribution_partial (u : P → K) (l : List P) (umin umax du : K) (tr : Bool) (hd : 0 < du) (h12 : umin ≤ umax)
    (hsz : umax - umin < 2 ^ 64 * du)
    (hedge : ∀ p ∈ l, u p ≤ umax → ∀ n : Nat, (n : K) * du ≤ umax - umin → umax - umin < (n + 1) * du → u p < umin + n * du)
    (hfirst : tr = true → ∀ p ∈ l.head?, umin ≤ u p ∧ u p ≤ umax) :
    ∃ r, distribution u l umin umax du false tr = .ok r ∧
      r.bunch = (if tr then l.filter (fun p => decide (umin ≤ u p ∧ u p ≤ umax)) else l) ∧
      (r.lost : K) + r.bins.sum = l.length ∧ r.lost = l.countP (fun p => !decide (umin ≤ u p ∧ u p ≤ umax)) ∧
      ∀ i < r.bins.length, r.bins.getD i 0 = inBin umin du i (l.map u) := by
  obtain ⟨nb, e, k1, k2⟩ := quot_spec (umax - umin) du (by linarith) hd hsz
  obtain ⟨s', e1, e2, e3, e4, e5, e6, e7⟩ := loop_spec u umin umax du nb tr hd hsz l ⟨[], List.replicate nb 0, 0, 0⟩ (by simp)
    (by simp) (fun p hp hu => hedge p hp hu nb k1 k2)
    (fun h0 _ p hp => by unfold inside; exact decide_eq_true (hfirst h0 p hp))
  refine ⟨⟨s'.seen, s'.bins.map fun k : Nat => (k : K), s'.lost⟩, ?_, ?_, ?_, ?_, ?_⟩
  · unfold distribution
    rw [e]
    simp only [Outcome.bind]
    rw [e1]
    simp
  · rw [List.nil_append] at e2
    exact e2
  · simp only
    rw [show (fun k : Nat => (k : K)) = Nat.cast from rfl, ← Nat.cast_list_sum, e5, e6, e3]
    have := List.length_eq_countP_add_countP (inside u umin umax) (l := l)
    rw [this]
    simp only [Nat.zero_add]
    push_cast
    have hc : l.countP (fun p => !inside u umin umax p) = l.countP (fun a => decide ¬ (inside u umin umax a = true)) := by
      refine List.countP_congr fun p _ => ?_
      simp
    rw [hc]
    ring
  · rw [e3, Nat.zero_add]
    rfl
  · intro i hi
    have hi' : i < nb := by simpa [e4] using hi
    simp only
    rw [List.getD_eq_getElem?_getD, List.getElem?_map]
    have h7 := e7 i hi'
    rw [List.getD_eq_getElem?_getD, List.getElem?_eq_getElem (by omega)] at h7
    rw [List.getElem?_eq_getElem (by omega)]
    simp only [Option.getD_some, Option.map_some] at h7 ⊢
    rw [h7]
    have h8 : inBin umin du i ((l.filter (inside u umin umax)).map u) = inBin umin du i (l.map u) := by
      unfold inBin
      rw [List.countP_map, List.countP_map, List.countP_filter]
      refine List.countP_congr fun p _ => ?_
      simp only [Function.comp, Bool.and_eq_true, decide_eq_true_eq, inside]
      refine ⟨fun h => h.1, fun h => ⟨h, ?_, ?_⟩⟩
      · have h0 : (0 : K) ≤ i * du := by positivity
        linarith [h.1]
      · have h0 : ((i : K) + 1) ≤ nb := by exact_mod_cast hi'
        have := mul_le_mul_of_nonneg_right h0 hd.le
        linarith [h.2]
    rw [h8, List.getD_eq_getElem?_getD, List.getElem?_replicate, if_pos hi']
    simp

example : distribution (K := ℚ) (P := ℚ) id [1/2, 7, 3/2, 1, -2] 0 (5/2) 1 false true
    = .ok ⟨[1/2, 3/2, 1], [1, 2], 2⟩ := by decide +kernel

/-- **C137.** The scaled bins are a probability distribution. -/
theorem distribution_normalised (u : P → K) (l : List P) (umin umax du : K) (tr : Bool) (hd : 0 < du) (r : Res P K)
    (h : distribution u l umin umax du true tr = .ok r) : r.bins.sum * du = 1 := by
  have key : ∀ (nb : Nat) (l : List P) (s s' : St P), s.bins.length = nb → s.bins.sum = s.total →
      loop u umin umax du nb tr l s = .ok s' → s'.bins.sum = s'.total := by
    intro nb l
    induction l with
    | nil =>
      intro s s' _ ht h
      rw [loop] at h
      injection h with h
      rw [← h]
      exact ht
    | cons p l ih =>
      intro s s' hb ht h
      rw [loop] at h
      split_ifs at h with h1 h2 h3
      · exact ih { s with lost := s.lost + 1 } s' hb ht h
      · exact ih { s with seen := s.seen ++ [p], lost := s.lost + 1 } s' hb ht h
      · cases hq : quot (u p - umin) du with
        | ok n =>
          rw [hq] at h
          simp only [Outcome.bind] at h
          split_ifs at h with hn
          exact ih _ s' (by simp [hb]) (by simp only; rw [sum_modify _ _ (by omega), ht]) h
        | throw x => rw [hq] at h; cases h
        | ub => rw [hq] at h; cases h
  unfold distribution at h
  cases hq : quot (umax - umin) du with
  | throw x => rw [hq] at h; cases h
  | ub => rw [hq] at h; cases h
  | ok nb =>
    rw [hq] at h
    simp only [Outcome.bind] at h
    cases hl : loop u umin umax du nb tr l ⟨[], List.replicate nb 0, 0, 0⟩ with
    | throw x => rw [hl] at h; cases h
    | ub => rw [hl] at h; cases h
    | ok s =>
      rw [hl] at h
      simp only [if_true] at h
      split_ifs at h with h0
      injection h with h
      subst h
      have hs := key nb l _ s (by simp) (by simp) hl
      have ht : (s.total : K) ≠ 0 := by exact_mod_cast h0
      simp only
      rw [List.sum_map_mul_right, ← Nat.cast_list_sum, hs]
      field_simp

/-- **C137 (violated).** A particle at the upper end of the range fails an assertion, whatever the others are. -/
theorem end_violated (u : P → K) (l : List P) (umin umax du : K) (nm tr : Bool) (p : P) (hp : p ∈ l) (hu : u p = umax)
    (h12 : umin ≤ umax) (r : Res P K) : distribution u l umin umax du nm tr ≠ .ok r := by
  intro h
  unfold distribution at h
  cases hq : quot (umax - umin) du with
  | throw x => rw [hq] at h; cases h
  | ub => rw [hq] at h; cases h
  | ok nb =>
    have key : ∀ (l : List P) (s s' : St P), p ∈ l → loop u umin umax du nb tr l s ≠ .ok s' := by
      intro l
      induction l with
      | nil => intro s s' h; simp at h
      | cons q l ih =>
        intro s s' hm h
        rw [loop] at h
        rcases List.mem_cons.mp hm with rfl | hm
        · rw [if_neg (by rw [hu]; simp [h12]), hu, hq] at h
          simp [Outcome.bind] at h
        · split_ifs at h with h1 h2 h3
          · exact ih _ s' hm h
          · exact ih _ s' hm h
          · cases hq2 : quot (u q - umin) du with
            | ok n =>
              rw [hq2] at h
              simp only [Outcome.bind] at h
              split_ifs at h with hn
              exact ih _ s' hm h
            | throw x => rw [hq2] at h; cases h
            | ub => rw [hq2] at h; cases h
    rw [hq] at h
    simp only [Outcome.bind] at h
    cases hl : loop u umin umax du nb tr l ⟨[], List.replicate nb 0, 0, 0⟩ with
    | throw x => rw [hl] at h; cases h
    | ub => rw [hl] at h; cases h
    | ok s => exact key l _ s hp hl

/-- **C137 (violated).** Removing the first particle moves an iterator before the begin of the bunch. -/
theorem first_violated (u : P → K) (l : List P) (umin umax du : K) (nm : Bool) (p : P) (hu : u p < umin) (r : Res P K) :
    distribution u (p :: l) umin umax du nm true ≠ .ok r := by
  intro h
  unfold distribution at h
  cases hq : quot (umax - umin) du with
  | throw x => rw [hq] at h; cases h
  | ub => rw [hq] at h; cases h
  | ok nb =>
    rw [hq] at h
    simp only [Outcome.bind, loop] at h
    rw [if_pos (Or.inl hu)] at h
    simp at h

end Verif.Distribution
