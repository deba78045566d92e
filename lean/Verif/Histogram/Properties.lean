import Mathlib.Tactic.Linarith
import Mathlib.Tactic.FieldSimp
import Mathlib.Tactic.Positivity
import Mathlib.Data.Rat.Floor
import Mathlib.Algebra.Order.Ring.Rat
import Verif.Histogram.Model
import Verif.Histogram.Spec

/-!
# Properties of `Hist`
-/

namespace Verif.Histogram
open Verif Verif.Histogram.Spec

set_option linter.unusedSectionVars false

variable {K : Type} [Field K] [LinearOrder K] [IsStrictOrderedRing K] [FloorRing K]

omit [FloorRing K] in
theorem inBin_cons (x1 dx : K) (i : Nat) (d : K) (l : List K) :
    inBin x1 dx i (d :: l) = inBin x1 dx i l + (if InBin x1 dx i d then 1 else 0) := by
  simp [inBin, List.countP_cons]

omit [FloorRing K] in
theorem outside_cons (x1 dx : K) (n : Nat) (d : K) (l : List K) :
    outside x1 dx n (d :: l) = outside x1 dx n l + (if d < x1 ∨ x1 + n * dx ≤ d then 1 else 0) := by
  simp [outside, List.countP_cons]

/-- The quotient is the number of the bin. -/
theorem quot_spec (x dx : K) (hx : 0 ≤ x) (hd : 0 < dx) (hs : x < 2 ^ 64 * dx) :
    ∃ i : Nat, quot x dx = .ok i ∧ i * dx ≤ x ∧ x < (i + 1) * dx := by
  have h1 : 0 ≤ x / dx := div_nonneg hx hd.le
  have h2 : x / dx < 2 ^ 64 := (div_lt_iff₀ hd).2 hs
  have hf : 0 ≤ ⌊x / dx⌋ := Int.floor_nonneg.2 h1
  have hc : ((⌊x / dx⌋.toNat : Nat) : K) = (⌊x / dx⌋ : K) := by
    have : ((⌊x / dx⌋.toNat : Nat) : Int) = ⌊x / dx⌋ := Int.toNat_of_nonneg hf
    exact_mod_cast congrArg (Int.cast : Int → K) this
  refine ⟨⌊x / dx⌋.toNat, ?_, ?_, ?_⟩
  · unfold quot toSize
    rw [if_neg hd.ne', if_neg]
    rintro (h | h)
    · linarith
    · exact absurd h2 (not_lt.2 h)
  · rw [hc, ← le_div_iff₀ hd]
    exact Int.floor_le _
  · rw [hc, ← div_lt_iff₀ hd]
    exact Int.lt_floor_add_one _

omit [FloorRing K] in
theorem inBin_unique {x1 dx : K} (hd : 0 < dx) {i j : Nat} {x : K} (hi : InBin x1 dx i x) (hj : InBin x1 dx j x) :
    i = j := by
  have a : (i : K) < j + 1 := by
    have : (i : K) * dx < (j + 1) * dx := by linarith [hi.1, hj.2]
    exact lt_of_mul_lt_mul_right this hd.le
  have b : (j : K) < i + 1 := by
    have : (j : K) * dx < (i + 1) * dx := by linarith [hj.1, hi.2]
    exact lt_of_mul_lt_mul_right this hd.le
  have a' : i < j + 1 := by exact_mod_cast a
  have b' : j < i + 1 := by exact_mod_cast b
  omega

theorem step_spec (x1 dx : K) (n : Nat) (hd : 0 < dx) (b : List Nat) (lost : Nat) (hb : b.length = n) (d : K)
    (hs : d < x1 + 2 ^ 64 * dx) :
    ∃ b', step x1 dx n (b, lost) d = .ok (b', lost + if d < x1 ∨ x1 + n * dx ≤ d then 1 else 0) ∧ b'.length = n ∧
      ∀ i, i < n → b'[i]? = some (b.getD i 0 + if InBin x1 dx i d then 1 else 0) := by
  unfold step
  by_cases h : d < x1
  · refine ⟨b, by simp [h], hb, fun i hi => ?_⟩
    have hn : ¬ InBin x1 dx i d := fun hin => by
      have : (0 : K) ≤ i * dx := by positivity
      linarith [hin.1]
    simp [hn, List.getD, List.getElem?_eq_getElem (show i < b.length by omega)]
  · rw [if_neg h]
    obtain ⟨k, e, k1, k2⟩ := quot_spec (d - x1) dx (by linarith [not_lt.1 h]) hd (by linarith)
    have hk : InBin x1 dx k d := ⟨by linarith, by linarith⟩
    rw [e]
    simp only [Outcome.bind]
    by_cases hkn : k < n
    · have hout : ¬ (d < x1 ∨ x1 + n * dx ≤ d) := by
        rintro (h' | h')
        · exact h h'
        · have : ((k : K) + 1) ≤ n := by exact_mod_cast hkn
          have := mul_le_mul_of_nonneg_right this hd.le
          linarith [hk.2]
      refine ⟨b.modify k (· + 1), by simp [hkn, hout], by simp [hb], fun i hi => ?_⟩
      rw [List.getElem?_modify]
      by_cases hik : k = i
      · subst hik
        simp [hk, List.getD, List.getElem?_eq_getElem (show k < b.length by omega)]
      · have hn : ¬ InBin x1 dx i d := fun hin => hik (inBin_unique hd hk hin)
        simp [hik, hn, List.getD, List.getElem?_eq_getElem (show i < b.length by omega)]
    · have hout : d < x1 ∨ x1 + n * dx ≤ d := by
        right
        have : (n : K) ≤ k := by exact_mod_cast not_lt.1 hkn
        have := mul_le_mul_of_nonneg_right this hd.le
        linarith [hk.1]
      refine ⟨b, by simp [hkn, hout], hb, fun i hi => ?_⟩
      have hn : ¬ InBin x1 dx i d := fun hin => by
        have := inBin_unique hd hk hin
        omega
      simp [hn, List.getD, List.getElem?_eq_getElem (show i < b.length by omega)]

theorem loop_spec (x1 dx : K) (n : Nat) (hd : 0 < dx) : ∀ (l : List K) (b : List Nat) (lost : Nat), b.length = n →
    (∀ d ∈ l, d < x1 + 2 ^ 64 * dx) →
    ∃ b', loop x1 dx n l (b, lost) = .ok (b', lost + outside x1 dx n l) ∧ b'.length = n ∧
      ∀ i, i < n → b'[i]? = some (b.getD i 0 + inBin x1 dx i l)
  | [], b, lost, hb, _ => ⟨b, by simp [loop, outside], hb, fun i hi => by
      simp [inBin, List.getD, List.getElem?_eq_getElem (show i < b.length by omega)]⟩
  | d :: l, b, lost, hb, hs => by
    obtain ⟨b1, e1, hb1, h1⟩ := step_spec x1 dx n hd b lost hb d (hs d (by simp))
    obtain ⟨b2, e2, hb2, h2⟩ := loop_spec x1 dx n hd l b1 _ hb1 (fun d h => hs d (by simp [h]))
    refine ⟨b2, ?_, hb2, fun i hi => ?_⟩
    · simp only [loop, e1, Outcome.bind]
      rw [e2, outside_cons]
      congr 2
      omega
    · rw [h2 i hi, inBin_cons, List.getD, h1 i hi]
      simp only [Option.getD_some]
      congr 1
      omega

/-- Every bin of `Hist` holds the number of data in its interval and the return value is the number of data in none of
them, as long as the quotients fit into the type of sizes. -/
theorem hist_counts_partial (data : List K) (x1 x2 dx : K) (h12 : x1 ≤ x2) (hd : 0 < dx) (hr : x2 < x1 + 2 ^ 64 * dx)
    (hs : ∀ d ∈ data, d < x1 + 2 ^ 64 * dx) :
    ∃ (n : Nat) (b : List Nat), hist data x1 x2 dx = .ok (b, outside x1 dx n data) ∧ b.length = n ∧ 1 ≤ n ∧
      (∀ i, i < n → b[i]? = some (inBin x1 dx i data)) ∧ InBin x1 dx (n - 1) x2 := by
  obtain ⟨k, e, k1, k2⟩ := quot_spec (x2 - x1) dx (by linarith) hd (by linarith)
  obtain ⟨b, e2, hb, h⟩ := loop_spec x1 dx (k + 1) hd data (List.replicate (k + 1) 0) 0 (by simp) hs
  refine ⟨k + 1, b, ?_, hb, by omega, fun i hi => ?_, ?_⟩
  · unfold hist
    rw [e]
    simp only [Outcome.bind]
    rw [e2, Nat.zero_add]
  · rw [h i hi]
    simp [List.getD, hi]
  · simp only [Nat.add_sub_cancel]
    exact ⟨by linarith, by linarith⟩

/-- Each datum is counted once. -/
theorem hist_total (data : List K) (x1 x2 dx : K) (b : List Nat) (lost : Nat)
    (h : hist data x1 x2 dx = .ok (b, lost)) : b.sum + lost = data.length := by
  have key : ∀ (n : Nat) (l : List K) (s : List Nat × Nat), s.1.length = n → ∀ b lost,
      loop x1 dx n l s = .ok (b, lost) → b.sum + lost = s.1.sum + s.2 + l.length := by
    intro n l
    induction l with
    | nil => intro s _ b lost e; simp only [loop, Outcome.ok.injEq] at e; subst e; simp
    | cons d l ih =>
      intro s hs b lost e
      have st : ∀ t, step x1 dx n s d = .ok t → t.1.length = n ∧ t.1.sum + t.2 = s.1.sum + s.2 + 1 := by
        intro t et
        unfold step at et
        split_ifs at et with h1
        · simp only [Outcome.ok.injEq] at et
          subst et
          exact ⟨hs, by simp only; omega⟩
        · cases hq : quot (d - x1) dx with
          | ok i =>
            rw [hq] at et
            simp only [Outcome.bind] at et
            split_ifs at et with h2
            · simp only [Outcome.ok.injEq] at et
              subst et
              refine ⟨by simp [hs], ?_⟩
              have hm : ∀ (l : List Nat) (i : Nat), i < l.length → (l.modify i (· + 1)).sum = l.sum + 1 := by
                intro l
                induction l with
                | nil => intro i hi; simp at hi
                | cons a l ih =>
                  intro i hi
                  cases i with
                  | zero => simp; omega
                  | succ i => simp [ih i (by simpa using hi)]; omega
              simp only
              rw [hm s.1 i (by omega)]
              omega
            · simp only [Outcome.ok.injEq] at et
              subst et
              exact ⟨hs, by simp only; omega⟩
          | throw e => rw [hq] at et; simp [Outcome.bind] at et
          | ub => rw [hq] at et; simp [Outcome.bind] at et
      simp only [loop] at e
      cases hst : step x1 dx n s d with
      | ok t =>
        rw [hst] at e
        simp only [Outcome.bind] at e
        have := ih t (st t hst).1 b lost e
        have := (st t hst).2
        simp only [List.length_cons]
        omega
      | throw u => rw [hst] at e; simp [Outcome.bind] at e
      | ub => rw [hst] at e; simp [Outcome.bind] at e
  unfold hist at h
  cases hq : quot (x2 - x1) dx with
  | ok i =>
    rw [hq] at h
    simp only [Outcome.bind] at h
    have := key (i + 1) data _ (by simp) b lost h
    simpa using this
  | throw e => rw [hq] at h; simp [Outcome.bind] at h
  | ub => rw [hq] at h; simp [Outcome.bind] at h

example : hist [(0 : ℚ), 1/2, 1, 5/2, -1, 2] 0 2 1 = .ok ([2, 1, 2], 1) := by decide +kernel

/-- A datum beyond `x2` is counted in the last bin if that extends beyond `x2`. -/
theorem hist_beyond_violated : ∃ (data : List ℚ) (x1 x2 dx : ℚ), x1 ≤ x2 ∧ 0 < dx ∧ (∀ d ∈ data, x2 < d) ∧
    ∃ b lost, hist data x1 x2 dx = .ok (b, lost) ∧ lost < data.length :=
  ⟨[5/2], 0, 2, 1, by decide +kernel, by decide +kernel, by decide +kernel, [0, 0, 1], 0, by decide +kernel,
    by decide⟩

/-- A datum far above the range is not counted as lost: its bin number does not fit into the type of sizes. -/
theorem hist_far_violated (x1 x2 dx : K) (h12 : x1 ≤ x2) (hd : 0 < dx) (hr : x2 < x1 + 2 ^ 64 * dx) (d : K)
    (hs : x1 + 2 ^ 64 * dx ≤ d) : hist [d] x1 x2 dx = .ub := by
  obtain ⟨k, e, -, -⟩ := quot_spec (x2 - x1) dx (by linarith) hd (by linarith)
  have h : ¬ d < x1 := by
    have : (0 : K) < 2 ^ 64 * dx := by positivity
    exact not_lt.2 (by linarith)
  have hq : quot (d - x1) dx = .ub := by
    unfold quot toSize
    rw [if_neg hd.ne', if_pos]
    right
    rw [le_div_iff₀ hd]
    linarith
  simp [hist, e, loop, step, h, hq, Outcome.bind]

example : (0 : ℚ) ≤ 1 ∧ (0 : ℚ) < 1 ∧ (1 : ℚ) < 0 + 2 ^ 64 * 1 ∧ (0 : ℚ) + 2 ^ 64 * 1 ≤ 2 ^ 65 := by norm_num

end Verif.Histogram
