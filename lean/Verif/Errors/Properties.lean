import Verif.Errors.Lemmas
import Verif.ATL.Properties
import Verif.StringPattern.Properties
import Mathlib.Tactic.NormNum
import Mathlib.Analysis.Real.Sqrt
import Mathlib.Algebra.Group.TypeTags.Basic

/-!
# Property theorems for alignment errors (C159, C160)
-/

set_option linter.unusedSectionVars false

namespace Verif.Errors
open Verif.Errors.Spec Verif.StringPattern

variable {K G : Type} [Field K] [LinearOrder K] [IsStrictOrderedRing K] [Group G]

/-! ## C159: which elements get errors -/

/-- **C159.** Shifts: an element that is not selected keeps its place; the `m`-th selected one gets exactly one translation,
on top of its place before for `AddErrors` and in place of it for `SetErrors`.  No element is lost, renamed or reordered. -/
theorem shifts_selected (eps : K) (he : 0 ≤ eps) (sqrt : K → K) (hs : ∀ x, sqrt (x * x) = |x|) (mv : Moves K G)
    (g : Nat → K) (rms mean : Fin 3 → K) (p : Str) (l : List (Option (Frame G))) (j : Nat) :
    ((applyShifts eps sqrt mv g (setErrors rms mean) p l).1[j]?).map (fun o => o.map view) =
      moved true (shift eps mv rms mean g) p l j ∧
    ((applyShifts eps sqrt mv g (addErrors rms mean) p l).1[j]?).map (fun o => o.map view) =
      moved false (shift eps mv rms mean g) p l j := by
  have h1 := (applyErrors_eq eps he sqrt hs mv g rms mean true true p l 0).1 j
  have h2 := (applyErrors_eq eps he sqrt hs mv g rms mean false true p l 0).1 j
  simp only [Nat.zero_mul, Nat.zero_add, if_true] at h1 h2
  exact ⟨h1, h2⟩

/-- **C159.** Rotations: the same with the rotations about x, y and z in this order. -/
theorem rotations_selected (eps : K) (he : 0 ≤ eps) (sqrt : K → K) (hs : ∀ x, sqrt (x * x) = |x|) (mv : Moves K G)
    (g : Nat → K) (rms mean : Fin 3 → K) (p : Str) (l : List (Option (Frame G))) (j : Nat) :
    ((applyRotations eps sqrt mv g (setErrors rms mean) p l).1[j]?).map (fun o => o.map view) =
      moved true (turns eps mv rms mean g) p l j ∧
    ((applyRotations eps sqrt mv g (addErrors rms mean) p l).1[j]?).map (fun o => o.map view) =
      moved false (turns eps mv rms mean g) p l j := by
  have h1 := (applyErrors_eq eps he sqrt hs mv g rms mean true false p l 0).1 j
  have h2 := (applyErrors_eq eps he sqrt hs mv g rms mean false false p l 0).1 j
  simp only [Nat.zero_mul, Nat.zero_add, Bool.false_eq_true, if_false] at h1 h2
  exact ⟨h1, h2⟩

/-- **C159.** The log lists the selected elements in order with the numbers applied. -/
theorem log_selected (eps : K) (he : 0 ≤ eps) (sqrt : K → K) (hs : ∀ x, sqrt (x * x) = |x|) (mv : Moves K G)
    (g : Nat → K) (rms mean : Fin 3 → K) (p : Str) (l : List (Option (Frame G))) :
    (applyShifts eps sqrt mv g (setErrors rms mean) p l).2.2 =
      ((l.filterMap id).filter fun f => wanted p (some f)).mapIdx fun i f =>
        ⟨f.type ++ '.' :: f.name, true,
          error eps rms mean i 0 g, error eps rms mean i 1 g, error eps rms mean i 2 g⟩ := by
  have h := log_eq eps he sqrt hs mv g rms mean true true p l 0
  simp only [Nat.zero_mul, Nat.zero_add] at h
  exact h

/-- **C159.** A name without wildcards selects the element of that name. -/
theorem named_selected (f : Frame G) (ht : '.' ∉ f.type) (hstar : '*' ∉ f.name) (hbar : '|' ∉ f.name) :
    selects f.name f = true := by
  rw [selects, Frame.qualified, matches_literal _ _ hstar hbar (by simp), findAfter_self _ _ ht]
  rfl

/-- **C159, partial.** What a name without wildcards selects beside: only elements whose name ends in a point and the name
asked for.  Missing: that it selects nothing else, which is false (`named_violated`). -/
theorem named_only_partial (p : Str) (f : Frame G) (ht : '.' ∉ f.type) (hstar : '*' ∉ p) (hbar : '|' ∉ p)
    (h : selects p f = true) : f.name = p ∨ ∃ w, f.name = w ++ '.' :: p := by
  rw [selects, Frame.qualified, matches_literal _ _ hstar hbar (by simp)] at h
  cases hf : findAfter ('.' :: p) (f.type ++ '.' :: f.name) with
  | none => rw [hf] at h; simp at h
  | some r =>
    rw [hf] at h
    have hr : r = [] := by simpa using h
    obtain ⟨w, hw⟩ := findAfter_some hf
    rw [hr, List.append_nil] at hw
    rcases List.append_eq_append_iff.1 hw with ⟨a, h1, h2⟩ | ⟨a, h1, h2⟩
    · cases a with
      | nil =>
        left
        simpa using h2
      | cons c a =>
        right
        have h3 := List.cons.inj h2
        exact ⟨a, h3.2⟩
    · cases a with
      | nil =>
        left
        simp only [List.nil_append, List.cons.injEq, true_and] at h2
        exact h2.symm
      | cons c a =>
        have h3 := List.cons.inj h2
        exact absurd (by rw [h1, ← h3.1]; simp) ht

/-- **C159, violated.** A name selects an element of another name, as names of magnets contain points. -/
theorem named_violated : ∃ (f : Frame (Multiplicative Int)) (p : Str), '.' ∉ f.type ∧ '*' ∉ p ∧ '|' ∉ p ∧ f.name ≠ p ∧
    selects p f = true := by
  refine ⟨⟨"Quadrupole".toList, "MQ.12R5".toList, none⟩, "12R5".toList, by decide, by decide, by decide, by decide, ?_⟩
  rw [selects, Frame.qualified, matches_literal _ _ (by decide) (by decide) (by simp)]
  decide

/-- **C159, violated.** In a pattern of two alternatives, the second selects no element: the asterisk and point are put
before the first only. -/
theorem alternative_violated (p q : Str) (hp : p ≠ [] ∧ '|' ∉ p) (hq : q ≠ [] ∧ '|' ∉ q ∧ '*' ∉ q ∧ '.' ∉ q) (f : Frame G) :
    selects (p ++ '|' :: q) f = selects p f := by
  have h : ∀ s, (construct (('*' :: '.' :: p) ++ '|' :: q)).matches s =
      ((construct ('*' :: '.' :: p)).matches s || (construct q).matches s) := by
    intro s
    have h0 := match_or ['*' :: '.' :: p, q] (by simp)
      (by intro x hx; simp only [List.mem_cons, List.not_mem_nil, or_false] at hx
          rcases hx with rfl | rfl
          · exact ⟨by simp, by simp [hp.2]⟩
          · exact ⟨hq.1, hq.2.1⟩) s
    have hi : List.intercalate ['|'] ['*' :: '.' :: p, q] = ('*' :: '.' :: p) ++ '|' :: q := by
      simp [List.intercalate]
    rw [hi] at h0
    simp only [matchStr, List.mem_cons, List.not_mem_nil, or_false, exists_eq_or_imp, exists_eq_left] at h0
    rw [Bool.eq_iff_iff, h0, Bool.or_eq_true]
  rw [selects, selects]
  have h2 : '*' :: '.' :: (p ++ '|' :: q) = ('*' :: '.' :: p) ++ '|' :: q := by simp
  rw [h2, h]
  have h3 : (construct q).matches f.qualified = false := by
    rw [construct_bar_free _ hq.2.1, matches_leaf]
    have hd : delimitString '*' q = ⟨false, false, [q]⟩ := by
      obtain ⟨c, cs, rfl⟩ : ∃ c cs, q = c :: cs := by
        cases q with
        | nil => exact absurd rfl hq.1
        | cons c cs => exact ⟨c, cs, rfl⟩
      have hc : c ≠ '*' := fun h => hq.2.2.1 (by simp [h])
      have hl : ((c :: cs).getLast? == some '*') = false := by
        rw [beq_eq_false_iff_ne]
        intro h
        exact hq.2.2.1 (List.mem_of_getLast? h)
      rw [delimitString]
      simp only [if_neg hc, hl]
      rw [splitLoop_single _ _ hq.2.2.1 (by simp)]
    rw [hd]
    simp only [matchLeaf]
    simp only [Bool.not_false, Bool.and_self, List.length_singleton, beq_self_eq_true, if_true, List.head?_cons]
    rw [beq_eq_false_iff_ne]
    intro h
    have : q = f.type ++ '.' :: f.name := by simpa [Frame.qualified] using h
    exact hq.2.2.2 (by rw [this]; simp)
  rw [h3, Bool.or_false]

example : ∃ f : Frame (Multiplicative Int), ("QF".toList ≠ [] ∧ '|' ∉ "QF".toList) ∧
    ("QD".toList ≠ [] ∧ '|' ∉ "QD".toList ∧ '*' ∉ "QD".toList ∧ '.' ∉ "QD".toList) ∧
    f.name = "QD".toList ∧ selects "QF|QD".toList f = false ∧ selects "QD".toList f = true := by
  refine ⟨⟨"Quadrupole".toList, "QD".toList, none⟩, by decide, by decide, rfl, ?_, ?_⟩
  · have h := alternative_violated (G := Multiplicative Int) "QF".toList "QD".toList (by decide) (by decide)
      ⟨"Quadrupole".toList, "QD".toList, none⟩
    rw [show "QF|QD".toList = "QF".toList ++ '|' :: "QD".toList by decide, h, selects, Frame.qualified,
      matches_literal _ _ (by decide) (by decide) (by simp)]
    decide
  · rw [selects, Frame.qualified, matches_literal _ _ (by decide) (by decide) (by simp)]
    decide

/-- Translations of a line along x and vertical shifts left out: a case of the theorems above. -/
noncomputable def line : Moves ℝ (Multiplicative ℝ) := ⟨fun x _ _ => Multiplicative.ofAdd x, fun _ _ => 1⟩

example : ∃ (rms mean : Fin 3 → ℝ) (f : Frame (Multiplicative ℝ)), (0 : ℝ) ≤ 1 / 1000 ∧
    (∀ x : ℝ, Real.sqrt (x * x) = |x|) ∧ wanted "Q*".toList (some f) = true ∧ Active (1 / 1000) rms 0 ∧
    shift (1 / 1000) line rms mean (fun _ => 2) 0 = Multiplicative.ofAdd 7 := by
  refine ⟨fun _ => 3, fun _ => 1, ⟨"Quadrupole".toList, "Q1".toList, none⟩, by norm_num, Real.sqrt_mul_self_eq_abs, ?_,
    ?_, ?_⟩
  · rw [wanted, construct_bar_free _ (by decide), matches_leaf]
    simp [delimitString, splitLoop, takeLit, skipWC, matchLeaf, matchLoop, findAfter, List.isPrefixOf]
  · unfold Active; norm_num
  · have h : Active (1 / 1000 : ℝ) (fun _ => 3) 0 := by unfold Active; norm_num
    simp only [shift, line, error, if_pos h]
    norm_num

/-! ## C160: the distribution of the errors -/

/-- The numbers of the stream behind different errors differ. -/
theorem index_injective (eps : K) (rms : Fin 3 → K) (m m' : Nat) (a b : Fin 3) (ha : Active eps rms a)
    (hb : Active eps rms b) (h : m * before eps rms 3 + before eps rms a = m' * before eps rms 3 + before eps rms b) :
    m = m' ∧ a = b := by
  obtain ⟨b0, b1, b2, b3⟩ := before_eq eps rms
  have h0 : before eps rms (0 : Fin 3).val = before eps rms 0 := rfl
  have h1 : before eps rms (1 : Fin 3).val = before eps rms 1 := rfl
  have h2 : before eps rms (2 : Fin 3).val = before eps rms 2 := rfl
  by_cases c0 : Active eps rms 0 <;> by_cases c1 : Active eps rms 1 <;> by_cases c2 : Active eps rms 2 <;>
    simp only [c0, c1, c2, if_true, if_false] at b0 b1 b2 b3 <;> rw [b3] at h <;>
    match a, b with
    | 0, 0 => simp_all
    | 0, 1 => simp_all <;> omega
    | 0, 2 => simp_all <;> omega
    | 1, 0 => simp_all <;> omega
    | 1, 1 => simp_all
    | 1, 2 => simp_all <;> omega
    | 2, 0 => simp_all <;> omega
    | 2, 1 => simp_all <;> omega
    | 2, 2 => simp_all

theorem index_lt (eps : K) (rms : Fin 3 → K) (m : Nat) (a : Fin 3) (ha : Active eps rms a) :
    m * before eps rms 3 + before eps rms a < 3 * (m + 1) := by
  obtain ⟨b0, b1, b2, b3⟩ := before_eq eps rms
  have h3 : before eps rms 3 ≤ 3 := by rw [b3]; split_ifs <;> omega
  have ha3 : before eps rms a < 3 := by
    match a with
    | 0 => show before eps rms 0 < 3; omega
    | 1 => show before eps rms 1 < 3; rw [b1]; split_ifs <;> omega
    | 2 => show before eps rms 2 < 3; rw [b2]; split_ifs <;> omega
  have : m * before eps rms 3 ≤ m * 3 := Nat.mul_le_mul_left _ h3
  omega

open Verif.MultiNormal.Spec in
/-- **C160, partial.** The errors of `n` selected elements have the mean and rms asked for, and no two of them are
correlated, neither two axes of one element nor two elements.  Missing: axes whose rms squared is within the rounding
error; there the claim is false (`small_rms_violated`). -/
theorem errors_distribution_partial (eps : K) (rms mean : Fin 3 → K) (n : Nat) (d : List (K × (Nat → K)))
    (hd : Standard (3 * n) d) (m m' : Nat) (hm : m < n) (hm' : m' < n) (a b : Fin 3) (ha : Active eps rms a)
    (hb : Active eps rms b) :
    average d (error eps rms mean m a) = mean a ∧
    average d (fun g => (error eps rms mean m a g - mean a) * (error eps rms mean m' b g - mean b)) =
      if m = m' ∧ a = b then rms a * rms a else 0 := by
  have i1 := index_lt eps rms m a ha
  have i2 := index_lt eps rms m' b hb
  obtain ⟨d1, d2, d3⟩ := hd
  have lin : ∀ (u v : K) (f h : (Nat → K) → K), average d (fun g => u * f g + v * h g) =
      u * average d f + v * average d h := by
    intro u v f h
    unfold average
    induction d with
    | nil => simp
    | cons p d ih =>
      simp only [List.map_cons, List.sum_cons]
      have := ih
      have key : (List.map (fun p => p.1 * (u * f p.2 + v * h p.2)) d).sum =
          u * (List.map (fun p => p.1 * f p.2) d).sum + v * (List.map (fun p => p.1 * h p.2) d).sum := by
        clear d1 d2 d3 this ih
        induction d with
        | nil => simp
        | cons q d ih => simp only [List.map_cons, List.sum_cons]; rw [ih]; ring
      rw [key]; ring
  constructor
  · have h1 : error eps rms mean m a = fun g =>
        mean a * (fun _ => (1 : K)) g + |rms a| * (fun g => g (m * before eps rms 3 + before eps rms a)) g := by
      funext g
      rw [error, if_pos ha]; ring
    rw [h1, lin, d1, d2 _ (by omega)]; ring
  · have h1 : (fun g => (error eps rms mean m a g - mean a) * (error eps rms mean m' b g - mean b)) = fun g =>
        (|rms a| * |rms b|) * (fun g : Nat → K => g (m * before eps rms 3 + before eps rms a) *
          g (m' * before eps rms 3 + before eps rms b)) g + 0 * (fun _ => (0 : K)) g := by
      funext g
      rw [error, if_pos ha, error, if_pos hb]; ring
    rw [h1, lin, d3 _ (by omega) _ (by omega)]
    by_cases h : m = m' ∧ a = b
    · obtain ⟨rfl, rfl⟩ := h
      simp [abs_mul_abs_self]
    · rw [if_neg h, if_neg (fun hh => h (index_injective eps rms m m' a b ha hb hh))]; ring

/-- **C160, violated.** An rms whose square is within the rounding error, as ten nanometres, gives no random error at all:
all elements get the mean. -/
theorem small_rms_violated (eps : K) (he : 0 ≤ eps) (sqrt : K → K) (hs : ∀ x, sqrt (x * x) = |x|) (mv : Moves K G)
    (g : Nat → K) (rms mean : Fin 3 → K) (h : ∀ a, rms a * rms a ≤ eps) (p : Str) (l : List (Option (Frame G))) :
    ∀ x ∈ (applyShifts eps sqrt mv g (setErrors rms mean) p l).2.2, x.e = (mean 0, mean 1, mean 2) := by
  have he : ∀ m a, error eps rms mean m a g = mean a := by
    intro m a
    have : ¬ Active eps rms a := not_lt.2 (h a)
    rw [error, if_neg this]
  rw [log_selected eps ‹_› sqrt hs mv g rms mean p l]
  intro x hx
  obtain ⟨i, hi, hx⟩ := List.mem_mapIdx.1 hx
  rw [← hx]
  simp only [he]

example : ∃ rms : Fin 3 → ℝ, rms 0 = 1 / 100000000 ∧ rms 0 ≠ 0 ∧ rms 0 * rms 0 ≤ 22 / 10 ^ 17 :=
  ⟨fun _ => 1 / 100000000, rfl, by norm_num, by norm_num⟩

example : ∃ (d : List (ℚ × (Nat → ℚ))) (rms : Fin 3 → ℚ), MultiNormal.Spec.Standard (3 * 2) d ∧
    Active (1 / 1000) rms 0 ∧ Active (1 / 1000) rms 2 := by
  obtain ⟨d, hd⟩ := ATL.standard_exists (K := ℚ) (3 * 2)
  exact ⟨d, fun _ => 1, hd, by unfold Active; norm_num, by unfold Active; norm_num⟩

/-- **C160.** The number of random numbers used is the number of axes drawn times the number of elements selected, whatever
the elements are: the errors of a beamline are reproducible from the state of the generator. -/
theorem numbers_used (eps : K) (he : 0 ≤ eps) (sqrt : K → K) (hs : ∀ x, sqrt (x * x) = |x|) (mv : Moves K G)
    (g : Nat → K) (rms mean : Fin 3 → K) (p : Str) (l : List (Option (Frame G))) :
    (applyShifts eps sqrt mv g (setErrors rms mean) p l).2.1 =
      (l.filter (wanted p)).length * ((List.finRange 3).filter fun a => decide (eps < rms a * rms a)).length := by
  have h1 := (applyErrors_eq eps he sqrt hs mv g rms mean true true p l 0).2
  simp only [Nat.zero_mul, Nat.zero_add] at h1
  have h2 : (applyShifts eps sqrt mv g (setErrors rms mean) p l).2.1 = _ := h1
  rw [h2, before]
  congr 2

end Verif.Errors
