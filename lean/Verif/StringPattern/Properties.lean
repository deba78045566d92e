import Verif.StringPattern.Lemmas

/-!
# Property theorems for string patterns (C01-C04)
-/

namespace Verif.StringPattern
open Spec

/-! ## C01: soundness -/

/-- **C01.** A `'|'`-free pattern only matches strings of its language. -/
theorem match_sound (p s : Str) (hp : '|' ∉ p) (h : matchStr p s = true) : Glob p s := by
  unfold matchStr at h
  rw [construct_bar_free p hp, matches_leaf] at h
  rw [glob_iff_delimit]
  have hflags := delimit_nil_flags '*' p
  generalize delimitString '*' p = w at *
  obtain ⟨f, l, ps⟩ := w
  simp only [matchLeaf] at h hflags ⊢
  by_cases hl : (!f && !l && ps.length == 1) = true
  · rw [if_pos hl] at h
    simp only [Bool.and_eq_true, Bool.not_eq_true', beq_iff_eq] at hl
    obtain ⟨⟨rfl, rfl⟩, hlen⟩ := hl
    obtain ⟨a, rfl⟩ := List.length_eq_one_iff.1 hlen
    have : a = s := by simpa using h
    subst this
    rw [litLang_cons_iff]
    exact ⟨[], [], by simp, Or.inl rfl, LitLang.nil (Or.inl rfl)⟩
  · rw [if_neg hl] at h
    cases ps with
    | nil =>
      rw [litLang_nil_iff, ← hflags rfl]
      simp at h
      exact h.symm
    | cons a as => exact matchLoop_sound l f (a :: as) s (by simpa using h)

/-- A pattern with two literals and an inner wildcard that does match. -/
example : '|' ∉ "QF*A*".toList ∧ matchStr "QF*A*".toList "QF12_A3".toList = true := by
  constructor
  · decide
  · unfold matchStr
    rw [construct_bar_free _ (by decide), matches_leaf]
    simp [delimitString, splitLoop, takeLit, skipWC, matchLeaf, matchLoop, findAfter,
      List.isPrefixOf]

/-! ## C02: completeness -/

/-- **C02, violated.** `"*a"` does not match `"aa"`: the search stops at the first `a`. -/
theorem match_complete_violated :
    ∃ p s : Str, '|' ∉ p ∧ Glob p s ∧ matchStr p s = false := by
  refine ⟨"*a".toList, "aa".toList, by decide, ?_, ?_⟩
  · exact Glob.star ['a'] (Glob.char (by decide) Glob.nil)
  · unfold matchStr
    rw [construct_bar_free _ (by decide), matches_leaf]
    simp [delimitString, splitLoop, takeLit, skipWC, matchLeaf, matchLoop, findAfter,
      List.isPrefixOf]

/-- **C02, partial.** Missing: patterns that contain a wildcard but do not end in one (there the
claim is false, `match_complete_violated`; see also `match_complete_unique_partial`). -/
theorem match_complete_partial (p s : Str) (hp : '|' ∉ p)
    (hend : '*' ∉ p ∨ p.getLast? = some '*') (h : Glob p s) : matchStr p s = true := by
  unfold matchStr
  rw [construct_bar_free p hp, matches_leaf]
  rcases hend with hlit | hlast
  · -- no wildcard at all
    obtain ⟨t, rfl, ht⟩ := (glob_lit_append p [] s hlit).1 (by simpa using h)
    rw [glob_nil] at ht
    subst ht
    rw [List.append_nil]
    cases p with
    | nil => simp [delimitString, matchLeaf]
    | cons c cs =>
      have hc : c ≠ '*' := by intro hh; exact hlit (by simp [hh])
      have hl : ((c :: cs).getLast? == some '*') = false := by
        rw [beq_eq_false_iff_ne]; intro hh; exact hlit (List.mem_of_getLast? hh)
      unfold delimitString
      simp only [hc, if_false, hl]
      rw [splitLoop_single '*' _ hlit (by simp)]
      simp [matchLeaf]
  · rw [glob_iff_delimit] at h
    have hne := delimit_pieces_ne_nil '*' p
    have hl : (delimitString '*' p).last = true := by
      unfold delimitString
      cases p with
      | nil => simp at hlast
      | cons c cs =>
        by_cases hc : c = '*'
        · by_cases h0 : skipWC '*' (c :: cs) = []
          · rw [hc] at h0; simp [hc, h0]
          · simp only [hc, if_true] at h0 ⊢
            simp only [h0, if_false]
            rw [hc] at hlast
            simp [hlast]
        · simp only [hc, if_false]; simp [hlast]
    have hflags := delimit_nil_flags '*' p
    generalize delimitString '*' p = w at *
    obtain ⟨f, l, ps⟩ := w
    simp only at hl hne h hflags ⊢
    subst hl
    cases ps with
    | nil => simp [matchLeaf, hflags rfl]
    | cons a as =>
      have := matchLoop_complete_trailing f (a :: as) s hne h
      simp [matchLeaf, this]

example : '|' ∉ "QF*A*".toList ∧ "QF*A*".toList.getLast? = some '*' ∧
    Glob "QF*A*".toList "QF12_A3".toList := by
  refine ⟨by decide, by decide, ?_⟩
  exact Glob.char (by decide) (Glob.char (by decide)
    (Glob.star ['1', '2', '_'] (Glob.char (by decide) (Glob.star (s := []) ['3'] Glob.nil))))

/-- **C02, partial.** A pattern `q*z` that ends in the non-empty literal `z` matches every string
of its language in which `z` occurs only at the end.  Missing: subjects in which the last literal
occurs earlier as well, where the claim is false. -/
theorem match_complete_unique_partial (q z s : Str) (hp : '|' ∉ q ++ '*' :: z)
    (hz : z ≠ []) (hzw : '*' ∉ z) (huniq : ∀ a b, s = a ++ (z ++ b) → b = [])
    (h : Glob (q ++ '*' :: z) s) : matchStr (q ++ '*' :: z) s = true := by
  unfold matchStr
  rw [construct_bar_free _ hp, matches_leaf]
  rw [glob_iff_delimit] at h
  have hne := delimit_pieces_ne_nil '*' (q ++ '*' :: z)
  obtain ⟨hlst, ls, hls⟩ := delimit_tail q z hz hzw
  generalize delimitString '*' (q ++ '*' :: z) = w at *
  obtain ⟨f, l, ps⟩ := w
  simp only at hlst hls hne h ⊢
  obtain ⟨rfl, hlen⟩ := hls
  subst hlst
  have := matchLoop_complete_unique f ls z s [] hne (by simpa using huniq) h
  have hcond : (!f && !false && (ls ++ [z]).length == 1) = false := by
    cases f with
    | true => simp
    | false =>
      have := hlen rfl
      cases ls with
      | nil => exact absurd rfl this
      | cons a as => simp
  unfold matchLeaf
  rw [hcond]
  simp only [Bool.false_eq_true, if_false]
  have he : (ls ++ [z]).isEmpty = false := by simp
  rw [he]
  simpa using this

/-- `"*_A"` against `"QF_A"`: the literal `_A` occurs once, at the end. -/
example : '|' ∉ ([] : Str) ++ '*' :: "_A".toList ∧ "_A".toList ≠ [] ∧ '*' ∉ "_A".toList ∧
    (∀ a b, "QF_A".toList = a ++ ("_A".toList ++ b) → b = []) ∧
    Glob (([] : Str) ++ '*' :: "_A".toList) "QF_A".toList := by
  refine ⟨by decide, by decide, by decide, ?_, ?_⟩
  · intro a b h
    match a with
    | [] => simp at h
    | [_] => simp at h
    | [_, _] => simp at h; exact h.2.2
    | [_, _, _] => simp at h
    | [_, _, _, _] => simp at h
    | _ :: _ :: _ :: _ :: _ :: _ => simp at h
  · exact Glob.star ['Q', 'F'] (Glob.char (by decide) (Glob.char (by decide) Glob.nil))

/-- **C01 and C02 together** for patterns ending in a wildcard: the match is exactly the language. -/
theorem match_iff_glob_of_trailing_star (p s : Str) (hp : '|' ∉ p)
    (hend : p.getLast? = some '*') : matchStr p s = true ↔ Glob p s :=
  ⟨match_sound p s hp, match_complete_partial p s hp (Or.inr hend)⟩

/-! ## C03: alternatives -/

/-- **C03.** `"p1|...|pn"` matches exactly what one of the alternatives matches. -/
theorem match_or (ps : List Str) (hn : 2 ≤ ps.length) (hps : ∀ p ∈ ps, p ≠ [] ∧ '|' ∉ p)
    (s : Str) :
    matchStr (List.intercalate ['|'] ps) s = true ↔ ∃ p ∈ ps, matchStr p s = true := by
  have hne : ps ≠ [] := by rintro rfl; simp at hn
  have hd := delimit_join_bar ps hps hne
  unfold matchStr
  rw [construct, dif_pos (by rw [hd]; omega)]
  have : ∀ (x : Str) (a : List Str) (os : List Pattern), os ≠ [] →
      (Pattern.mk x a os false false false).matches s = os.any (·.matches s) := by
    intro x a os hos
    cases os with
    | nil => exact absurd rfl hos
    | cons o os => simp [Pattern.matches, matchAny_eq_any]
  rw [this]
  · rw [List.any_map]
    simp only [List.any_eq_true, List.mem_attach, true_and, Function.comp, Subtype.exists]
    rw [hd]
    constructor
    · rintro ⟨p, hp, h⟩; exact ⟨p, hp, h⟩
    · rintro ⟨p, hp, h⟩; exact ⟨p, hp, h⟩
  · rw [hd]; simpa using hne

example : 2 ≤ ["QF*".toList, "QD*".toList].length ∧
    (∀ p ∈ ["QF*".toList, "QD*".toList], p ≠ [] ∧ '|' ∉ p) := by decide

/-- Together with C01: an OR pattern only matches strings in the language of an alternative. -/
theorem match_or_sound (ps : List Str) (hn : 2 ≤ ps.length) (hps : ∀ p ∈ ps, p ≠ [] ∧ '|' ∉ p)
    (s : Str) (h : matchStr (List.intercalate ['|'] ps) s = true) : ∃ p ∈ ps, Glob p s := by
  obtain ⟨p, hp, hm⟩ := (match_or ps hn hps s).1 h
  exact ⟨p, hp, match_sound p s (hps p hp).2 hm⟩

/-- Empty alternatives are outside C03: `"A|"` is taken as the literal text `A|` and does not
match `A`. -/
theorem match_or_empty_alternative : matchStr "A|".toList "A".toList = false := by
  have h : (delimitString '|' "A|".toList).pieces = [['A']] := by
    simp [delimitString, splitLoop, takeLit, skipWC]
  unfold matchStr
  rw [construct, dif_neg (by rw [h]; decide)]
  have e : delimitString '*' "A|".toList = ⟨false, false, [['A', '|']]⟩ := by
    simp [delimitString, splitLoop, takeLit, skipWC]
  rw [matches_leaf, e]
  simp [matchLeaf]

/-! ## C04: printing -/

/-- **C04.** Printing a pattern without alternatives and reading the text back gives a pattern
that matches the same strings.  (`'|'`-free patterns have no alternatives.) -/
theorem print_equivalent (p s : Str) (hp : '|' ∉ p) :
    matchStr (construct p).print s = matchStr p s := by
  have h1 := construct_bar_free p hp
  have hpr : delimitString '*' (leaf p).print = delimitString '*' p := by
    unfold leaf Pattern.print
    have := delimit_print (delimitString '*' p).first (delimitString '*' p).last
      (delimitString '*' p).pieces
      (fun x hx => ⟨delimit_pieces_ne_nil '*' p x hx, delimit_pieces_not_mem '*' p x hx⟩)
      (delimit_nil_flags '*' p)
    exact this
  have hbar : '|' ∉ (leaf p).print := by
    intro hmem
    have hsub : ∀ l ∈ (delimitString '*' p).pieces, '|' ∉ l :=
      fun l hl hc => hp (delimit_pieces_subset '*' p l hl '|' hc)
    unfold leaf Pattern.print at hmem
    simp only [List.mem_append] at hmem
    rcases hmem with (hmem | hmem) | hmem
    · split at hmem <;> simp at hmem
    · rcases mem_intercalate_star _ _ hmem with hmem | ⟨l, hl, hc⟩
      · simp at hmem
      · exact hsub l hl hc
    · split at hmem <;> simp at hmem
  unfold matchStr
  rw [h1, construct_bar_free _ hbar, matches_leaf, matches_leaf, hpr]

example : '|' ∉ "a**b*".toList ∧ (construct "a**b*".toList).print = "a*b*".toList := by
  refine ⟨by decide, ?_⟩
  rw [construct_bar_free _ (by decide)]
  simp [leaf, Pattern.print, delimitString, splitLoop, takeLit, skipWC, List.intercalate,
    List.intersperse]

/-- **C04, violated for OR patterns.** `"A|B"` is printed as `"A*B"`, which matches `"AxB"`. -/
theorem print_or_violated :
    ∃ p s : Str, matchStr (construct p).print s = true ∧ matchStr p s = false := by
  refine ⟨"A|B".toList, "AxB".toList, ?_, ?_⟩
  · have hd : (delimitString '|' "A|B".toList).pieces = [['A'], ['B']] := by
      simp [delimitString, splitLoop, takeLit, skipWC]
    rw [construct, dif_pos (by rw [hd]; decide)]
    unfold Pattern.print matchStr
    rw [hd]
    simp only [Bool.false_eq_true, if_false, List.nil_append, List.append_nil]
    rw [show List.intercalate ['*'] [['A'], ['B']] = ['A', '*', 'B'] by
      simp [List.intercalate, List.intersperse]]
    rw [construct_bar_free _ (by decide), matches_leaf]
    simp [delimitString, splitLoop, takeLit, skipWC, matchLeaf, matchLoop, findAfter,
      List.isPrefixOf]
  · have := (match_or [['A'], ['B']] (by decide) (by decide) "AxB".toList)
    rw [show List.intercalate ['|'] [['A'], ['B']] = "A|B".toList by
      simp [List.intercalate, List.intersperse]] at this
    cases hm : matchStr "A|B".toList "AxB".toList with
    | false => rfl
    | true =>
      obtain ⟨p, hp, h⟩ := this.1 hm
      simp only [List.mem_cons, List.not_mem_nil, or_false] at hp
      unfold matchStr at h
      rcases hp with rfl | rfl <;>
      · rw [construct_bar_free _ (by decide), matches_leaf] at h
        simp [delimitString, splitLoop, takeLit, skipWC, matchLeaf] at h

/-- **C04, violated literally.** The printed text is not always the original pattern text. -/
theorem print_not_original : ∃ p : Str, '|' ∉ p ∧ (construct p).print ≠ p := by
  refine ⟨"*".toList, by decide, ?_⟩
  rw [construct_bar_free _ (by decide)]
  simp [leaf, Pattern.print, delimitString, skipWC, List.intercalate]

#print axioms match_sound
#print axioms match_complete_violated
#print axioms match_complete_partial
#print axioms match_complete_unique_partial
#print axioms match_iff_glob_of_trailing_star
#print axioms match_or
#print axioms match_or_sound
#print axioms match_or_empty_alternative
#print axioms print_equivalent
#print axioms print_or_violated
#print axioms print_not_original

end Verif.StringPattern
