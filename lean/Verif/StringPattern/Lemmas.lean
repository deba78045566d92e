import Verif.StringPattern.Model
import Verif.StringPattern.Spec

/-!
# Helper lemmas for string patterns
-/

namespace Verif.StringPattern
open Spec

/-! ## The splitter -/

theorem takeLit_append (d : Char) (s : Str) : (takeLit d s).1 ++ (takeLit d s).2 = s := by
  induction s with
  | nil => simp [takeLit]
  | cons c cs ih =>
    unfold takeLit
    by_cases h : c = d <;> simp [h, ih]

theorem takeLit_not_mem (d : Char) (s : Str) : d ∉ (takeLit d s).1 := by
  induction s with
  | nil => simp [takeLit]
  | cons c cs ih =>
    unfold takeLit
    by_cases h : c = d
    · simp [h]
    · simp only [h, if_false, List.mem_cons, not_or]
      exact ⟨fun hh => h hh.symm, ih⟩

theorem takeLit_snd (d : Char) (s : Str) :
    (takeLit d s).2 = [] ∨ ∃ r, (takeLit d s).2 = d :: r := by
  induction s with
  | nil => simp [takeLit]
  | cons c cs ih =>
    unfold takeLit
    by_cases h : c = d
    · simp [h]
    · simp only [h, if_false]; exact ih

theorem takeLit_lit_nil (d : Char) (l : Str) (h : d ∉ l) : takeLit d l = (l, []) := by
  induction l with
  | nil => simp [takeLit]
  | cons c cs ih =>
    simp only [List.mem_cons, not_or] at h
    have hc : c ≠ d := fun hh => h.1 hh.symm
    unfold takeLit
    simp [hc, ih h.2]

theorem takeLit_lit_cons (d : Char) (l r : Str) (h : d ∉ l) :
    takeLit d (l ++ d :: r) = (l, d :: r) := by
  induction l with
  | nil => simp [takeLit]
  | cons c cs ih =>
    simp only [List.mem_cons, not_or] at h
    have hc : c ≠ d := fun hh => h.1 hh.symm
    simp only [List.cons_append]
    unfold takeLit
    simp [hc, ih h.2]

theorem skipWC_eq_replicate (d : Char) (s : Str) :
    ∃ n, s = List.replicate n d ++ skipWC d s := by
  induction s with
  | nil => exact ⟨0, by simp [skipWC]⟩
  | cons c cs ih =>
    unfold skipWC
    by_cases h : c = d
    · obtain ⟨n, hn⟩ := ih
      refine ⟨n + 1, ?_⟩
      simp only [h, if_true, List.replicate_succ, List.cons_append]
      rw [← hn]
    · exact ⟨0, by simp [h]⟩

theorem skipWC_head (d : Char) (s : Str) : ∀ r, skipWC d s ≠ d :: r := by
  induction s with
  | nil => simp [skipWC]
  | cons c cs ih =>
    unfold skipWC
    by_cases h : c = d
    · simpa [h] using ih
    · intro r hr
      simp only [h, if_false, List.cons.injEq] at hr
      exact hr.1

theorem skipWC_of_head_ne (d : Char) (s : Str) (h : s.head? ≠ some d) : skipWC d s = s := by
  cases s with
  | nil => rfl
  | cons c cs =>
    have : c ≠ d := by simpa using h
    simp [skipWC, this]

/-- Pieces are free of the delimiter. -/
theorem splitLoop_not_mem (d : Char) (s : Str) : ∀ p ∈ splitLoop d s, d ∉ p := by
  induction s using splitLoop.induct d with
  | case1 => simp [splitLoop]
  | case2 c cs ih =>
    rw [splitLoop]
    intro p hp
    rcases List.mem_cons.1 hp with rfl | hp
    · exact takeLit_not_mem d _
    · exact ih p hp

/-- Pieces are non-empty if the text does not start with the delimiter. -/
theorem splitLoop_ne_nil (d : Char) (s : Str) (h : s.head? ≠ some d) :
    ∀ p ∈ splitLoop d s, p ≠ [] := by
  induction s using splitLoop.induct d with
  | case1 => simp [splitLoop]
  | case2 c cs ih =>
    rw [splitLoop]
    intro p hp
    rcases List.mem_cons.1 hp with rfl | hp
    · have : c ≠ d := by simpa using h
      simp [takeLit, this]
    · refine ih ?_ p hp
      intro hh
      have := skipWC_head d (takeLit d (c :: cs)).2
      cases hs : skipWC d (takeLit d (c :: cs)).2 with
      | nil => rw [hs] at hh; simp at hh
      | cons a as =>
        rw [hs] at hh
        simp only [List.head?_cons, Option.some.injEq] at hh
        exact this as (by rw [hs, hh])

theorem splitLoop_cons_lit (d : Char) (l r : Str) (h : d ∉ l) (hl : l ≠ []) :
    splitLoop d (l ++ d :: r) = l :: splitLoop d (skipWC d r) := by
  cases l with
  | nil => exact absurd rfl hl
  | cons a as =>
    rw [List.cons_append, splitLoop, ← List.cons_append, takeLit_lit_cons d _ _ h]
    simp [skipWC]

theorem splitLoop_single (d : Char) (l : Str) (h : d ∉ l) (hl : l ≠ []) :
    splitLoop d l = [l] := by
  cases l with
  | nil => exact absurd rfl hl
  | cons a as =>
    rw [splitLoop, takeLit_lit_nil d _ h]
    simp [skipWC, splitLoop]

/-- Joining delimiter-free non-empty pieces and splitting gives the pieces back. -/
theorem splitLoop_intercalate (d : Char) (ls : List Str)
    (h : ∀ l ∈ ls, l ≠ [] ∧ d ∉ l) (tail : Str) (ht : tail = [] ∨ tail = [d]) (hne : ls ≠ []) :
    splitLoop d (List.intercalate [d] ls ++ tail) = ls := by
  induction ls with
  | nil => exact absurd rfl hne
  | cons l ls ih =>
    obtain ⟨hl1, hl2⟩ := h l (by simp)
    cases ls with
    | nil =>
      rw [show List.intercalate [d] [l] = l by simp [List.intercalate]]
      rcases ht with rfl | rfl
      · rw [List.append_nil]; exact splitLoop_single d l hl2 hl1
      · rw [splitLoop_cons_lit d l [] hl2 hl1]; simp [skipWC, splitLoop]
    | cons m ms =>
      have hm := h m (by simp)
      have e : List.intercalate [d] (l :: m :: ms) ++ tail
          = l ++ d :: (List.intercalate [d] (m :: ms) ++ tail) := by
        simp [List.intercalate, List.intersperse]
      rw [e, splitLoop_cons_lit d l _ hl2 hl1]
      rw [skipWC_of_head_ne]
      · rw [ih (fun x hx => h x (List.mem_cons_of_mem _ hx)) (by simp)]
      · obtain ⟨hm1, hm2⟩ := hm
        cases m with
        | nil => exact absurd rfl hm1
        | cons a as =>
          simp only [List.mem_cons, not_or] at hm2
          cases ms with
          | nil => simp [List.intercalate]; exact fun hh => hm2.1 hh.symm
          | cons b bs => simp [List.intercalate, List.intersperse]; exact fun hh => hm2.1 hh.symm

/-! ## Language of a split pattern -/

/-- Language of a list of literals separated by wildcards; `fl`: text may precede the first
literal, `tr`: text may follow the last one. -/
inductive LitLang (tr : Bool) : Bool → List Str → Str → Prop
  | nil {fl s} : (s = [] ∨ tr = true) → LitLang tr fl [] s
  | cons {fl l ls w s} : (w = [] ∨ fl = true) → LitLang tr true ls s →
      LitLang tr fl (l :: ls) (w ++ (l ++ s))

theorem glob_lit_append (l p s : Str) (h : '*' ∉ l) :
    Glob (l ++ p) s ↔ ∃ t, s = l ++ t ∧ Glob p t := by
  induction l generalizing s with
  | nil => simp
  | cons c cs ih =>
    simp only [List.mem_cons, not_or] at h
    constructor
    · intro hg
      rw [List.cons_append] at hg
      cases hg with
      | char hc hg' =>
        obtain ⟨t, rfl, ht⟩ := (ih _ h.2).1 hg'
        exact ⟨t, by simp, ht⟩
      | star w hg' => exact absurd rfl h.1
    · rintro ⟨t, rfl, ht⟩
      rw [List.cons_append, List.cons_append]
      exact Glob.char (fun hh => h.1 hh.symm) ((ih _ h.2).2 ⟨t, rfl, ht⟩)

theorem glob_star (p s : Str) : Glob ('*' :: p) s ↔ ∃ w t, s = w ++ t ∧ Glob p t := by
  constructor
  · intro hg
    generalize hq : '*' :: p = q at hg
    cases hg with
    | nil => simp at hq
    | char hc _ => simp only [List.cons.injEq] at hq; exact absurd hq.1.symm hc
    | star w hg' => simp only [List.cons.injEq] at hq; exact ⟨w, _, rfl, hq.2 ▸ hg'⟩
  · rintro ⟨w, t, rfl, ht⟩; exact Glob.star w ht

theorem glob_stars (n : Nat) (p s : Str) :
    Glob (List.replicate (n + 1) '*' ++ p) s ↔ ∃ w t, s = w ++ t ∧ Glob p t := by
  induction n generalizing s with
  | zero => simpa using glob_star p s
  | succ n ih =>
    rw [List.replicate_succ, List.cons_append, glob_star]
    constructor
    · rintro ⟨w, t, rfl, ht⟩
      obtain ⟨w', t', rfl, ht'⟩ := (ih _).1 ht
      exact ⟨w ++ w', t', by simp, ht'⟩
    · rintro ⟨w, t, rfl, ht⟩
      exact ⟨w, t, rfl, (ih _).2 ⟨[], t, by simp, ht⟩⟩

theorem glob_nil (s : Str) : Glob [] s ↔ s = [] := by
  constructor
  · intro h; cases h; rfl
  · rintro rfl; exact Glob.nil

theorem litLang_nil_iff (tr fl : Bool) (s : Str) :
    LitLang tr fl [] s ↔ (s = [] ∨ tr = true) :=
  ⟨fun h => by cases h with | nil h => exact h, LitLang.nil⟩

theorem litLang_cons_iff (tr fl : Bool) (l : Str) (ls : List Str) (s : Str) :
    LitLang tr fl (l :: ls) s ↔
      ∃ w t, s = w ++ (l ++ t) ∧ (w = [] ∨ fl = true) ∧ LitLang tr true ls t := by
  constructor
  · intro h
    cases h with
    | cons hw h' => exact ⟨_, _, rfl, hw, h'⟩
  · rintro ⟨w, t, rfl, hw, h'⟩; exact LitLang.cons hw h'

theorem litLang_float_iff (tr : Bool) (l : Str) (ls : List Str) (s : Str) :
    LitLang tr true (l :: ls) s ↔ ∃ w t, s = w ++ t ∧ LitLang tr false (l :: ls) t := by
  simp only [litLang_cons_iff]
  constructor
  · rintro ⟨w, t, rfl, -, h⟩
    exact ⟨w, l ++ t, rfl, [], t, by simp, Or.inl rfl, h⟩
  · rintro ⟨w, t, rfl, w', t', rfl, hw, h⟩
    have : w' = [] := by simpa using hw
    subst this
    exact ⟨w, t', by simp, Or.inr trivial, h⟩

/-- Language of a text not starting with a wildcard. -/
theorem glob_iff_splitLoop (p s : Str) (h : p.head? ≠ some '*') :
    Glob p s ↔ LitLang (p.getLast? == some '*') false (splitLoop '*' p) s := by
  induction p using splitLoop.induct '*' generalizing s with
  | case1 =>
    rw [splitLoop, glob_nil]
    constructor
    · rintro rfl; exact LitLang.nil (Or.inl rfl)
    · intro hh
      cases hh with
      | nil h => simpa using h
  | case2 c cs ih =>
    have hc : c ≠ '*' := by simpa using h
    rw [splitLoop]
    have happ := takeLit_append '*' (c :: cs)
    have hlit := takeLit_not_mem '*' (c :: cs)
    have hlne : (takeLit '*' (c :: cs)).1 ≠ [] := by simp [takeLit, hc]
    have hsnd := takeLit_snd '*' (c :: cs)
    generalize (takeLit '*' (c :: cs)).1 = l at *
    generalize (takeLit '*' (c :: cs)).2 = r at *
    rw [← happ, glob_lit_append _ _ _ hlit]
    rcases hsnd with rfl | ⟨r', rfl⟩
    · -- no wildcard follows
      have hlast : ((l ++ []).getLast? == some '*') = false := by
        rw [List.append_nil, beq_eq_false_iff_ne]
        intro hh
        exact hlit (List.mem_of_getLast? hh)
      rw [hlast, litLang_cons_iff]
      simp only [skipWC, splitLoop, litLang_nil_iff, glob_nil]
      constructor
      · rintro ⟨t, rfl, rfl⟩; exact ⟨[], [], by simp, Or.inl rfl, Or.inl rfl⟩
      · rintro ⟨w, t, rfl, hw, ht⟩
        exact ⟨t, by simpa using hw, by simpa using ht⟩
    · -- a wildcard follows
      obtain ⟨n, hn⟩ := skipWC_eq_replicate '*' ('*' :: r')
      have hhead : (skipWC '*' ('*' :: r')).head? ≠ some '*' := by
        intro hh
        cases hs : skipWC '*' ('*' :: r') with
        | nil => rw [hs] at hh; simp at hh
        | cons a as =>
          rw [hs] at hh
          simp only [List.head?_cons, Option.some.injEq] at hh
          exact skipWC_head '*' ('*' :: r') as (by rw [hs, hh])
      have hn0 : ∃ m, n = m + 1 := by
        cases n with
        | zero => exfalso; simp at hn; exact skipWC_head '*' ('*' :: r') r' hn.symm
        | succ m => exact ⟨m, rfl⟩
      obtain ⟨m, rfl⟩ := hn0
      have ih' := fun s => ih s hhead
      generalize skipWC '*' ('*' :: r') = q at *
      rw [hn]
      have hglob : ∀ t, Glob (List.replicate (m + 1) '*' ++ q) t ↔
          LitLang ((l ++ (List.replicate (m + 1) '*' ++ q)).getLast? == some '*') true
            (splitLoop '*' q) t := by
        intro t
        rw [glob_stars]
        cases q with
        | nil =>
          have : ((l ++ (List.replicate (m + 1) '*' ++ [])).getLast? == some '*') = true := by
            rw [List.append_nil, List.replicate_succ']
            simp
          rw [this, splitLoop]
          constructor
          · intro _; exact LitLang.nil (Or.inr rfl)
          · intro _; exact ⟨t, [], by simp, Glob.nil⟩
        | cons a as =>
          have hl : (l ++ (List.replicate (m + 1) '*' ++ a :: as)).getLast? = (a :: as).getLast? := by
            rw [List.getLast?_append, List.getLast?_append]; simp [List.getLast?_cons]
          rw [hl]
          have hsp : ∃ l' ls', splitLoop '*' (a :: as) = l' :: ls' := by
            rw [splitLoop]; exact ⟨_, _, rfl⟩
          obtain ⟨l', ls', hsp⟩ := hsp
          rw [hsp, litLang_float_iff]
          constructor
          · rintro ⟨w, t, rfl, ht⟩
            exact ⟨w, t, rfl, hsp ▸ (ih' t).1 ht⟩
          · rintro ⟨w, t, rfl, ht⟩
            exact ⟨w, t, rfl, (ih' t).2 (hsp ▸ ht)⟩
      rw [litLang_cons_iff]
      constructor
      · rintro ⟨t, rfl, ht⟩
        exact ⟨[], t, rfl, Or.inl rfl, (hglob t).1 ht⟩
      · rintro ⟨w, t, rfl, hw, ht⟩
        have : w = [] := by simpa using hw
        subst this
        exact ⟨t, rfl, (hglob t).2 ht⟩

/-- Language of a pattern in terms of what `DelimitString` returns. -/
theorem glob_iff_delimit (p s : Str) :
    Glob p s ↔ LitLang (delimitString '*' p).last (delimitString '*' p).first
      (delimitString '*' p).pieces s := by
  cases p with
  | nil =>
    rw [glob_nil]
    constructor
    · rintro rfl; exact LitLang.nil (Or.inl rfl)
    · intro h
      cases h with
      | nil h => simpa [delimitString] using h
  | cons c cs =>
    by_cases hc : c = '*'
    · subst hc
      obtain ⟨n, hn⟩ := skipWC_eq_replicate '*' ('*' :: cs)
      have hn0 : ∃ m, n = m + 1 := by
        cases n with
        | zero => exfalso; simp at hn; exact skipWC_head '*' ('*' :: cs) cs hn.symm
        | succ m => exact ⟨m, rfl⟩
      obtain ⟨m, rfl⟩ := hn0
      have hhead : (skipWC '*' ('*' :: cs)).head? ≠ some '*' := by
        intro hh
        cases hs : skipWC '*' ('*' :: cs) with
        | nil => rw [hs] at hh; simp at hh
        | cons a as =>
          rw [hs] at hh
          simp only [List.head?_cons, Option.some.injEq] at hh
          exact skipWC_head '*' ('*' :: cs) as (by rw [hs, hh])
      have hlast : ∀ q, '*' :: cs = List.replicate (m + 1) '*' ++ q → q ≠ [] →
          ('*' :: cs).getLast? = q.getLast? := by
        intro q hq hne
        rw [hq]
        cases q with
        | nil => exact absurd rfl hne
        | cons a as => rw [List.getLast?_append]; simp [List.getLast?_cons]
      unfold delimitString
      simp only [if_true]
      by_cases h0 : skipWC '*' ('*' :: cs) = []
      · rw [if_pos h0]
        constructor
        · intro _; exact LitLang.nil (Or.inr rfl)
        · intro _
          rw [hn, h0]
          exact (glob_stars m [] s).2 ⟨s, [], by simp, Glob.nil⟩
      · rw [if_neg h0]
        have hg := fun t => glob_iff_splitLoop (skipWC '*' ('*' :: cs)) t hhead
        rw [hlast _ hn h0]
        generalize skipWC '*' ('*' :: cs) = q at *
        rw [hn, glob_stars]
        cases q with
        | nil => exact absurd rfl h0
        | cons a as =>
          have hsp : ∃ l' ls', splitLoop '*' (a :: as) = l' :: ls' := by
            rw [splitLoop]; exact ⟨_, _, rfl⟩
          obtain ⟨l', ls', hsp⟩ := hsp
          simp only [hsp] at hg ⊢
          rw [litLang_float_iff]
          constructor
          · rintro ⟨w, t, rfl, ht⟩; exact ⟨w, t, rfl, (hg t).1 ht⟩
          · rintro ⟨w, t, rfl, ht⟩; exact ⟨w, t, rfl, (hg t).2 ht⟩
    · have := glob_iff_splitLoop (c :: cs) s (by simpa using hc)
      unfold delimitString
      simp only [hc, if_false]
      exact this

theorem delimit_pieces_ne_nil (d : Char) (p : Str) :
    ∀ l ∈ (delimitString d p).pieces, l ≠ [] := by
  unfold delimitString
  cases p with
  | nil => simp
  | cons c cs =>
    by_cases hc : c = d
    · simp only [hc, if_true]
      by_cases h0 : skipWC d (d :: cs) = []
      · simp [h0]
      · simp only [h0, if_false]
        refine splitLoop_ne_nil d _ ?_
        intro hh
        cases hs : skipWC d (d :: cs) with
        | nil => exact h0 hs
        | cons a as =>
          rw [hs] at hh
          simp only [List.head?_cons, Option.some.injEq] at hh
          exact skipWC_head d (d :: cs) as (by rw [hs, hh])
    · simp only [hc, if_false]
      exact splitLoop_ne_nil d _ (by simpa using hc)

theorem delimit_pieces_not_mem (d : Char) (p : Str) :
    ∀ l ∈ (delimitString d p).pieces, d ∉ l := by
  unfold delimitString
  cases p with
  | nil => simp
  | cons c cs =>
    by_cases hc : c = d
    · simp only [hc, if_true]
      by_cases h0 : skipWC d (d :: cs) = []
      · simp [h0]
      · simp only [h0, if_false]; exact splitLoop_not_mem d _
    · simp only [hc, if_false]; exact splitLoop_not_mem d _

theorem splitLoop_eq_nil (d : Char) (p : Str) (h : splitLoop d p = []) : p = [] := by
  cases p with
  | nil => rfl
  | cons c cs => rw [splitLoop] at h; simp at h

theorem delimit_nil_flags (d : Char) (p : Str) (h : (delimitString d p).pieces = []) :
    (delimitString d p).first = (delimitString d p).last := by
  unfold delimitString at h ⊢
  cases p with
  | nil => rfl
  | cons c cs =>
    by_cases hc : c = d
    · simp only [hc, if_true] at h ⊢
      by_cases h0 : skipWC d (d :: cs) = []
      · simp [h0]
      · simp only [h0, if_false] at h
        exact absurd (splitLoop_eq_nil d _ h) h0
    · simp only [hc, if_false] at h
      exact absurd (splitLoop_eq_nil d _ h) (by simp)

/-! ## The matcher -/

theorem findAfter_some {lit s t : Str} (h : findAfter lit s = some t) :
    ∃ w, s = w ++ (lit ++ t) := by
  induction s with
  | nil =>
    unfold findAfter at h
    by_cases hl : lit = []
    · simp [hl] at h; exact ⟨[], by simp [hl, h]⟩
    · simp [hl] at h
  | cons c cs ih =>
    unfold findAfter at h
    by_cases hp : lit.isPrefixOf (c :: cs)
    · simp only [hp, if_true, Option.some.injEq] at h
      obtain ⟨r, hr⟩ := List.isPrefixOf_iff_prefix.1 hp
      refine ⟨[], ?_⟩
      rw [← hr] at h ⊢
      simp at h
      simp [h]
    · simp only [hp] at h
      obtain ⟨w, hw⟩ := ih h
      exact ⟨c :: w, by rw [hw]; rfl⟩

/-- The leftmost occurrence leaves the longest remainder. -/
theorem findAfter_leftmost {lit w t : Str} :
    ∃ v, findAfter lit (w ++ (lit ++ t)) = some (v ++ t) := by
  induction w with
  | nil =>
    refine ⟨[], ?_⟩
    rw [List.nil_append, List.nil_append]
    cases hs : lit ++ t with
    | nil =>
      have h1 := List.append_eq_nil_iff.1 hs
      simp [findAfter, h1.1, h1.2]
    | cons c cs =>
      have : lit.isPrefixOf (c :: cs) = true := by
        rw [List.isPrefixOf_iff_prefix, ← hs]; exact List.prefix_append _ _
      unfold findAfter
      rw [if_pos this, ← hs]
      simp
  | cons c cs ih =>
    rw [List.cons_append]
    unfold findAfter
    by_cases hp : lit.isPrefixOf (c :: (cs ++ (lit ++ t)))
    · rw [if_pos hp]
      obtain ⟨r, hr⟩ := List.isPrefixOf_iff_prefix.1 hp
      have hd : (c :: (cs ++ (lit ++ t))).drop lit.length = r := by rw [← hr]; simp
      rw [hd]
      have hlen : (c :: cs ++ (lit ++ t)).length = (lit ++ r).length := by
        rw [List.cons_append, hr]
      have hsuf1 : t <:+ (lit ++ r) := by
        rw [hr]
        exact ⟨c :: cs ++ lit, by simp⟩
      have hsuf2 : r <:+ (lit ++ r) := List.suffix_append _ _
      have hle : t.length ≤ r.length := by
        simp only [List.length_append, List.length_cons] at hlen
        omega
      obtain ⟨v, hv⟩ := List.suffix_of_suffix_length_le hsuf1 hsuf2 hle
      exact ⟨v, by rw [hv]⟩
    · rw [if_neg hp]; exact ih

theorem litLang_prepend {ls : List Str} {s : Str} (v : Str) (h : LitLang true true ls s) :
    LitLang true true ls (v ++ s) := by
  cases h with
  | nil _ => exact LitLang.nil (Or.inr rfl)
  | cons _ h' =>
    rename_i l ls w s
    rw [← List.append_assoc]
    exact LitLang.cons (Or.inr rfl) h'

/-- Soundness of the loop. -/
theorem matchLoop_sound (tr : Bool) (fl : Bool) (ls : List Str) (s : Str)
    (h : matchLoop tr fl ls s = true) : LitLang tr fl ls s := by
  induction ls generalizing fl s with
  | nil =>
    unfold matchLoop at h
    refine LitLang.nil ?_
    simpa using h
  | cons l ls ih =>
    unfold matchLoop at h
    by_cases he : s.isEmpty
    · simp [he] at h
    · simp only [he] at h
      cases fl with
      | true =>
        simp only [if_true] at h
        cases hf : findAfter l s with
        | none => simp [hf] at h
        | some t =>
          simp only [hf] at h
          obtain ⟨w, rfl⟩ := findAfter_some hf
          exact LitLang.cons (Or.inr rfl) (ih _ _ h)
      | false =>
        by_cases hp : l.isPrefixOf s
        · simp only [hp] at h
          obtain ⟨r, rfl⟩ := List.isPrefixOf_iff_prefix.1 hp
          simp only [List.drop_left] at h
          exact LitLang.cons (w := []) (Or.inl rfl) (ih _ _ (by simpa using h))
        · simp [hp] at h

/-- Completeness of the loop when text may follow the last literal. -/
theorem matchLoop_complete_trailing (fl : Bool) (ls : List Str) (s : Str)
    (hne : ∀ l ∈ ls, l ≠ []) (h : LitLang true fl ls s) : matchLoop true fl ls s = true := by
  induction ls generalizing fl s with
  | nil => simp [matchLoop]
  | cons l ls ih =>
    cases h with
    | cons hw h' =>
      rename_i w t
      have hl : l ≠ [] := hne l (by simp)
      have he : (w ++ (l ++ t)).isEmpty = false := by simp [hl]
      unfold matchLoop
      simp only [he]
      cases fl with
      | true =>
        obtain ⟨v, hv⟩ := findAfter_leftmost (lit := l) (w := w) (t := t)
        simp only [if_true, hv]
        exact ih true _ (fun x hx => hne x (List.mem_cons_of_mem _ hx)) (litLang_prepend v h')
      | false =>
        have hw' : w = [] := by simpa using hw
        subst hw'
        have : l.isPrefixOf (l ++ t) = true := by
          rw [List.isPrefixOf_iff_prefix]; exact List.prefix_append _ _
        simp only [List.nil_append, this, if_true, List.drop_left]
        exact ih true _ (fun x hx => hne x (List.mem_cons_of_mem _ hx)) h'

/-- Completeness of the loop when the last literal occurs only at the end of the subject. -/
theorem matchLoop_complete_unique (fl : Bool) (ls : List Str) (lz s pre : Str)
    (hne : ∀ l ∈ ls ++ [lz], l ≠ [])
    (huniq : ∀ a b, pre ++ s = a ++ (lz ++ b) → b = [])
    (hg : LitLang false fl (ls ++ [lz]) s) : matchLoop false fl (ls ++ [lz]) s = true := by
  induction ls generalizing fl s pre with
  | nil =>
    rw [List.nil_append] at *
    cases hg with
    | cons hw h' =>
      rename_i w t
      have ht : t = [] := huniq (pre ++ w) t (by simp)
      subst ht
      have hl : lz ≠ [] := hne lz (by simp)
      have he : (w ++ (lz ++ [])).isEmpty = false := by simp [hl]
      unfold matchLoop
      simp only [he]
      cases fl with
      | true =>
        obtain ⟨v, hv⟩ := findAfter_leftmost (lit := lz) (w := w) (t := [])
        simp only [if_true, hv]
        obtain ⟨w', hw'⟩ := findAfter_some hv
        have : v ++ [] = [] := huniq (pre ++ w') (v ++ []) (by rw [hw']; simp)
        simp [matchLoop, this]
      | false =>
        have hw' : w = [] := by simpa using hw
        subst hw'
        simp [matchLoop]
  | cons l ls ih =>
    rw [List.cons_append] at *
    cases hg with
    | cons hw h' =>
      rename_i w t
      have hl : l ≠ [] := hne l (by simp)
      have he : (w ++ (l ++ t)).isEmpty = false := by simp [hl]
      unfold matchLoop
      simp only [he]
      cases fl with
      | true =>
        obtain ⟨v, hv⟩ := findAfter_leftmost (lit := l) (w := w) (t := t)
        simp only [if_true, hv]
        obtain ⟨w', hw'⟩ := findAfter_some hv
        refine ih true (v ++ t) (pre ++ w' ++ l) (fun x hx => hne x (List.mem_cons_of_mem _ hx))
          ?_ ?_
        · intro a b hab
          refine huniq a b ?_
          rw [hw', ← hab]; simp
        · cases hls : ls ++ [lz] with
          | nil => simp at hls
          | cons m ms =>
            rw [hls] at h'
            cases h' with
            | cons _ h'' =>
              rename_i w2 t2
              rw [← List.append_assoc v]
              exact LitLang.cons (Or.inr rfl) h''
      | false =>
        have hw' : w = [] := by simpa using hw
        subst hw'
        have : l.isPrefixOf (l ++ t) = true := by
          rw [List.isPrefixOf_iff_prefix]; exact List.prefix_append _ _
        simp only [List.nil_append, this, if_true, List.drop_left]
        refine ih true t (pre ++ l) (fun x hx => hne x (List.mem_cons_of_mem _ hx)) ?_ h'
        intro a b hab
        exact huniq a b (by rw [← hab]; simp)

/-! ## Constructor -/

theorem delimit_bar_free (p : Str) (h : '|' ∉ p) :
    (delimitString '|' p).pieces.length ≤ 1 := by
  unfold delimitString
  cases p with
  | nil => simp
  | cons c cs =>
    have hc : c ≠ '|' := by intro hh; exact h (by simp [hh])
    simp only [hc, if_false]
    rw [splitLoop_single '|' _ h (by simp)]
    simp

theorem construct_bar_free (p : Str) (h : '|' ∉ p) : construct p = leaf p := by
  rw [construct]
  have := delimit_bar_free p h
  rw [dif_neg (by omega)]

theorem matches_leaf (p s : Str) :
    (leaf p).matches s = matchLeaf (delimitString '*' p).pieces (delimitString '*' p).first
      (delimitString '*' p).last
      (!(delimitString '*' p).first && !(delimitString '*' p).last &&
        (delimitString '*' p).pieces.length == 1) s := by
  simp [leaf, Pattern.matches]

theorem matchAny_eq_any (ps : List Pattern) (s : Str) :
    matchAny ps s = ps.any (·.matches s) := by
  induction ps with
  | nil => simp [matchAny]
  | cons o os ih => simp [matchAny, ih]

theorem delimit_join_bar (ps : List Str) (h : ∀ p ∈ ps, p ≠ [] ∧ '|' ∉ p) (hn : ps ≠ []) :
    (delimitString '|' (List.intercalate ['|'] ps)).pieces = ps := by
  have hs := splitLoop_intercalate '|' ps h [] (Or.inl rfl) hn
  rw [List.append_nil] at hs
  cases ps with
  | nil => exact absurd rfl hn
  | cons p ps =>
    obtain ⟨h1, h2⟩ := h p (by simp)
    cases p with
    | nil => exact absurd rfl h1
    | cons a as =>
      have : ∃ r, List.intercalate ['|'] ((a :: as) :: ps) = a :: r := by
        cases ps with
        | nil => exact ⟨as, by simp [List.intercalate]⟩
        | cons b bs => simp [List.intercalate, List.intersperse]
      obtain ⟨r, hr⟩ := this
      rw [hr] at hs ⊢
      have hc : a ≠ '|' := by intro hh; exact h2 (by simp [hh])
      unfold delimitString
      simp only [hc, if_false]
      exact hs

/-- Text printed for a split pattern splits into the same parts. -/
theorem delimit_print (f l : Bool) (ls : List Str) (h : ∀ x ∈ ls, x ≠ [] ∧ '*' ∉ x)
    (hnil : ls = [] → f = l) :
    delimitString '*' ((if f then ['*'] else []) ++ List.intercalate ['*'] ls ++
      (if l then ['*'] else [])) = ⟨f, l, ls⟩ := by
  cases ls with
  | nil =>
    have := hnil rfl
    subst this
    cases f <;> simp [List.intercalate, delimitString, skipWC]
  | cons a as =>
    have hsp : ∀ t, t = [] ∨ t = ['*'] →
        splitLoop '*' (List.intercalate ['*'] (a :: as) ++ t) = a :: as :=
      fun t ht => splitLoop_intercalate '*' (a :: as) h t ht (by simp)
    obtain ⟨c, r, hcr, hc⟩ : ∃ c r, List.intercalate ['*'] (a :: as) = c :: r ∧ c ≠ '*' := by
      obtain ⟨h1, h2⟩ := h a (by simp)
      cases a with
      | nil => exact absurd rfl h1
      | cons x xs =>
        simp only [List.mem_cons, not_or] at h2
        cases as with
        | nil => exact ⟨x, xs, by simp [List.intercalate], fun hh => h2.1 hh.symm⟩
        | cons b bs =>
          refine ⟨x, _, by simp [List.intercalate, List.intersperse]; rfl, fun hh => h2.1 hh.symm⟩
    have hlast : (List.intercalate ['*'] (a :: as)).getLast? ≠ some '*' := by
      have : ∀ (ls : List Str), (∀ x ∈ ls, x ≠ [] ∧ '*' ∉ x) →
          (List.intercalate ['*'] ls).getLast? ≠ some '*' := by
        intro ls
        induction ls with
        | nil => simp [List.intercalate]
        | cons m ms ih =>
          intro hx
          obtain ⟨hm1, hm2⟩ := hx m (by simp)
          cases ms with
          | nil =>
            simp only [List.intercalate, List.intersperse, List.flatten_cons, List.flatten_nil,
              List.append_nil]
            intro hh; exact hm2 (List.mem_of_getLast? hh)
          | cons b bs =>
            have ih' := ih (fun x hx' => hx x (List.mem_cons_of_mem _ hx'))
            have hb := hx b (by simp)
            have e : List.intercalate ['*'] (m :: b :: bs)
                = (m ++ ['*']) ++ List.intercalate ['*'] (b :: bs) := by
              simp [List.intercalate, List.intersperse]
            rw [e, List.getLast?_append]
            have hne : List.intercalate ['*'] (b :: bs) ≠ [] := by
              cases bs with
              | nil => simpa [List.intercalate] using hb.1
              | cons _ _ => simp [List.intercalate, List.intersperse]
            cases hg : (List.intercalate ['*'] (b :: bs)).getLast? with
            | none => exact absurd (List.getLast?_eq_none_iff.1 hg) hne
            | some y => simpa [hg] using ih'
      exact this _ h
    rw [hcr] at hsp hlast ⊢
    have hlast' : ((c :: r).getLast? == some '*') = false := by simpa using hlast
    have hl1 : (c :: (r ++ ['*'])).getLast? = some '*' := by
      rw [← List.cons_append, List.getLast?_append]; simp
    have e0 := hsp [] (Or.inl rfl)
    have e1 := hsp ['*'] (Or.inr rfl)
    rw [List.append_nil] at e0
    rw [List.cons_append] at e1
    cases f <;> cases l
    · simp [delimitString, hc, hlast, e0]
    · simp only [Bool.false_eq_true, if_false, if_true, List.nil_append, List.cons_append,
        delimitString, hc, hl1, e1, beq_self_eq_true]
    · have hk : skipWC '*' ('*' :: c :: r) = c :: r := by simp [skipWC, hc]
      have hl2 : ('*' :: c :: r).getLast? = (c :: r).getLast? := by simp [List.getLast?_cons]
      simp only [Bool.false_eq_true, if_false, if_true, List.cons_append, List.nil_append,
        List.append_nil, delimitString, hk, hl2, hlast', e0]
      simp
    · have hk : skipWC '*' ('*' :: c :: (r ++ ['*'])) = c :: (r ++ ['*']) := by simp [skipWC, hc]
      have hl2 : ('*' :: c :: (r ++ ['*'])).getLast? = some '*' := by
        rw [List.getLast?_cons, hl1]; rfl
      simp only [if_true, List.cons_append, List.nil_append, delimitString, hk, hl2, e1]
      simp

theorem getLast?_lit (z : Str) (hz : z ≠ []) (hzw : '*' ∉ z) (q : Str) :
    ((q ++ '*' :: z).getLast? == some '*') = false := by
  rw [beq_eq_false_iff_ne]
  intro hh
  cases z with
  | nil => exact hz rfl
  | cons a as =>
    have e : (q ++ '*' :: a :: as).getLast? = (a :: as).getLast? := by
      rw [List.getLast?_append]; simp [List.getLast?_cons]
    rw [e] at hh
    exact hzw (List.mem_of_getLast? hh)

theorem splitLoop_tail (z : Str) (hz : z ≠ []) (hzw : '*' ∉ z) (q : Str)
    (hq : (q ++ '*' :: z).head? ≠ some '*') :
    ∃ ls, splitLoop '*' (q ++ '*' :: z) = ls ++ [z] ∧ ls ≠ [] := by
  have key : ∀ (n : Nat) (q : Str), q.length ≤ n → q ≠ [] → q.head? ≠ some '*' →
      ∃ ls, splitLoop '*' (q ++ '*' :: z) = ls ++ [z] ∧ ls ≠ [] := by
    intro n
    induction n with
    | zero =>
      intro q hl hne
      exact absurd (List.length_eq_zero_iff.1 (by omega)) hne
    | succ n ih =>
      intro q hl hne hh
      have happ := takeLit_append '*' q
      have hlit := takeLit_not_mem '*' q
      have hlne : (takeLit '*' q).1 ≠ [] := by
        cases q with
        | nil => exact absurd rfl hne
        | cons c cs =>
          have : c ≠ '*' := by simpa using hh
          simp [takeLit, this]
      have hsnd := takeLit_snd '*' q
      generalize (takeLit '*' q).1 = l at *
      generalize (takeLit '*' q).2 = r at *
      subst happ
      have hzhead : z.head? ≠ some '*' := by
        cases z with
        | nil => simp
        | cons a as => intro h0; simp at h0; exact hzw (by simp [h0])
      rcases hsnd with rfl | ⟨r', rfl⟩
      · refine ⟨[l], ?_, by simp⟩
        rw [List.append_nil, splitLoop_cons_lit '*' l z hlit hlne, skipWC_of_head_ne _ _ hzhead,
          splitLoop_single '*' z hzw hz]
        rfl
      · rw [List.append_assoc, List.cons_append, splitLoop_cons_lit '*' l _ hlit hlne]
        -- skip the run of wildcards in r' and those before z
        have hskip : ∃ q', skipWC '*' (r' ++ '*' :: z) = q' ++ '*' :: z ∧ q' ≠ [] ∧
            q'.head? ≠ some '*' ∧ q'.length ≤ r'.length ∨ skipWC '*' (r' ++ '*' :: z) = z := by
          clear hlne hlit hl hne hh ih
          induction r' with
          | nil => exact ⟨[], Or.inr (by simp [skipWC, skipWC_of_head_ne _ _ hzhead])⟩
          | cons c cs ihr =>
            by_cases hc : c = '*'
            · obtain ⟨q', hq'⟩ := ihr
              refine ⟨q', ?_⟩
              have : skipWC '*' (c :: cs ++ '*' :: z) = skipWC '*' (cs ++ '*' :: z) := by
                simp [skipWC, hc]
              rw [this]
              rcases hq' with ⟨h1, h2, h3, h4⟩ | h1
              · exact Or.inl ⟨h1, h2, h3, by simp; omega⟩
              · exact Or.inr h1
            · exact ⟨c :: cs, Or.inl ⟨by simp [skipWC, hc], by simp, by simpa using hc, by simp⟩⟩
        obtain ⟨q', hq'⟩ := hskip
        rcases hq' with ⟨h1, h2, h3, h4⟩ | h1
        · obtain ⟨ls, h5, _⟩ := ih q' (by simp at hl; omega) h2 h3
          exact ⟨l :: ls, by rw [h1, h5]; rfl, by simp⟩
        · exact ⟨[l], by rw [h1, splitLoop_single '*' z hzw hz]; rfl, by simp⟩
  refine key q.length q (Nat.le_refl _) ?_ ?_
  · intro h0; rw [h0] at hq; simp at hq
  · cases q with
    | nil => simp
    | cons a as => simpa using hq

/-- Split of a pattern whose last wildcard is followed by the literal `z`. -/
theorem delimit_tail (q z : Str) (hz : z ≠ []) (hzw : '*' ∉ z) :
    (delimitString '*' (q ++ '*' :: z)).last = false ∧
      ∃ ls, (delimitString '*' (q ++ '*' :: z)).pieces = ls ++ [z] ∧
        ((delimitString '*' (q ++ '*' :: z)).first = false → ls ≠ []) := by
  have hlast := getLast?_lit z hz hzw q
  have hzhead : z.head? ≠ some '*' := by
    cases z with
    | nil => simp
    | cons a as => intro h0; simp at h0; exact hzw (by simp [h0])
  have hskip : ∀ q : Str, (∃ q', skipWC '*' (q ++ '*' :: z) = q' ++ '*' :: z ∧
      (q' ++ '*' :: z).head? ≠ some '*') ∨ skipWC '*' (q ++ '*' :: z) = z := by
    intro q
    induction q with
    | nil => exact Or.inr (by simp [skipWC, skipWC_of_head_ne _ _ hzhead])
    | cons c cs ih =>
      by_cases hc : c = '*'
      · have : skipWC '*' (c :: cs ++ '*' :: z) = skipWC '*' (cs ++ '*' :: z) := by
          simp [skipWC, hc]
        rw [this]; exact ih
      · exact Or.inl ⟨c :: cs, by simp [skipWC, hc], by simpa using hc⟩
  cases hp : q ++ '*' :: z with
  | nil => simp at hp
  | cons c cs =>
    rw [hp] at hlast
    by_cases hc : c = '*'
    · have hne : skipWC '*' (c :: cs) ≠ [] := by
        rw [← hp]
        rcases hskip q with ⟨q', h1, _⟩ | h1
        · rw [h1]; simp
        · rw [h1]; exact hz
      unfold delimitString
      simp only [if_pos hc, if_neg hne]
      refine ⟨hlast, ?_⟩
      rw [← hp]
      rcases hskip q with ⟨q', h1, h2⟩ | h1
      · obtain ⟨ls, h3, h4⟩ := splitLoop_tail z hz hzw q' h2
        exact ⟨ls, by rw [h1, h3], fun h => by simp at h⟩
      · exact ⟨[], by rw [h1, splitLoop_single '*' z hzw hz]; rfl, fun h => by simp at h⟩
    · unfold delimitString
      simp only [if_neg hc]
      refine ⟨hlast, ?_⟩
      obtain ⟨ls, h3, h4⟩ := splitLoop_tail z hz hzw q (by rw [hp]; simpa using hc)
      exact ⟨ls, by rw [← hp, h3], fun _ => h4⟩

theorem splitLoop_subset (d : Char) (p : Str) : ∀ l ∈ splitLoop d p, ∀ c ∈ l, c ∈ p := by
  induction p using splitLoop.induct d with
  | case1 => simp [splitLoop]
  | case2 c cs ih =>
    rw [splitLoop]
    intro l hl x hx
    have happ := takeLit_append d (c :: cs)
    obtain ⟨n, hn⟩ := skipWC_eq_replicate d (takeLit d (c :: cs)).2
    rcases List.mem_cons.1 hl with rfl | hl
    · rw [← happ]; exact List.mem_append_left _ hx
    · have h1 := ih l hl x hx
      rw [← happ]
      refine List.mem_append_right _ ?_
      rw [hn]; exact List.mem_append_right _ h1

theorem delimit_pieces_subset (d : Char) (p : Str) :
    ∀ l ∈ (delimitString d p).pieces, ∀ c ∈ l, c ∈ p := by
  unfold delimitString
  cases p with
  | nil => simp
  | cons c cs =>
    by_cases hc : c = d
    · simp only [hc, if_true]
      by_cases h0 : skipWC d (d :: cs) = []
      · simp [h0]
      · simp only [h0, if_false]
        intro l hl x hx
        obtain ⟨n, hn⟩ := skipWC_eq_replicate d (d :: cs)
        rw [hn]
        exact List.mem_append_right _ (splitLoop_subset d _ l hl x hx)
    · simp only [hc, if_false]; exact splitLoop_subset d _

theorem mem_intercalate_star (ls : List Str) (c : Char) (h : c ∈ List.intercalate ['*'] ls) :
    c = '*' ∨ ∃ l ∈ ls, c ∈ l := by
  induction ls with
  | nil => simp [List.intercalate] at h
  | cons a as ih =>
    cases as with
    | nil => simp [List.intercalate] at h; exact Or.inr ⟨a, by simp, h⟩
    | cons b bs =>
      have e : List.intercalate ['*'] (a :: b :: bs) = a ++ '*' :: List.intercalate ['*'] (b :: bs) := by
        simp [List.intercalate, List.intersperse]
      rw [e] at h
      simp only [List.mem_append, List.mem_cons] at h
      rcases h with h | h | h
      · exact Or.inr ⟨a, by simp, h⟩
      · exact Or.inl h
      · rcases ih h with h | ⟨l, hl, hc⟩
        · exact Or.inl h
        · exact Or.inr ⟨l, List.mem_cons_of_mem _ hl, hc⟩

end Verif.StringPattern
