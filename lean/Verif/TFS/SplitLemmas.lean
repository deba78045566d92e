import Verif.TFS.Spec

/-! # Splitting lines: helper lemmas -/

namespace Verif.TFS
open Verif Verif.DataTable Spec

theorem isBlank_iff (c : Char) : isBlank c = true ↔ Blank c := by
  unfold isBlank Blank
  simp only [Bool.or_eq_true, beq_iff_eq]
  have e1 : ('\x0c' : Char) = Char.ofNat 12 := by decide
  have e2 : ('\x0b' : Char) = Char.ofNat 11 := by decide
  rw [e1, e2]
  constructor
  · rintro (((((h | h) | h) | h) | h) | h) <;> simp [h]
  · rintro (h | h | h | h | h | h) <;> simp [h]

theorem quote_not_blank : isBlank '"' = false := by decide

/-- Blanks outside quotes end the current word. -/
theorem fold_blanks (st : SplitState) (hq : st.quote = false) (s : Str) (hs : ∀ c ∈ s, Blank c) :
    s.foldl splitStep st = if s = [] then st else ⟨splitEnd st, [], false⟩ := by
  induction s generalizing st with
  | nil => simp
  | cons c cs ih =>
    have hb : isBlank c = true := (isBlank_iff c).2 (hs c (by simp))
    have hne : c ≠ '"' := by
      intro h; rw [h, quote_not_blank] at hb; cases hb
    have step : splitStep st c = ⟨splitEnd st, [], false⟩ := by
      unfold splitStep splitEnd
      simp only [hne, if_false, hq, hb, Bool.not_false, Bool.and_self, if_true]
      by_cases h0 : st.current = []
      · simp only [h0, ne_eq, not_true_eq_false, if_false]
        cases st; simp_all
      · simp [h0]
    simp only [List.foldl_cons, step, List.cons_ne_nil, if_false]
    rw [ih _ rfl (fun c hc => hs c (by simp [hc]))]
    by_cases h : cs = []
    · simp [h]
    · simp [h, splitEnd]

theorem fold_chars (st : SplitState) (w : Str) (hq : '"' ∉ w)
    (hb : st.quote = true ∨ ∀ c ∈ w, ¬ Blank c) :
    w.foldl splitStep st = { st with current := st.current ++ w } := by
  induction w generalizing st with
  | nil => simp
  | cons c cs ih =>
    have hne : c ≠ '"' := fun h => hq (by simp [h])
    have step : splitStep st c = { st with current := st.current ++ [c] } := by
      unfold splitStep
      have : (!st.quote && isBlank c) = false := by
        rcases hb with hb | hb
        · simp [hb]
        · have : isBlank c = false := by
            cases h : isBlank c with
            | false => rfl
            | true => exact absurd ((isBlank_iff c).1 h) (hb c (by simp))
          simp [this]
      simp [hne, this]
    simp only [List.foldl_cons, step]
    rw [ih _ (fun h => hq (by simp [h])) (by
      rcases hb with hb | hb
      · exact Or.inl hb
      · exact Or.inr (fun c hc => hb c (by simp [hc])))]
    simp

/-- A token adds its word. -/
theorem fold_tok (sl : List Str) (t : Tok) (ht : t.Good) :
    t.text.foldl splitStep ⟨sl, [], false⟩ = ⟨sl, t.word, false⟩ := by
  cases t with
  | bare w =>
    obtain ⟨_, hq, hb⟩ := ht
    simp only [Tok.text, Tok.word]
    rw [fold_chars _ w hq (Or.inr hb)]
    simp
  | quoted w =>
    obtain ⟨_, hq⟩ := ht
    simp only [Tok.text, Tok.word, List.foldl_append]
    have h1 : List.foldl splitStep ⟨sl, [], false⟩ ['"'] = ⟨sl, [], true⟩ := by simp [splitStep]
    rw [h1, fold_chars _ w hq (Or.inl rfl)]
    simp [splitStep]

theorem tok_word_ne_nil (t : Tok) (ht : t.Good) : t.word ≠ [] := by
  cases t with
  | bare w => exact ht.1
  | quoted w => exact ht.1

theorem fold_line (items : List (Tok × Str)) (sl : List Str) (hg : ∀ x ∈ items, x.1.Good)
    (hs : Separated items) :
    splitEnd ((lineOf items).foldl splitStep ⟨sl, [], false⟩) = sl ++ items.map (·.1.word) := by
  induction items generalizing sl with
  | nil => simp [lineOf, splitEnd]
  | cons x rest ih =>
    obtain ⟨t, s⟩ := x
    have ht := hg (t, s) (by simp)
    have hne := tok_word_ne_nil t ht
    have hblank : ∀ c ∈ s, Blank c := by
      cases rest with
      | nil => exact hs
      | cons y ys => exact hs.1
    simp only [lineOf, List.foldl_append, fold_tok sl t ht]
    rw [fold_blanks _ rfl s hblank]
    cases rest with
    | nil =>
      by_cases h : s = []
      · simp [h, lineOf, splitEnd, hne]
      · simp [h, lineOf, splitEnd, hne]
    | cons y ys =>
      have hsne : s ≠ [] := hs.2.1
      simp only [hsne, if_false]
      rw [ih _ (fun z hz => hg z (by simp [hz])) hs.2.2]
      simp [splitEnd, hne]

theorem splitLine_line (lead : Str) (items : List (Tok × Str)) (hl : ∀ c ∈ lead, Blank c)
    (hg : ∀ x ∈ items, x.1.Good) (hs : Separated items) :
    splitLine (lead ++ lineOf items) = items.map (·.1.word) := by
  unfold splitLine
  rw [List.foldl_append, fold_blanks _ rfl lead hl]
  have h0 : (if lead = [] then ({} : SplitState) else ⟨splitEnd {}, [], false⟩) = ⟨[], [], false⟩ := by
    split <;> simp [splitEnd]
  rw [h0, fold_line items [] hg hs]
  simp

/-- Chunks `' ' :: tok ++ pad`, as the row writer produces them. -/
theorem splitLine_chunks (chunks : List (Tok × Str)) (hg : ∀ x ∈ chunks, x.1.Good)
    (hs : ∀ x ∈ chunks, ∀ c ∈ x.2, Blank c) :
    splitLine ((chunks.map fun x => ' ' :: (x.1.text ++ x.2)).flatten) =
      chunks.map (·.1.word) := by
  have key : ∀ (chunks : List (Tok × Str)) (st : SplitState), st.quote = false →
      (∀ x ∈ chunks, x.1.Good) → (∀ x ∈ chunks, ∀ c ∈ x.2, Blank c) →
      splitEnd (((chunks.map fun x => ' ' :: (x.1.text ++ x.2)).flatten).foldl splitStep st) =
        splitEnd st ++ chunks.map (·.1.word) := by
    intro chunks
    induction chunks with
    | nil => intro st _ _ _; simp
    | cons x rest ih =>
      intro st hq hg hs
      obtain ⟨t, s⟩ := x
      have ht := hg (t, s) (by simp)
      have hne := tok_word_ne_nil t ht
      have hsp : [' '].foldl splitStep st = ⟨splitEnd st, [], false⟩ := by
        rw [fold_blanks st hq [' '] (by simp [Blank])]; simp
      have h1 : ((' ' :: (t.text ++ s)).foldl splitStep st) =
          (if s = [] then ⟨splitEnd st, t.word, false⟩ else
            ⟨splitEnd st ++ [t.word], [], false⟩) := by
        have : (' ' :: (t.text ++ s)) = [' '] ++ (t.text ++ s) := rfl
        rw [this, List.foldl_append, hsp, List.foldl_append, fold_tok _ t ht,
          fold_blanks _ rfl s (hs (t, s) (by simp))]
        simp [splitEnd, hne]
      simp only [List.map_cons, List.flatten_cons, List.foldl_append]
      rw [h1, ih _ (by split <;> rfl) (fun z hz => hg z (by simp [hz]))
        (fun z hz => hs z (by simp [hz]))]
      split <;> simp [splitEnd, hne]
  have := key chunks {} rfl hg hs
  simpa [splitLine, splitEnd] using this

/-! ## Lines of a text -/

theorem linesOf_append (l : Str) (hl : '\n' ∉ l) (rest : Str) :
    linesOf (l ++ '\n' :: rest) = l :: linesOf rest := by
  induction l with
  | nil => simp [linesOf]
  | cons c cs ih =>
    have hc : c ≠ '\n' := fun h => hl (by simp [h])
    simp only [List.cons_append, linesOf, hc, if_false, ih (fun h => hl (by simp [h]))]

theorem linesOf_text (ls : List Str) (h : ∀ l ∈ ls, '\n' ∉ l) :
    linesOf (ls.map (· ++ ['\n'])).flatten = ls := by
  induction ls with
  | nil => rfl
  | cons l ls ih =>
    simp only [List.map_cons, List.flatten_cons, List.append_assoc, List.cons_append,
      List.nil_append]
    rw [linesOf_append l (h l (by simp)), ih (fun x hx => h x (by simp [hx]))]

end Verif.TFS
