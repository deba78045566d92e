import Verif.TFS.ReadLemmas

/-! # Writing: helper lemmas -/

namespace Verif.TFS
open Verif Verif.DataTable Spec DataTable.Spec

variable {D : Type}

/-- The token written for a value and the padding after it. -/
def tokOf (fmt : D → Str) : Val D → Tok
  | .d x => .bare (fmt x)
  | .i x => .bare (intToStr x)
  | .s x => .quoted x

def padOf (fmt : D → Str) : Val D → Str
  | .d x => List.replicate (18 - (fmt x).length) ' '
  | .i x => List.replicate (8 - (intToStr x).length) ' '
  | .s _ => []

/-- The type word of a header line. -/
def hTypeWord : Val D → Str
  | .d _ => "%le".toList
  | .i _ => "%d".toList
  | .s x => '%' :: natToStr x.length ++ ['s']

theorem padOf_blank (fmt : D → Str) (v : Val D) : ∀ c ∈ padOf fmt v, c = ' ' := by
  cases v with
  | d x => intro c hc; exact (List.mem_replicate.1 hc).2
  | i x => intro c hc; exact (List.mem_replicate.1 hc).2
  | s x => simp [padOf]

theorem tokOf_good {cv : Conv D} {fmt : D → Str} {rnd : D → D} (hf : FmtOk cv fmt rnd)
    (v : Val D) (hv : Writable v) : (tokOf fmt v).Good := by
  cases v with
  | d x => exact hf.word x
  | i x => exact intToStr_word x
  | s x => exact ⟨hv.1, hv.2.1⟩

theorem tokOf_converts {cv : Conv D} {fmt : D → Str} {rnd : D → D} (hf : FmtOk cv fmt rnd)
    (v : Val D) (hv : Writable v) :
    Converts cv (tokOf fmt v).word (rounded rnd v) := by
  cases v with
  | d x => exact hf.stod x
  | i x =>
    show cv.stoi (intToStr x) = _
    rw [hf.stoi]; exact stoi_intToStr x hv
  | s x => rfl

theorem tyOf_rounded (rnd : D → D) (v : Val D) : tyOf (rounded rnd v) = tyOf v := by
  cases v <;> rfl

theorem tok_no_newline {cv : Conv D} {fmt : D → Str} {rnd : D → D} (hf : FmtOk cv fmt rnd)
    (v : Val D) (hv : Writable v) : '\n' ∉ (tokOf fmt v).text := by
  cases v with
  | d x => exact word_no_newline (hf.word x)
  | i x => exact word_no_newline (intToStr_word x)
  | s x =>
    intro h
    simp only [tokOf, Tok.text, List.mem_append, List.mem_singleton] at h
    rcases h with (h | h) | h
    · exact absurd h (by decide)
    · exact hv.2.2 h
    · exact absurd h (by decide)

theorem hTypeWord_word (v : Val D) : Word (hTypeWord v) := by
  cases v with
  | d x => exact ⟨by simp [hTypeWord], by simp [hTypeWord], by simp [hTypeWord, Blank]⟩
  | i x => exact ⟨by simp [hTypeWord], by simp [hTypeWord], by simp [hTypeWord, Blank]⟩
  | s x =>
    obtain ⟨_, h2, h3⟩ := natToStr_word x.length
    refine ⟨by simp [hTypeWord], ?_, ?_⟩
    · simp [hTypeWord, h2]
    · intro c hc
      simp only [hTypeWord, List.mem_append, List.mem_cons,
        List.cons_append] at hc
      rcases hc with rfl | hc | rfl | hc
      · simp [Blank]
      · exact h3 c hc
      · simp [Blank]
      · cases hc

theorem hTypeWord_conv (v : Val D) : typeConv (hTypeWord v) = .ok (tyOf v) := by
  cases v with
  | d x => rfl
  | i x => rfl
  | s x =>
    have hlast : (hTypeWord (D := D) (.s x)).getLast? = some 's' := by
      simp [hTypeWord, List.getLast?_cons]
    have hlen : 2 < (hTypeWord (D := D) (.s x)).length := by
      have := (natToStr_chars x.length).1
      have : 0 < (natToStr x.length).length := List.length_pos_iff.2 this
      simp [hTypeWord]; omega
    have hne : ∀ w : Str, w.getLast? ≠ some 's' → hTypeWord (D := D) (.s x) ≠ w := by
      intro w hw he; rw [he] at hlast; exact hw hlast
    unfold typeConv
    rw [if_neg (by
      rintro (h | h)
      · exact hne _ (by decide) h
      · exact hne _ (by decide) h)]
    rw [if_neg (hne _ (by decide))]
    split
    · rfl
    · rw [if_pos ⟨hlen, hlast⟩]; rfl

/-- The header line for a value. -/
def hLine (fmt : D → Str) (n : Str) (v : Val D) : Str :=
  "@ ".toList ++ padRight 16 n ++ " ".toList ++ hTypeWord v ++ " ".toList ++
    (tokOf fmt v).text ++ padOf fmt v

theorem headerLine_eq (fmt : D → Str) (t : Table D) (n : Str) (v : Val D) (l : Loc)
    (hl : t.hlookup n = some l) (hty : l.ty = tyOf v) (hv : hgetsVal t n v) :
    headerLine fmt t n = .ok (hLine fmt n v) := by
  unfold headerLine hLine
  simp only [hl]
  cases v with
  | d x =>
    have h1 : headerGetD t n = .ok x := hv
    simp [show l.ty = 'd' from hty, h1, hTypeWord, tokOf, padOf, Tok.text, padRight]
  | i x =>
    have h1 : headerGetI t n = .ok x := hv
    simp [show l.ty = 'i' from hty, h1, hTypeWord, tokOf, padOf, Tok.text, padRight]
  | s x =>
    have h1 : headerGetS t n = .ok x := hv
    simp [show l.ty = 's' from hty, h1, hTypeWord, tokOf, padOf, Tok.text, padRight, quoted]

theorem hLine_split {cv : Conv D} {fmt : D → Str} {rnd : D → D} (hf : FmtOk cv fmt rnd)
    (n : Str) (hn : Word n) (v : Val D) (hv : Writable v) :
    splitLine (hLine fmt n v) = ["@".toList, n, hTypeWord v, (tokOf fmt v).word] := by
  have h := splitLine_line []
    [(.bare "@".toList, " ".toList), (.bare n, List.replicate (16 - n.length) ' ' ++ " ".toList),
     (.bare (hTypeWord v), " ".toList), (tokOf fmt v, padOf fmt v)] (by simp) (by
      intro x hx
      simp only [List.mem_cons, List.not_mem_nil, or_false] at hx
      rcases hx with rfl | rfl | rfl | rfl
      · exact ⟨by simp, by simp, by simp [Blank]⟩
      · exact hn
      · exact hTypeWord_word v
      · exact tokOf_good hf v hv) (by
      refine ⟨by simp [Blank], by simp, ⟨?_, by simp, ⟨by simp [Blank], by simp, ?_⟩⟩⟩
      · intro c hc
        rcases List.mem_append.1 hc with hc | hc
        · exact Or.inl (List.mem_replicate.1 hc).2
        · simp at hc; exact Or.inl hc
      · intro c hc; exact Or.inl (padOf_blank fmt v c hc))
  have e : hLine fmt n v = [] ++ lineOf
      [(.bare "@".toList, " ".toList), (.bare n, List.replicate (16 - n.length) ' ' ++ " ".toList),
       (.bare (hTypeWord v), " ".toList), (tokOf fmt v, padOf fmt v)] := by
    simp [hLine, lineOf, padRight, Tok.text]
  rw [e, h]
  rfl

theorem hLine_no_newline {cv : Conv D} {fmt : D → Str} {rnd : D → D} (hf : FmtOk cv fmt rnd)
    (n : Str) (hn : Word n) (v : Val D) (hv : Writable v) :
    '\n' ∉ hLine fmt n v := by
  unfold hLine padRight
  simp only [List.mem_append, not_or]
  refine ⟨⟨⟨⟨⟨⟨by decide, word_no_newline hn, ?_⟩, by decide⟩,
    word_no_newline (hTypeWord_word v)⟩, by decide⟩, tok_no_newline hf v hv⟩, ?_⟩
  · intro h; exact absurd (List.mem_replicate.1 h).2 (by decide)
  · intro h; exact absurd (padOf_blank fmt v _ h) (by decide)

theorem cellText_eq (fmt : D → Str) (t : Table D) (row : Nat) (n : Str) (v : Val D)
    (hty : getColumnType t n = .ok (tyOf v)) (hv : getsVal t n row v) :
    cellText fmt t row n = .ok (' ' :: ((tokOf fmt v).text ++ padOf fmt v)) := by
  unfold cellText
  rw [hty]
  cases v with
  | d x =>
    have h1 : getD t n row = .ok x := hv
    simp [tyOf, h1, tokOf, padOf, Tok.text, padRight]
  | i x =>
    have h1 : getI t n row = .ok x := hv
    simp [tyOf, h1, tokOf, padOf, Tok.text, padRight]
  | s x =>
    have h1 : getS t n row = .ok x := hv
    simp [tyOf, h1, tokOf, padOf, Tok.text, quoted]

theorem splitLine_names (lead : Str) (hlead : Word lead) (ws : List Str) (h : ∀ w ∈ ws, Word w) :
    splitLine (lead ++ " ".toList ++ (ws.map (· ++ " ".toList)).flatten) = lead :: ws := by
  have hs : ∀ ws : List Str, Separated (ws.map fun w => (Tok.bare w, " ".toList)) := by
    intro ws
    induction ws with
    | nil => trivial
    | cons w ws ih =>
      cases ws with
      | nil => simp [Separated, Blank]
      | cons v vs => exact ⟨by simp [Blank], by simp, ih⟩
  have := splitLine_line [] ((lead :: ws).map fun w => (Tok.bare w, " ".toList)) (by simp) (by
    intro x hx
    obtain ⟨w, hw, rfl⟩ := List.mem_map.1 hx
    rcases List.mem_cons.1 hw with rfl | hw
    · exact hlead
    · exact h w hw) (hs _)
  have e : ∀ ws : List Str, lineOf (ws.map fun w => (Tok.bare w, " ".toList)) =
      (ws.map (· ++ " ".toList)).flatten := by
    intro ws
    induction ws with
    | nil => rfl
    | cons w ws ih => simp only [List.map_cons, lineOf, ih, Tok.text, List.flatten_cons]
  rw [e] at this
  simp only [List.nil_append, List.map_cons, List.flatten_cons] at this
  rw [this]
  simp [Tok.word, Function.comp_def]

end Verif.TFS
