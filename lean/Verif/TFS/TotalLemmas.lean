import Verif.TFS.ReadLemmas

/-! # Which texts the reader accepts: helper lemmas -/

namespace Verif.TFS
open Verif Verif.DataTable Spec DataTable.Spec

variable {D : Type} [Inhabited D]

theorem run_snoc (cv : Conv D) (t : Table D) (ops : List (Op D)) (o : Op D) :
    run cv t (ops ++ [o]) = (step cv (run cv t ops) o).2 := by
  induction ops generalizing t with
  | nil => rfl
  | cons a as ih => exact ih _

theorem reachable_step {cv : Conv D} {t : Table D} (h : Reachable cv t) (o : Op D) :
    Reachable cv (step cv t o).2 := by
  obtain ⟨ops, rfl⟩ := h
  exact ⟨ops ++ [o], (run_snoc cv _ ops o).symm⟩

omit [Inhabited D] in
theorem keep_ok {r : Outcome Exn Unit × Table D} {t : Table D} (h : keep r = .ok t) :
    r.1 = .ok () ∧ r.2 = t := by
  obtain ⟨o, t'⟩ := r
  cases o with
  | ok u => exact ⟨rfl, by simpa [keep] using h⟩
  | throw e => simp [keep] at h
  | ub => simp [keep] at h

omit [Inhabited D] in
theorem keep_ne_ub {r : Outcome Exn Unit × Table D} (h : r.1 ≠ .ub) : keep r ≠ .ub := by
  obtain ⟨o, t'⟩ := r
  cases o with
  | ok u => simp [keep]
  | throw e => simp [keep]
  | ub => exact absurd rfl h

theorem addColumn_ne_ub (t : Table D) (n : Str) (c : Char) : (addColumn t n c).1 ≠ .ub := by
  unfold addColumn; split
  · simp
  · split
    · simp
    · split
      · simp
      · split <;> simp

theorem headerAddColumn_ne_ub (t : Table D) (n : Str) (c : Char) :
    (headerAddColumn t n c).1 ≠ .ub := by
  unfold headerAddColumn; split
  · simp
  · split
    · simp
    · split
      · simp
      · split <;> simp

omit [Inhabited D] in
theorem setVal_ne_ub (t : Table D) (n : Str) (i : Nat) (v : Val D) : (setVal t n i v).1 ≠ .ub := by
  cases v with
  | d x =>
    rcases setD_cases t n i x with ⟨l, w, _, _, _, _, he⟩ | ⟨l, _, _, _, he⟩ | ⟨l, _, _, he⟩ | ⟨_, he⟩ <;>
      simp [setVal, he]
  | i x =>
    rcases setI_cases t n i x with ⟨l, w, _, _, _, _, he⟩ | ⟨l, _, _, _, he⟩ | ⟨l, _, _, he⟩ | ⟨_, he⟩ <;>
      simp [setVal, he]
  | s x =>
    rcases setS_cases t n i x with ⟨l, w, _, _, _, _, he⟩ | ⟨l, _, _, _, he⟩ | ⟨l, _, _, he⟩ | ⟨_, he⟩ <;>
      simp [setVal, he]

omit [Inhabited D] in
theorem setWithStr_ne_ub (cv : Conv D) (t : Table D) (n : Str) (i : Nat) (x : Str) :
    (setWithStr cv t n i x).1 ≠ .ub := by
  rcases setWithStr_cases cv t n i x with ⟨v, hv, _⟩ | ⟨e, he⟩
  · rw [hv]; exact setVal_ne_ub t n i v
  · rw [he]; simp

omit [Inhabited D] in
theorem headerSetWithStr_ne_ub (cv : Conv D) (t : Table D) (n : Str) (x : Str) :
    (headerSetWithStr cv t n x).1 ≠ .ub := by
  rcases headerSetWithStr_cases cv t n x with ⟨v, hv, _⟩ | ⟨v, hv, _⟩ | hv | ⟨e, hv⟩
  · rw [hv]; unfold headerSetD getHLocation
    cases t.hlookup n with
    | none => simp
    | some l =>
      simp only
      split
      · simp
      · split <;> simp
  · rw [hv]; unfold headerSetI getHLocation
    cases t.hlookup n with
    | none => simp
    | some l =>
      simp only
      split
      · simp
      · split <;> simp
  · rw [hv]; unfold headerSetS getHLocation
    cases t.hlookup n with
    | none => simp
    | some l =>
      simp only
      split
      · simp
      · split <;> simp
  · rw [hv]; simp

theorem typeConv_ne_ub (w : Str) : typeConv w ≠ .ub := by
  unfold typeConv; split
  · simp
  · split
    · simp
    · split
      · simp
      · split <;> simp

/-- A header line: blank or starting with `@`. -/
def HdrLine (l : Str) : Prop := splitLine l = [] ∨ ∃ ws, splitLine l = "@".toList :: ws

theorem bind_ok_inv {ε α β : Type} {x : Outcome ε α} {f : α → Outcome ε β} {b : β}
    (h : (x >>= f) = .ok b) : ∃ a, x = .ok a ∧ f a = .ok b := by
  cases x with
  | ok a => exact ⟨a, rfl, h⟩
  | throw e => cases h
  | ub => cases h

theorem bind_ub_inv {ε α β : Type} {x : Outcome ε α} {f : α → Outcome ε β}
    (h : (x >>= f) = .ub) : x = .ub ∨ ∃ a, x = .ok a ∧ f a = .ub := by
  cases x with
  | ok a => exact Or.inr ⟨a, rfl, h⟩
  | throw e => cases h
  | ub => exact Or.inl rfl

/-- What the header loop delivers. -/
theorem headerLoop_result (cv : Conv D) (t : Table D) (ws : List Str) (lines : List Str)
    (hr : Reachable cv t) {t' : Table D} {ws' rest : List Str}
    (h : headerLoop cv t ws lines = .ok (t', ws', rest)) :
    Reachable cv t' ∧ t'.colNames = t.colNames ∧ t'.length = t.length ∧
    ((∃ hdr line, lines = hdr ++ line :: rest ∧ (∀ l ∈ hdr, HdrLine l) ∧ splitLine line = ws' ∧
        ws' ≠ [] ∧ ws'.head? ≠ some "@".toList) ∨
     (rest = [] ∧ (∀ l ∈ lines, HdrLine l) ∧
       (lines = [] ∧ ws' = ws ∨ ∃ l, lines.getLast? = some l ∧ ws' = splitLine l))) := by
  induction lines generalizing t ws with
  | nil =>
    simp only [headerLoop] at h
    injection h with h
    simp only [Prod.mk.injEq] at h
    obtain ⟨rfl, rfl, rfl⟩ := h
    exact ⟨hr, rfl, rfl, Or.inr ⟨rfl, by simp, Or.inl ⟨rfl, rfl⟩⟩⟩
  | cons line lines ih =>
    have lift : ∀ (t1 : Table D) (w1 : List Str), HdrLine line → splitLine line = w1 →
        Reachable cv t1 → t1.colNames = t.colNames → t1.length = t.length →
        headerLoop cv t1 w1 lines = .ok (t', ws', rest) →
        Reachable cv t' ∧ t'.colNames = t.colNames ∧ t'.length = t.length ∧
        ((∃ hdr l, line :: lines = hdr ++ l :: rest ∧ (∀ l ∈ hdr, HdrLine l) ∧
            splitLine l = ws' ∧ ws' ≠ [] ∧ ws'.head? ≠ some "@".toList) ∨
         (rest = [] ∧ (∀ l ∈ line :: lines, HdrLine l) ∧
           (line :: lines = [] ∧ ws' = ws ∨
             ∃ l, (line :: lines).getLast? = some l ∧ ws' = splitLine l))) := by
      intro t1 w1 hh hw hr1 hc1 hl1 h
      obtain ⟨a1, a2, a3, a4⟩ := ih t1 w1 hr1 h
      refine ⟨a1, a2.trans hc1, a3.trans hl1, ?_⟩
      rcases a4 with ⟨hdr, l, e1, e2, e3⟩ | ⟨e1, e2, e3⟩
      · refine Or.inl ⟨line :: hdr, l, by rw [e1]; rfl, ?_, e3⟩
        intro x hx
        rcases List.mem_cons.1 hx with rfl | hx
        · exact hh
        · exact e2 x hx
      · refine Or.inr ⟨e1, ?_, Or.inr ?_⟩
        · intro x hx
          rcases List.mem_cons.1 hx with rfl | hx
          · exact hh
          · exact e2 x hx
        · rcases e3 with ⟨e3, e4⟩ | ⟨l, e3, e4⟩
          · exact ⟨line, by rw [e3]; rfl, by rw [e4, hw]⟩
          · exact ⟨l, by
              cases lines with
              | nil => simp at e3
              | cons a b => rw [List.getLast?_cons_cons]; exact e3, e4⟩
    unfold headerLoop at h
    cases hs : splitLine line with
    | nil =>
      rw [hs] at h
      exact lift t [] (Or.inl hs) hs hr rfl rfl h
    | cons w0 w =>
      rw [hs] at h
      simp only at h
      by_cases hw : w0 = "@".toList
      · rw [if_neg (by simpa using hw)] at h
        have hh : HdrLine line := Or.inr ⟨w, by rw [hs, hw]⟩
        match w, h, hs, hh with
        | [], h, _, _ => simp at h
        | [_], h, _, _ => simp at h
        | [_, _], h, _, _ => simp at h
        | [w1, w2, w3], h, hs, hh =>
          obtain ⟨c, _, h⟩ := bind_ok_inv h
          obtain ⟨t1, h1, h⟩ := bind_ok_inv h
          obtain ⟨t2, h2, h⟩ := bind_ok_inv h
          have e1 := (keep_ok h1).2
          have e2 := (keep_ok h2).2
          have r1 : Reachable cv t1 := by
            rw [← e1]; exact reachable_step hr (.headerAddColumn w1 c)
          have r2 : Reachable cv t2 := by
            rw [← e2]; exact reachable_step r1 (.headerSetWithStr w1 w3)
          have b1 : SameBody t t1 := by
            rw [← e1]; unfold headerAddColumn
            split
            · exact SameBody.refl t
            · split
              · exact SameBody.refl t
              · split
                · exact SameBody.refl t
                · split <;> exact SameBody.refl t
          have b2 : t2.colNames = t1.colNames ∧ t2.length = t1.length := by
            rw [← e2]
            rcases headerSetWithStr_cases cv t1 w1 w3 with ⟨v, hv, _⟩ | ⟨v, hv, _⟩ | hv | ⟨e, hv⟩
            · rw [hv]; exact ⟨(headerSetD_shape t1 w1 v).names, (headerSetD_shape t1 w1 v).length⟩
            · rw [hv]; exact ⟨(headerSetI_shape t1 w1 v).names, (headerSetI_shape t1 w1 v).length⟩
            · rw [hv]; exact ⟨(headerSetS_shape t1 w1 w3).names, (headerSetS_shape t1 w1 w3).length⟩
            · rw [hv]; exact ⟨rfl, rfl⟩
          exact lift t2 _ hh hs r2 (b2.1.trans b1.2.2.2.1) (b2.2.trans b1.2.2.2.2.2) h
        | _ :: _ :: _ :: _ :: _, h, _, _ => simp at h
      · rw [if_pos (by simpa using hw)] at h
        injection h with h
        simp only [Prod.mk.injEq] at h
        obtain ⟨rfl, rfl, rfl⟩ := h
        exact ⟨hr, rfl, rfl, Or.inl ⟨[], line, rfl, by simp, hs, by simp, by simpa using hw⟩⟩

theorem headerLoop_ne_ub (cv : Conv D) (t : Table D) (ws : List Str) (lines : List Str) :
    headerLoop cv t ws lines ≠ .ub := by
  induction lines generalizing t ws with
  | nil => simp [headerLoop]
  | cons line lines ih =>
    unfold headerLoop
    cases splitLine line with
    | nil => exact ih t []
    | cons w0 w =>
      simp only
      split
      · simp
      · split
        · intro h
          rcases bind_ub_inv h with h | ⟨c, _, h⟩
          · exact typeConv_ne_ub _ h
          · rcases bind_ub_inv h with h | ⟨t1, _, h⟩
            · exact keep_ne_ub (headerAddColumn_ne_ub _ _ _) h
            · rcases bind_ub_inv h with h | ⟨t2, _, h⟩
              · exact keep_ne_ub (headerSetWithStr_ne_ub cv _ _ _) h
              · exact ih _ _ h
        · simp

theorem typesOf_ne_ub (ws : List Str) : typesOf ws ≠ .ub := by
  induction ws with
  | nil => simp [typesOf]
  | cons w ws ih =>
    intro h
    rcases bind_ub_inv h with h | ⟨c, _, h⟩
    · exact typeConv_ne_ub _ h
    · rcases bind_ub_inv h with h | ⟨t1, _, h⟩
      · exact ih h
      · cases h

theorem addColumns_ne_ub (cols : List (Str × Char)) (t : Table D) : addColumns t cols ≠ .ub := by
  induction cols generalizing t with
  | nil => simp [addColumns]
  | cons x cols ih =>
    intro h
    rcases bind_ub_inv h with h | ⟨t1, _, h⟩
    · exact keep_ne_ub (addColumn_ne_ub _ _ _) h
    · exact ih _ h

omit [Inhabited D] in
theorem setRow_ne_ub (cv : Conv D) (row : Nat) (cells : List (Str × Str)) (t : Table D) :
    setRow cv t row cells ≠ .ub := by
  induction cells generalizing t with
  | nil => simp [setRow]
  | cons x cells ih =>
    intro h
    rcases bind_ub_inv h with h | ⟨t1, _, h⟩
    · exact keep_ne_ub (setWithStr_ne_ub cv _ _ _ _) h
    · exact ih _ h

theorem bodyLoop_ne_ub (cv : Conv D) (names : List Str) (types : List Char) (t : Table D)
    (lines : List Str) : bodyLoop cv names types t lines ≠ .ub := by
  induction lines generalizing t with
  | nil => simp [bodyLoop]
  | cons line lines ih =>
    unfold bodyLoop
    cases splitLine line with
    | nil => exact ih t
    | cons w ws =>
      simp only
      split
      · simp
      · intro h
        rcases bind_ub_inv h with h | ⟨t1, _, h⟩
        · exact setRow_ne_ub cv _ _ _ h
        · exact ih _ h

theorem addColumns_result (cv : Conv D) (cols : List (Str × Char)) (t t' : Table D)
    (hr : Reachable cv t) (h : addColumns t cols = .ok t') :
    Reachable cv t' ∧ t'.colNames = t.colNames ++ cols.map (·.1) ∧ t'.length = t.length := by
  induction cols generalizing t with
  | nil => injection h with h; subst h; exact ⟨hr, by simp, rfl⟩
  | cons x cols ih =>
    obtain ⟨n, c⟩ := x
    obtain ⟨t1, h1, h⟩ := bind_ok_inv h
    obtain ⟨k1, k2⟩ := keep_ok h1
    have r1 : Reachable cv t1 := by rw [← k2]; exact reachable_step hr (.addColumn n c)
    obtain ⟨a1, a2, a3⟩ := ih t1 r1 h
    have b : t1.colNames = t.colNames ++ [n] ∧ t1.length = t.length := by
      rw [← k2]
      unfold addColumn at k1 ⊢
      split
      · next h0 => simp [h0] at k1
      · next h0 =>
        split
        · exact ⟨rfl, rfl⟩
        · split
          · exact ⟨rfl, rfl⟩
          · split
            · exact ⟨rfl, rfl⟩
            · next h1 h2 h3 => simp [h0, h1, h2, h3] at k1
    exact ⟨a1, by rw [a2, b.1]; simp, a3.trans b.2⟩

omit [Inhabited D] in
theorem setWithStr_shape (cv : Conv D) (t : Table D) (n : Str) (i : Nat) (x : Str) :
    (setWithStr cv t n i x).2.colNames = t.colNames ∧
    (setWithStr cv t n i x).2.length = t.length := by
  rcases setWithStr_cases cv t n i x with ⟨v, hv, _⟩ | ⟨e, he⟩
  · rw [hv]
    cases v with
    | d x =>
      rcases setD_cases t n i x with ⟨l, w, _, _, _, _, he⟩ | ⟨l, _, _, _, he⟩ | ⟨l, _, _, he⟩ |
        ⟨_, he⟩ <;> simp [setVal, he]
    | i x =>
      rcases setI_cases t n i x with ⟨l, w, _, _, _, _, he⟩ | ⟨l, _, _, _, he⟩ | ⟨l, _, _, he⟩ |
        ⟨_, he⟩ <;> simp [setVal, he]
    | s x =>
      rcases setS_cases t n i x with ⟨l, w, _, _, _, _, he⟩ | ⟨l, _, _, _, he⟩ | ⟨l, _, _, he⟩ |
        ⟨_, he⟩ <;> simp [setVal, he]
  · rw [he]; exact ⟨rfl, rfl⟩

theorem setRow_result (cv : Conv D) (row : Nat) (cells : List (Str × Str)) (t t' : Table D)
    (hr : Reachable cv t) (h : setRow cv t row cells = .ok t') :
    Reachable cv t' ∧ t'.colNames = t.colNames ∧ t'.length = t.length := by
  induction cells generalizing t with
  | nil => injection h with h; subst h; exact ⟨hr, rfl, rfl⟩
  | cons x cells ih =>
    obtain ⟨n, w⟩ := x
    obtain ⟨t1, h1, h⟩ := bind_ok_inv h
    obtain ⟨k1, k2⟩ := keep_ok h1
    have r1 : Reachable cv t1 := by rw [← k2]; exact reachable_step hr (.setWithStr n row w)
    obtain ⟨a1, a2, a3⟩ := ih t1 r1 h
    have b := setWithStr_shape cv t n row w
    rw [k2] at b
    exact ⟨a1, a2.trans b.1, a3.trans b.2⟩

theorem bodyLoop_result (cv : Conv D) (names : List Str) (types : List Char) (t t' : Table D)
    (lines : List Str) (hr : Reachable cv t) (h : bodyLoop cv names types t lines = .ok t') :
    Reachable cv t' ∧ t'.colNames = t.colNames ∧
      t'.length = t.length + (lines.filter fun l => decide (splitLine l ≠ [])).length := by
  induction lines generalizing t with
  | nil => injection h with h; subst h; exact ⟨hr, rfl, by simp⟩
  | cons line lines ih =>
    unfold bodyLoop at h
    cases hs : splitLine line with
    | nil =>
      rw [hs] at h
      obtain ⟨a1, a2, a3⟩ := ih t hr h
      exact ⟨a1, a2, by rw [a3]; simp [hs]⟩
    | cons w ws =>
      rw [hs] at h
      simp only at h
      split at h
      · cases h
      · obtain ⟨t1, h1, h⟩ := bind_ok_inv h
        have r0 : Reachable cv (addRow t).2 := reachable_step hr .addRow
        obtain ⟨b1, b2, b3⟩ := setRow_result cv _ _ _ _ r0 h1
        obtain ⟨a1, a2, a3⟩ := ih t1 b1 h
        refine ⟨a1, a2.trans b2, ?_⟩
        rw [a3, b3]
        simp only [List.filter_cons, hs, ne_eq, reduceCtorEq, not_false_eq_true, decide_true,
          if_true, List.length_cons]
        show t.length + 1 + _ = _
        omega

end Verif.TFS
