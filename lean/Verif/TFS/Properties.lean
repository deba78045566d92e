import Verif.TFS.WriteLemmas
import Verif.TFS.TotalLemmas
import Verif.DataTable.Properties

/-! # C08, C09, C10: the TFS reader and writer -/

namespace Verif.TFS
open Verif Verif.DataTable Spec DataTable.Spec

variable {D : Type} [Inhabited D]

/-! ## C09 -/

/-- C09: a line made of words, bare or quoted, between arbitrary blanks splits into exactly
these words. -/
theorem split_exact (lead : Str) (items : List (Tok × Str)) (hl : ∀ c ∈ lead, Blank c)
    (hg : ∀ x ∈ items, x.1.Good) (hs : Separated items) :
    splitLine (lead ++ lineOf items) = items.map (·.1.word) :=
  splitLine_line lead items hl hg hs

/-- Non-vacuity: a quoted word holding blanks beside two separators. -/
example : splitLine "\t ab  \" c d \"\t\t\"e\" ".toList =
    ["ab".toList, " c d ".toList, "e".toList] :=
  split_exact "\t ".toList
    [(.bare "ab".toList, "  ".toList), (.quoted " c d ".toList, "\t\t".toList),
     (.quoted "e".toList, " ".toList)]
    (by simp [Blank]) (by simp [Tok.Good, Blank])
    (by simp [Separated, Blank])

/-! ## C08 -/

theorem typeWord_known {c : Char} (h : Known c) :
    ∃ w, typeWord c = w ++ " ".toList ∧ Word w ∧ typeConv w = .ok c := by
  rcases h with rfl | rfl | rfl
  · exact ⟨"%le".toList, rfl, ⟨by simp, by simp, by simp [Blank]⟩, rfl⟩
  · exact ⟨"%d".toList, rfl, ⟨by simp, by simp, by simp [Blank]⟩, rfl⟩
  · exact ⟨"%s".toList, rfl, ⟨by simp, by simp, by simp [Blank]⟩, rfl⟩

omit [Inhabited D] in
theorem getsVal_unique (t : Table D) (n : Str) (i : Nat) (v w : Val D) (hv : getsVal t n i v)
    (hw : getsVal t n i w) : v = w := by
  have key : ∀ u : Val D, getsVal t n i u → ∃ l, t.lookup n = some l ∧ l.ty = tyOf u := by
    intro u hu
    cases hl : t.lookup n with
    | none => cases u <;> simp [getsVal, getD, getI, getS, getLocation, hl] at hu
    | some l =>
      refine ⟨l, rfl, ?_⟩
      cases u with
      | d x =>
        apply Classical.byContradiction; intro h
        simp [getsVal, getD, getLocation, hl, show l.ty ≠ 'd' from h] at hu
      | i x =>
        apply Classical.byContradiction; intro h
        simp [getsVal, getI, getLocation, hl, show l.ty ≠ 'i' from h] at hu
      | s x =>
        apply Classical.byContradiction; intro h
        simp [getsVal, getS, getLocation, hl, show l.ty ≠ 's' from h] at hu
  obtain ⟨l, h1, h2⟩ := key v hv
  obtain ⟨l', h3, h4⟩ := key w hw
  rw [h1] at h3
  injection h3 with h3
  subst h3
  rw [h2] at h4
  cases v <;> cases w <;> simp [tyOf] at h4
  · have := (show getD t n i = _ from hv).symm.trans hw; injection this with this; rw [this]
  · have := (show getI t n i = _ from hv).symm.trans hw; injection this with this; rw [this]
  · have := (show getS t n i = _ from hv).symm.trans hw; injection this with this; rw [this]

omit [Inhabited D] in
theorem hgetsVal_unique (t : Table D) (n : Str) (v w : Val D) (hv : hgetsVal t n v)
    (hw : hgetsVal t n w) : v = w := by
  have key : ∀ u : Val D, hgetsVal t n u → ∃ l, t.hlookup n = some l ∧ l.ty = tyOf u := by
    intro u hu
    cases hl : t.hlookup n with
    | none => cases u <;> simp [hgetsVal, headerGetD, headerGetI, headerGetS, getHLocation, hl] at hu
    | some l =>
      refine ⟨l, rfl, ?_⟩
      cases u with
      | d x =>
        apply Classical.byContradiction; intro h
        simp [hgetsVal, headerGetD, getHLocation, hl, show l.ty ≠ 'd' from h] at hu
      | i x =>
        apply Classical.byContradiction; intro h
        simp [hgetsVal, headerGetI, getHLocation, hl, show l.ty ≠ 'i' from h] at hu
      | s x =>
        apply Classical.byContradiction; intro h
        simp [hgetsVal, headerGetS, getHLocation, hl, show l.ty ≠ 's' from h] at hu
  obtain ⟨l, h1, h2⟩ := key v hv
  obtain ⟨l', h3, h4⟩ := key w hw
  rw [h1] at h3
  injection h3 with h3
  subst h3
  rw [h2] at h4
  cases v <;> cases w <;> simp [tyOf] at h4
  · have := (show headerGetD t n = _ from hv).symm.trans hw; injection this with this; rw [this]
  · have := (show headerGetI t n = _ from hv).symm.trans hw; injection this with this; rw [this]
  · have := (show headerGetS t n = _ from hv).symm.trans hw; injection this with this; rw [this]

/-- C08: writing and reading back. For a table built by any history of calls whose names are
words and whose strings can stand between quotes, the writer succeeds, the reader accepts its
output, and the new table has the same header names, column names, types and number of rows,
and the same value everywhere (doubles through their printed form). A table with rows but no
columns is excluded, see `rows_without_columns_lost`. -/
theorem tfs_round_trip (cv : Conv D) (fmt : D → Str) (rnd : D → D) (hf : FmtOk cv fmt rnd)
    (t : Table D) (hr : Reachable cv t)
    (hcols : ∀ n ∈ t.colNames, Word n) (hhdr : ∀ n ∈ t.hcolNames, Word n)
    (hcells : ∀ n ∈ t.colNames, ∀ i, i < t.length → ∀ v, Holds t n i v → Writable v)
    (hhvals : ∀ n ∈ t.hcolNames, ∀ v, HHolds t n v → Writable v)
    (hne : t.colNames ≠ [] ∨ t.length = 0) :
    ∃ text t', write fmt t = .ok text ∧ readText cv text = .ok t' ∧
      t'.colNames = t.colNames ∧ t'.hcolNames = t.hcolNames ∧ t'.length = t.length ∧
      (∀ n, getColumnType t' n = getColumnType t n) ∧
      (∀ n i v, n ∈ t.colNames → i < t.length → Holds t n i v → Holds t' n i (rounded rnd v)) ∧
      ∀ n v, n ∈ t.hcolNames → HHolds t n v → HHolds t' n (rounded rnd v) := by
  have hinv := inv_reachable hr
  -- the values of the table
  have hx : ∀ n i, ∃ v : Val D, n ∈ t.colNames → i < t.length →
      getsVal t n i v ∧ getColumnType t n = .ok (tyOf v) := by
    intro n i
    by_cases h : n ∈ t.colNames ∧ i < t.length
    · obtain ⟨v, hv⟩ := cell_value t hinv n h.1 i h.2
      exact ⟨v, fun _ _ => hv⟩
    · exact ⟨.i 0, fun a b => absurd ⟨a, b⟩ h⟩
  have hxh : ∀ n, ∃ v : Val D, n ∈ t.hcolNames →
      ∃ l, hgetsVal t n v ∧ t.hlookup n = some l ∧ l.ty = tyOf v := by
    intro n
    by_cases h : n ∈ t.hcolNames
    · obtain ⟨v, l, hv⟩ := header_value t hinv n h
      exact ⟨v, fun _ => ⟨l, hv⟩⟩
    · exact ⟨.i 0, fun a => absurd a h⟩
  have hxc : ∀ n, ∃ c : Char, n ∈ t.colNames → getColumnType t n = .ok c ∧ Known c := by
    intro n
    by_cases h : n ∈ t.colNames
    · obtain ⟨l, hl⟩ := Option.isSome_iff_exists.1 ((hinv.mem n).1 h)
      refine ⟨l.ty, fun _ => ⟨by simp [getColumnType, hl], ?_⟩⟩
      rcases hinv.loc n l hl with hh | hh | hh
      · exact Or.inl hh.1
      · exact Or.inr (Or.inl hh.1)
      · exact Or.inr (Or.inr hh.1)
    · exact ⟨'d', fun a => absurd a h⟩
  obtain ⟨val, hval⟩ := Classical.axiomOfChoice (fun n => Classical.axiomOfChoice (hx n))
  obtain ⟨hvl, hhvl⟩ := Classical.axiomOfChoice hxh
  obtain ⟨ty, hty⟩ := Classical.axiomOfChoice hxc
  have hxw : ∀ n, ∃ w : Str, n ∈ t.colNames → typeWord (ty n) = w ++ " ".toList ∧ Word w ∧
      typeConv w = .ok (ty n) := by
    intro n
    by_cases h : n ∈ t.colNames
    · obtain ⟨w, hw⟩ := typeWord_known (hty n h).2
      exact ⟨w, fun _ => hw⟩
    · exact ⟨[], fun a => absurd a h⟩
  obtain ⟨tw, htw⟩ := Classical.axiomOfChoice hxw
  have hwr : ∀ n i, n ∈ t.colNames → i < t.length → Writable (val n i) := by
    intro n i hn hi
    refine hcells n hn i hi _ ?_
    have h := (hval n i hn hi).1
    generalize val n i = v at h
    cases v <;> exact h
  have hhwr : ∀ n, n ∈ t.hcolNames → Writable (hvl n) := by
    intro n hn
    refine hhvals n hn _ ?_
    obtain ⟨l, h, _⟩ := hhvl n hn
    generalize hvl n = v at h
    cases v <;> exact h
  have htyv : ∀ n i, n ∈ t.colNames → i < t.length → tyOf (val n i) = ty n := by
    intro n i hn hi
    have h1 := (hval n i hn hi).2
    rw [(hty n hn).1] at h1
    injection h1 with h1
    exact h1.symm
  -- the writer
  let row : Nat → Str := fun i =>
    (t.colNames.map fun n => ' ' :: ((tokOf fmt (val n i)).text ++ padOf fmt (val n i))).flatten
  have hw : writeLines fmt t = .ok (t.hcolNames.map (fun n => hLine fmt n (hvl n)) ++
      ("* ".toList ++ (t.colNames.map (· ++ " ".toList)).flatten) ::
      ("$ ".toList ++ ((t.colNames.map ty).map typeWord).flatten) ::
      (List.range t.length).map row) := by
    unfold writeLines
    rw [collect_ok _ (fun n => hLine fmt n (hvl n)) t.hcolNames (fun n hn => by
      obtain ⟨l, h1, h2, h3⟩ := hhvl n hn
      exact headerLine_eq fmt t n _ l h2 h3 h1)]
    simp only [Outcome.bind_ok]
    rw [collect_ok _ ty t.colNames (fun n hn => (hty n hn).1)]
    simp only [Outcome.bind_ok]
    rw [collect_ok _ row (List.range t.length) (fun i hi => by
      have hi := List.mem_range.1 hi
      unfold rowLine
      rw [collect_ok _ _ t.colNames
        (fun n hn => cellText_eq fmt t i n (val n i) (hval n i hn hi).2 (hval n i hn hi).1)]
      rfl)]
    rfl
  -- the type line
  have htl : ("$ ".toList ++ ((t.colNames.map ty).map typeWord).flatten) =
      "$".toList ++ " ".toList ++ ((t.colNames.map tw).map (· ++ " ".toList)).flatten := by
    have : (t.colNames.map ty).map typeWord = (t.colNames.map tw).map (· ++ " ".toList) := by
      rw [List.map_map, List.map_map]
      exact List.map_congr_left fun n hn => (htw n hn).1
    rw [this]; rfl
  have hnl : ("* ".toList ++ (t.colNames.map (· ++ " ".toList)).flatten) =
      "*".toList ++ " ".toList ++ (t.colNames.map (· ++ " ".toList)).flatten := rfl
  rw [htl, hnl] at hw
  have hflat : ∀ ws : List Str, (∀ w ∈ ws, Word w) →
      '\n' ∉ (ws.map (· ++ " ".toList)).flatten := by
    intro ws h hc
    obtain ⟨l, hl, hc⟩ := List.mem_flatten.1 hc
    obtain ⟨w, hw, rfl⟩ := List.mem_map.1 hl
    rcases List.mem_append.1 hc with hc | hc
    · exact word_no_newline (h w hw) hc
    · exact absurd hc (by decide)
  have hwt : ∀ w ∈ t.colNames.map tw, Word w := by
    intro w hw
    obtain ⟨n, hn, rfl⟩ := List.mem_map.1 hw
    exact (htw n hn).2.1
  -- lines of the text
  have hlines : linesOf ((t.hcolNames.map (fun n => hLine fmt n (hvl n)) ++
      ("*".toList ++ " ".toList ++ (t.colNames.map (· ++ " ".toList)).flatten) ::
      ("$".toList ++ " ".toList ++ ((t.colNames.map tw).map (· ++ " ".toList)).flatten) ::
      (List.range t.length).map row).map (· ++ ['\n'])).flatten = _ := linesOf_text _ (by
    intro l hl
    rcases List.mem_append.1 hl with hl | hl
    · obtain ⟨n, hn, rfl⟩ := List.mem_map.1 hl
      exact hLine_no_newline hf n (hhdr n hn) _ (hhwr n hn)
    · rcases List.mem_cons.1 hl with rfl | hl
      · intro hc
        rcases List.mem_append.1 hc with hc | hc
        · exact absurd hc (by decide)
        · exact hflat _ hcols hc
      · rcases List.mem_cons.1 hl with rfl | hl
        · intro hc
          rcases List.mem_append.1 hc with hc | hc
          · exact absurd hc (by decide)
          · exact hflat _ hwt hc
        · obtain ⟨i, hi, rfl⟩ := List.mem_map.1 hl
          have hi := List.mem_range.1 hi
          intro hc
          obtain ⟨l, hl, hc⟩ := List.mem_flatten.1 hc
          obtain ⟨n, hn, rfl⟩ := List.mem_map.1 hl
          rcases List.mem_cons.1 hc with hc | hc
          · exact absurd hc (by decide)
          · rcases List.mem_append.1 hc with hc | hc
            · exact tok_no_newline hf _ (hwr n i hn hi) hc
            · exact absurd (padOf_blank fmt _ _ hc) (by decide))
  -- the header
  obtain ⟨t1, ws1, e1, i1, b1, hn1, hv1, _⟩ := headerLoop_entries cv
    (t.hcolNames.map fun n => (⟨n, rounded rnd (hvl n), hLine fmt n (hvl n)⟩ : HEntry D))
    (("*".toList ++ " ".toList ++ (t.colNames.map (· ++ " ".toList)).flatten) ::
      ("$".toList ++ " ".toList ++ ((t.colNames.map tw).map (· ++ " ".toList)).flatten) ::
      (List.range t.length).map row)
    empty [] inv_empty (by
      intro e he
      obtain ⟨n, hn, rfl⟩ := List.mem_map.1 he
      refine ⟨_, _, hLine_split hf n (hhdr n hn) _ (hhwr n hn), ?_,
        tokOf_converts hf _ (hhwr n hn)⟩
      rw [tyOf_rounded]; exact hTypeWord_conv _) (by
      rw [List.map_map]
      have : ((·.name) ∘ fun n => (⟨n, rounded rnd (hvl n), hLine fmt n (hvl n)⟩ : HEntry D)) =
        id := rfl
      rw [this, List.map_id]; exact hinv.hnodup) (by intro e he; simp [empty])
  rw [List.map_map] at e1
  -- the columns
  have hzip : t.colNames.zip (t.colNames.map ty) = t.colNames.map fun n => (n, ty n) := by
    induction t.colNames with
    | nil => rfl
    | cons a l ih => simp [ih]
  obtain ⟨t2, e2, i2, c2, l2, h2, ty2, tyo2⟩ := addColumns_ok
    (t.colNames.map fun n => (n, ty n)) t1 i1 (by
      intro x hx
      obtain ⟨n, hn, rfl⟩ := List.mem_map.1 hx
      exact (hty n hn).2) (by
      rw [List.map_map]
      have : ((·.1) ∘ fun n => (n, ty n)) = id := rfl
      rw [this, List.map_id]; exact hinv.nodup) (by
      intro x hx; rw [b1.2.2.2.1]; simp [empty])
  have hfst : (t.colNames.map fun n => (n, ty n)).map (·.1) = t.colNames := by
    rw [List.map_map]
    have : ((·.1) ∘ fun n => (n, ty n)) = id := rfl
    rw [this, List.map_id]
  have hsnd : (t.colNames.map fun n => (n, ty n)).map (·.2) = t.colNames.map ty := by
    rw [List.map_map]; rfl
  -- the rows
  obtain ⟨t3, e3, i3, l3, c3, k3, h3, s3, v3⟩ := bodyLoop_rows cv
    (t.colNames.map fun n => (n, ty n))
    ((List.range t.length).map fun i => (row i, fun n => rounded rnd (val n i))) t2 i2
    (by rw [hfst]; exact hinv.nodup) ty2
    (by
      rcases hne with h | h
      · left; intro he; exact h (List.map_eq_nil_iff.1 he)
      · right; rw [h]; rfl) (by
      intro r hrm
      obtain ⟨i, hi, rfl⟩ := List.mem_map.1 hrm
      have hi := List.mem_range.1 hi
      refine ⟨fun n => (tokOf fmt (val n i)).word, ?_, ?_⟩
      · have := splitLine_chunks (t.colNames.map fun n => (tokOf fmt (val n i), padOf fmt (val n i)))
          (by
            intro x hx
            obtain ⟨n, hn, rfl⟩ := List.mem_map.1 hx
            exact tokOf_good hf _ (hwr n i hn hi)) (by
            intro x hx c hc
            obtain ⟨n, hn, rfl⟩ := List.mem_map.1 hx
            exact Or.inl (padOf_blank fmt _ c hc))
        rw [List.map_map, List.map_map] at this
        rw [List.map_map]
        exact this
      · intro x hx
        obtain ⟨n, hn, rfl⟩ := List.mem_map.1 hx
        refine ⟨tokOf_converts hf _ (hwr n i hn hi), ?_⟩
        simp only
        rw [tyOf_rounded]; exact htyv n i hn hi)
  rw [hfst, hsnd, List.map_map] at e3
  have hct : ∀ n, getColumnType t3 n = getColumnType t2 n := by
    intro n; unfold getColumnType; rw [k3]
  refine ⟨_, t3, by unfold write; rw [hw]; rfl, ?_, ?_, ?_, ?_, ?_, ?_, ?_⟩
  · -- the reader
    unfold readText
    rw [hlines]
    unfold read
    rw [show (t.hcolNames.map fun n => hLine fmt n (hvl n)) = t.hcolNames.map
      ((·.line) ∘ fun n => (⟨n, rounded rnd (hvl n), hLine fmt n (hvl n)⟩ : HEntry D)) from rfl]
    rw [e1]
    unfold headerLoop
    rw [splitLine_names "*".toList ⟨by simp, by simp, by simp [Blank]⟩ _ hcols]
    simp only [ne_eq, show ("*".toList = "@".toList) = False by simp, not_false_eq_true, if_true,
      Outcome.bind_ok, not_true_eq_false, if_false, typeLineWords]
    rw [splitLine_names "$".toList ⟨by simp, by simp, by simp [Blank]⟩ _ hwt]
    simp only [not_true_eq_false, if_false]
    have h4 := typesOf_ok (t.colNames.map fun n => (tw n, ty n)) (by
      intro x hx
      obtain ⟨n, hn, rfl⟩ := List.mem_map.1 hx
      exact (htw n hn).2.2)
    rw [List.map_map, List.map_map] at h4
    rw [show t.colNames.map tw = t.colNames.map ((·.1) ∘ fun n => (tw n, ty n)) from rfl, h4]
    simp only [Outcome.bind_ok, List.length_map, not_true_eq_false, if_false]
    rw [show t.colNames.map ((·.2) ∘ fun n => (tw n, ty n)) = t.colNames.map ty from rfl, hzip, e2]
    exact e3
  · rw [c3, c2, b1.2.2.2.1, hfst]; simp [empty]
  · rw [h3.2.2.2.1, h2.2.2.2.1, hn1, List.map_map]
    have : ((·.name) ∘ fun n => (⟨n, rounded rnd (hvl n), hLine fmt n (hvl n)⟩ : HEntry D)) =
      id := rfl
    rw [this, List.map_id]; simp [empty]
  · rw [l3, l2, b1.2.2.2.2.2]; simp [empty]
  · intro n
    rw [hct]
    by_cases hn : n ∈ t.colNames
    · rw [ty2 (n, ty n) (List.mem_map.2 ⟨n, hn, rfl⟩), (hty n hn).1]
    · rw [tyo2 n (by rw [hfst]; exact hn)]
      have a1 : t.lookup n = none := by
        cases h : t.lookup n with
        | none => rfl
        | some l => exact absurd ((hinv.mem n).2 (by simp [h])) hn
      have a2 : t1.lookup n = none := by rw [b1.2.2.2.2.1]; simp [empty]
      simp [getColumnType, a1, a2]
  · intro n i v hn hi hv
    have hlen : t2.length = 0 := by rw [l2, b1.2.2.2.2.2]; rfl
    have h := v3 i (by simpa using hi) (n, ty n) (List.mem_map.2 ⟨n, hn, rfl⟩)
    rw [hlen, Nat.zero_add] at h
    simp only [List.getElem_map, List.getElem_range] at h
    have hvv : v = val n i := by
      refine getsVal_unique t n i v _ ?_ (hval n i hn hi).1
      cases v <;> exact hv
    rw [hvv]
    generalize rounded rnd (val n i) = w at h
    cases w <;> exact h
  · intro n v hn hv
    obtain ⟨l, g1, g2, g3⟩ := hhvl n hn
    have hvv : v = hvl n := by
      refine hgetsVal_unique t n v _ ?_ g1
      cases v <;> exact hv
    have h := hv1 _ (List.mem_map.2 ⟨n, hn, rfl⟩)
    simp only at h
    have hs : ∀ w : Val D, hgetsVal t1 n w → HHolds t3 n w := by
      intro w hw
      obtain ⟨a1, a2, a3, a4, a5⟩ := SameHeader.trans h2 h3
      cases w <;>
        simpa [hgetsVal, HHolds, headerGetD, headerGetI, headerGetS, getHLocation, a1, a2, a3, a5]
          using hw
    rw [hvv]
    exact hs _ h

/-! ### A table meeting the hypotheses -/

/-- Natural numbers as "doubles", printed in decimal. -/
def exCv : Conv Nat := ⟨parseNat, stoi⟩

theorem exFmt : FmtOk exCv natToStr id := ⟨rfl, natToStr_word, parseNat_natToStr⟩

def exTableOps : List (Op Nat) :=
  [.headerAddColumn "LEN".toList 'i', .headerSetI "LEN".toList (-7),
   .headerAddColumn "TITLE".toList 's', .headerSetS "TITLE".toList "no\ttitle".toList,
   .addColumn "NAME".toList 's', .addColumn "K".toList 'd',
   .addRowVals [.s " a b ".toList, .d 12], .addRowVals [.s "c".toList, .d 0]]

def exTable : Table Nat := run exCv empty exTableOps

theorem exTable_rows (i : Nat) (hi : i < exTable.length) : i = 0 ∨ i = 1 := by
  have : exTable.length = 2 := by decide
  omega

theorem exTable_cells : ∀ n ∈ exTable.colNames, ∀ i, i < exTable.length → ∀ v,
    Holds exTable n i v → Writable v := by
  intro n hn i hi v hv
  have hg : getsVal exTable n i v := by cases v <;> exact hv
  have hn' : n = "NAME".toList ∨ n = "K".toList := by
    have : exTable.colNames = ["NAME".toList, "K".toList] := by decide
    rw [this] at hn
    rcases List.mem_cons.1 hn with h | h
    · exact Or.inl h
    · exact Or.inr (by simpa using h)
  rcases hn' with rfl | rfl <;> rcases exTable_rows i hi with rfl | rfl
  · rw [getsVal_unique _ _ _ v (.s " a b ".toList) hg (by unfold getsVal; decide)]
    simp [Writable, Quotable]
  · rw [getsVal_unique _ _ _ v (.s "c".toList) hg (by unfold getsVal; decide)]
    simp [Writable, Quotable]
  · rw [getsVal_unique _ _ _ v (.d 12) hg (by unfold getsVal; decide)]
    trivial
  · rw [getsVal_unique _ _ _ v (.d 0) hg (by unfold getsVal; decide)]
    trivial

theorem exTable_header : ∀ n ∈ exTable.hcolNames, ∀ v, HHolds exTable n v → Writable v := by
  intro n hn v hv
  have hg : hgetsVal exTable n v := by cases v <;> exact hv
  have hn' : n = "LEN".toList ∨ n = "TITLE".toList := by
    have : exTable.hcolNames = ["LEN".toList, "TITLE".toList] := by decide
    rw [this] at hn
    rcases List.mem_cons.1 hn with h | h
    · exact Or.inl h
    · exact Or.inr (by simpa using h)
  rcases hn' with rfl | rfl
  · rw [hgetsVal_unique _ _ v (.i (-7)) hg (by unfold hgetsVal; decide)]
    simp [Writable, IntRange]
  · rw [hgetsVal_unique _ _ v (.s "no\ttitle".toList) hg (by unfold hgetsVal; decide)]
    simp [Writable, Quotable]

/-- Non-vacuity of `tfs_round_trip`: header integer and string, cells with blanks. -/
example : ∃ text t', write natToStr exTable = .ok text ∧ readText exCv text = .ok t' ∧
    t'.length = 2 ∧ getS t' "NAME".toList 0 = .ok " a b ".toList ∧
    getD t' "K".toList 0 = .ok 12 ∧ headerGetS t' "TITLE".toList = .ok "no\ttitle".toList := by
  have hc : exTable.colNames = ["NAME".toList, "K".toList] := by decide
  have hh : exTable.hcolNames = ["LEN".toList, "TITLE".toList] := by decide
  obtain ⟨text, t', h1, h2, h3, h4, h5, h6, h7, h8⟩ := tfs_round_trip exCv natToStr id exFmt exTable
    ⟨exTableOps, rfl⟩ (by rw [hc]; simp [Word, Blank]) (by rw [hh]; simp [Word, Blank])
    exTable_cells exTable_header (Or.inl (by rw [hc]; simp))
  refine ⟨text, t', h1, h2, by rw [h5]; decide, ?_, ?_, ?_⟩
  · exact h7 _ 0 (.s " a b ".toList) (by rw [hc]; simp) (by decide) (by unfold Holds; decide)
  · exact h7 _ 0 (.d 12) (by rw [hc]; simp) (by decide) (by unfold Holds; decide)
  · exact h8 _ (.s "no\ttitle".toList) (by rw [hh]; simp) (by unfold HHolds; decide)

/-- Why the columns condition is needed: the rows of a table without columns are lost. -/
theorem rows_without_columns_lost : ∃ t : Table Nat, Reachable exCv t ∧ t.length = 1 ∧
    ∃ text t', write natToStr t = .ok text ∧ readText exCv text = .ok t' ∧ t'.length = 0 :=
  ⟨_, ⟨[.addRow], rfl⟩, rfl, "* \n$ \n\n".toList, empty, by decide, by rfl, rfl⟩

/-- Why strings must be non-empty: an empty string cell makes the written file unreadable. -/
theorem empty_string_unreadable : ∃ t : Table Nat, Reachable exCv t ∧
    ∃ text, write natToStr t = .ok text ∧
      readText exCv text = .throw .badFormat :=
  ⟨_, ⟨[.addColumn "A".toList 's', .addColumn "B".toList 's',
      .addRowVals [.s [], .s "x".toList]], rfl⟩,
    "* A B \n$ %s %s \n \"\" \"x\"\n".toList, by decide, by rfl⟩

/-! ## C10 -/

/-- C10, what acceptance means. If the reader returns a table, it is a table built by public
calls (so `table_rectangular` applies), the text consists of header lines (blank or starting
with `@`), a `*` line carrying exactly the column names, a `$` line and the body, and the number
of rows is the number of body lines that hold a word. -/
theorem read_accepts (cv : Conv D) (text : Str) (t : Table D) (h : readText cv text = .ok t) :
    Reachable cv t ∧ ∃ hdr star dollar body tys,
      linesOf text = hdr ++ star :: dollar :: body ∧
      (∀ l ∈ hdr, splitLine l = [] ∨ ∃ ws, splitLine l = "@".toList :: ws) ∧
      splitLine star = "*".toList :: t.colNames ∧ splitLine dollar = "$".toList :: tys ∧
      t.length = (body.filter fun l => decide (splitLine l ≠ [])).length := by
  unfold readText read at h
  obtain ⟨⟨t1, words, rest⟩, h1, h⟩ := bind_ok_inv h
  obtain ⟨r1, c1, l1, hcase⟩ := headerLoop_result cv empty [] _ ⟨[], rfl⟩ h1
  simp only at h
  cases words with
  | nil => cases h
  | cons w0 names =>
    simp only at h
    split at h
    · cases h
    · next hw0 =>
      have hw0 : w0 = "*".toList := by simpa using hw0
      subst hw0
      rcases hcase with ⟨hdr, line, e1, e2, e3, e4, e5⟩ | ⟨e1, e2, e3⟩
      · cases rest with
        | nil =>
          simp only [typeLineWords] at h
          split at h
          · cases h
          · next hd =>
            exfalso
            split at hd
            · simp at hd
            · obtain ⟨⟨rfl, _⟩, _⟩ : (_ ∧ _) ∧ _ := by simpa using hd
              simp at h
        | cons dollar body =>
          simp only [typeLineWords] at h
          cases hd : splitLine dollar with
          | nil => rw [hd] at h; cases h
          | cons d0 tys =>
            rw [hd] at h
            simp only at h
            split at h
            · cases h
            · next hd0 =>
              have hd0 : d0 = "$".toList := by simpa using hd0
              subst hd0
              obtain ⟨types, h2, h⟩ := bind_ok_inv h
              split at h
              · cases h
              · next hlen =>
                obtain ⟨t2, h3, h⟩ := bind_ok_inv h
                obtain ⟨r2, c2, l2⟩ := addColumns_result cv _ _ _ r1 h3
                obtain ⟨r3, c3, l3⟩ := bodyLoop_result cv _ _ _ _ _ r2 h
                refine ⟨r3, hdr, line, dollar, body, tys, e1, e2, ?_, hd, ?_⟩
                · rw [e3, c3, c2, c1, List.map_fst_zip (by omega)]; simp [empty]
                · rw [l3, l2, l1]; simp [empty]
      · exfalso
        rcases e3 with ⟨_, e3⟩ | ⟨l, e3, e4⟩
        · cases e3
        · rcases e2 l (List.mem_of_getLast? e3) with h' | ⟨ws, h'⟩ <;> rw [h'] at e4 <;> simp at e4

/-- Non-vacuity of `read_accepts`: a blank header line, an entry, blank lines in the body. -/
example : ∃ t : Table Nat, readText exCv
    "\n@ N %d 3\n* A B\n$ %s %le\n x 1\n\n\"y z\" 2".toList = .ok t ∧ t.length = 2 ∧
    t.colNames = ["A".toList, "B".toList] ∧ getS t "A".toList 1 = .ok "y z".toList :=
  ⟨_, rfl, rfl, rfl, by decide⟩

/-- C10 is violated: an empty file makes the reader evaluate `words[0]` of an empty vector
(DataTableTFS.cpp:118), and so does a file cut off after the newline of its `*` line
(DataTableTFS.cpp:131). -/
theorem read_total_violated (cv : Conv D) :
    readText cv [] = .ub ∧ readText cv "* A B\n".toList = .ub := ⟨rfl, rfl⟩

/-- The three shapes of a text that make the reader access `words[0]` of an empty vector:
nothing but header lines and no line or a blank last one; a `*` line that is the last line and
ends in a newline; a `*` line followed by a blank line. -/
def Spec.Truncated (text : Str) : Prop :=
  ((∀ l ∈ linesOf text, splitLine l = [] ∨ ∃ ws, splitLine l = "@".toList :: ws) ∧
    ∀ l, (linesOf text).getLast? = some l → splitLine l = []) ∨
  (∃ hdr star names, linesOf text = hdr ++ [star] ∧ splitLine star = "*".toList :: names ∧
    text.getLast? = some '\n') ∨
  ∃ hdr star names dollar body, linesOf text = hdr ++ star :: dollar :: body ∧
    splitLine star = "*".toList :: names ∧ splitLine dollar = []

/-- C10 (partial: the full claim, no text at all, fails by `read_total_violated`): every text not
of one of the three truncated shapes is accepted or rejected with an exception. -/
theorem read_total_partial (cv : Conv D) (text : Str) (ht : ¬ Spec.Truncated text) :
    readText cv text ≠ .ub := by
  intro h
  apply ht
  unfold readText read at h
  rcases bind_ub_inv h with h | ⟨⟨t1, words, rest⟩, h1, h⟩
  · exact absurd h (headerLoop_ne_ub cv _ _ _)
  obtain ⟨r1, c1, l1, hcase⟩ := headerLoop_result cv empty [] _ ⟨[], rfl⟩ h1
  simp only at h
  cases words with
  | nil =>
    rcases hcase with ⟨hdr, line, e1, e2, e3, e4, e5⟩ | ⟨e1, e2, e3⟩
    · exact absurd rfl e4
    · refine Or.inl ⟨e2, ?_⟩
      intro l hl
      rcases e3 with ⟨e3, _⟩ | ⟨l', e3, e4⟩
      · rw [e3] at hl; cases hl
      · rw [e3] at hl; injection hl with hl; rw [← hl, ← e4]
  | cons w0 names =>
    simp only at h
    split at h
    · cases h
    · next hw0 =>
      have hw0 : w0 = "*".toList := by simpa using hw0
      subst hw0
      rcases hcase with ⟨hdr, line, e1, e2, e3, e4, e5⟩ | ⟨e1, e2, e3⟩
      · cases rest with
        | nil =>
          by_cases hg : endsGood text = true
          · refine Or.inr (Or.inl ⟨hdr, line, names, e1, e3, ?_⟩)
            unfold endsGood at hg
            cases hx : text with
            | nil => rw [hx] at e1; cases hdr <;> simp [linesOf] at e1
            | cons a b => rw [hx] at hg; simpa using hg
          · simp [typeLineWords, hg] at h
        | cons dollar body =>
          simp only [typeLineWords] at h
          cases hd : splitLine dollar with
          | nil => exact Or.inr (Or.inr ⟨hdr, line, names, dollar, body, e1, e3, hd⟩)
          | cons d0 tys =>
            exfalso
            rw [hd] at h
            simp only at h
            split at h
            · cases h
            · rcases bind_ub_inv h with h | ⟨types, h2, h⟩
              · exact typesOf_ne_ub _ h
              · split at h
                · cases h
                · rcases bind_ub_inv h with h | ⟨t2, h3, h⟩
                  · exact addColumns_ne_ub _ _ h
                  · exact bodyLoop_ne_ub _ _ _ _ _ h
      · exfalso
        rcases e3 with ⟨_, e3⟩ | ⟨l, e3, e4⟩
        · cases e3
        · rcases e2 l (List.mem_of_getLast? e3) with h' | ⟨ws, h'⟩ <;> rw [h'] at e4 <;> simp at e4

/-- Non-vacuity of `read_total_partial`: a text that is not truncated and is rejected. -/
example : ¬ Spec.Truncated "* A\n# %d\n1\n".toList ∧
    readText exCv "* A\n# %d\n1\n".toList = .throw .badFormat := by
  refine ⟨?_, rfl⟩
  have hl : linesOf "* A\n# %d\n1\n".toList = ["* A".toList, "# %d".toList, "1".toList] := rfl
  unfold Spec.Truncated
  rw [hl]
  rintro (⟨h1, _⟩ | ⟨hdr, star, names, e, h, _⟩ | ⟨hdr, star, names, dollar, body, e, h, hd⟩)
  · rcases h1 _ List.mem_cons_self with h | ⟨ws, h⟩
    · exact absurd (congrArg List.length h) (by decide)
    · exact absurd (congrArg List.head? h) (by rw [List.head?_cons]; decide)
  · have : star = "1".toList := by
      have := congrArg List.getLast? e
      simpa using this.symm
    rw [this] at h
    exact absurd (congrArg List.head? h) (by rw [List.head?_cons]; decide)
  · match hdr, e with
    | [], e =>
      obtain ⟨_, e⟩ := List.cons.inj e
      obtain ⟨e, _⟩ := List.cons.inj e
      rw [← e] at hd
      exact absurd (congrArg List.length hd) (by decide)
    | [a], e =>
      obtain ⟨_, e⟩ := List.cons.inj e
      obtain ⟨e, _⟩ := List.cons.inj e
      rw [← e] at h
      exact absurd (congrArg List.head? h) (by rw [List.head?_cons]; decide)
    | a :: b :: hdr, e =>
      have := congrArg List.length e
      simp at this
      omega

#print axioms split_exact
#print axioms tfs_round_trip
#print axioms rows_without_columns_lost
#print axioms empty_string_unreadable
#print axioms read_accepts
#print axioms read_total_violated
#print axioms read_total_partial

end Verif.TFS
