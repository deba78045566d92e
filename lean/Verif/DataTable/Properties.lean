import Verif.DataTable.Lemmas
import Verif.DataTable.Spec

/-! # Property theorems for `DataTable` (C05, C06, C07, C55) -/

namespace Verif.DataTable
open Verif Spec

variable {D : Type} [Inhabited D]

theorem inv_reachable {cv : Conv D} {t : Table D} (h : Reachable cv t) : Inv t := by
  obtain ⟨ops, rfl⟩ := h; exact inv_run cv ops _ inv_empty

/-- A conversion for the examples: fails on everything but `"1"`. -/
def exConv : Conv Int where
  stod s := if s = ['1'] then .ok 1 else .error .invalidArgument
  stoi s := if s = ['1'] then .ok 1 else .error .invalidArgument

/-- A history with all three column types, rows before and after a column, a failing row and a
failing conversion. -/
def exOps : List (Op Int) :=
  [.addColumn "x".toList 'd', .addRow, .addColumn "n".toList 'i', .addColumn "x".toList 's',
   .addColumn "name".toList 's', .addRowVals [.d 5, .i 7, .s "Q".toList], .addRowVals [.i 1],
   .setWithStr "n".toList 0 "zz".toList, .headerAddColumn "H".toList 'i']

/-! ## C05 -/

/-- **C05.** After any history, with any exceptions on the way: names are distinct, exactly the
listed names exist, every column has a known type and exactly `Length()` readable rows. -/
theorem table_rectangular (cv : Conv D) (ops : List (Op D)) :
    let t := run cv empty ops
    t.colNames.Nodup ∧ (∀ n, hasCol t n = true ↔ n ∈ t.colNames) ∧
    ∀ n ∈ t.colNames, ∃ c, getColumnType t n = .ok c ∧ Known c ∧
      ∀ i, Readable t n c i ↔ i < t.length := by
  intro t
  have h : Inv t := inv_run cv ops _ inv_empty
  refine ⟨h.nodup, fun n => (h.mem n).symm, ?_⟩
  intro n hn
  obtain ⟨l, hl⟩ := Option.isSome_iff_exists.1 ((h.mem n).1 hn)
  have gd := getD_outcome t h n
  have gi := getI_outcome t h n
  have gs := getS_outcome t h n
  simp only [hl] at gd gi gs
  refine ⟨l.ty, by simp [getColumnType, hl], ?_, ?_⟩
  · rcases h.loc n l hl with h | h | h
    · exact Or.inl h.1
    · exact Or.inr (Or.inl h.1)
    · exact Or.inr (Or.inr h.1)
  · intro i
    have gd := gd i
    have gi := gi i
    have gs := gs i
    unfold Readable
    rcases h.loc n l hl with h | h | h
    · have e1 : l.ty ≠ 'i' := by rw [h.1]; decide
      have e2 : l.ty ≠ 's' := by rw [h.1]; decide
      simp only [h.1, ne_eq, not_true_eq_false, if_false] at gd
      simp only [h.1, true_and]
      by_cases hi : i < t.length
      · simp only [hi, if_true] at gd
        exact ⟨fun _ => hi, fun _ => Or.inl gd⟩
      · simp only [hi, if_false] at gd
        constructor
        · rintro (⟨x, hx⟩ | ⟨hc, _⟩ | ⟨hc, _⟩)
          · rw [gd] at hx; cases hx
          · exact absurd hc (by decide)
          · exact absurd hc (by decide)
        · intro h; exact absurd h hi
    · simp only [h.1, ne_eq, not_true_eq_false, if_false] at gi
      simp only [h.1, true_and]
      by_cases hi : i < t.length
      · simp only [hi, if_true] at gi
        exact ⟨fun _ => hi, fun _ => Or.inr (Or.inl gi)⟩
      · simp only [hi, if_false] at gi
        constructor
        · rintro (⟨hc, _⟩ | ⟨x, hx⟩ | ⟨hc, _⟩)
          · exact absurd hc (by decide)
          · rw [gi] at hx; cases hx
          · exact absurd hc (by decide)
        · intro h; exact absurd h hi
    · simp only [h.1, ne_eq, not_true_eq_false, if_false] at gs
      simp only [h.1, true_and]
      by_cases hi : i < t.length
      · simp only [hi, if_true] at gs
        exact ⟨fun _ => hi, fun _ => Or.inr (Or.inr gs)⟩
      · simp only [hi, if_false] at gs
        constructor
        · rintro (⟨hc, _⟩ | ⟨hc, _⟩ | ⟨x, hx⟩)
          · exact absurd hc (by decide)
          · exact absurd hc (by decide)
          · rw [gs] at hx; cases hx
        · intro h; exact absurd h hi

/-- The example history ends with three columns of three rows. -/
example : (run exConv empty exOps).length = 3 ∧
    (run exConv empty exOps).colNames = ["x".toList, "n".toList, "name".toList] ∧
    getI (run exConv empty exOps) "n".toList 1 = .ok 7 := by
  refine ⟨by decide, by decide, by decide⟩

/-- **C05 for the header.** Header names are distinct and every one has a value of a known type. -/
theorem header_consistent (cv : Conv D) (ops : List (Op D)) :
    let t := run cv empty ops
    t.hcolNames.Nodup ∧ (∀ n, (t.hlookup n).isSome = true ↔ n ∈ t.hcolNames) ∧
    ∀ n ∈ t.hcolNames, (∃ x, headerGetD t n = .ok x) ∨ (∃ x, headerGetI t n = .ok x) ∨
      ∃ x, headerGetS t n = .ok x := by
  intro t
  have h : Inv t := inv_run cv ops _ inv_empty
  refine ⟨h.hnodup, fun n => (h.hmem n).symm, ?_⟩
  intro n hn
  obtain ⟨l, hl⟩ := Option.isSome_iff_exists.1 ((h.hmem n).1 hn)
  rcases h.hloc n l hl with hh | hh | hh
  · refine Or.inl ⟨t.hdataD[l.pos]'hh.2, ?_⟩
    simp [headerGetD, getHLocation, hl, hh.1, vecAt, List.getElem?_eq_getElem hh.2]
  · refine Or.inr (Or.inl ⟨t.hdataI[l.pos]'hh.2, ?_⟩)
    simp [headerGetI, getHLocation, hl, hh.1, vecAt, List.getElem?_eq_getElem hh.2]
  · refine Or.inr (Or.inr ⟨t.hdataS[l.pos]'hh.2, ?_⟩)
    simp [headerGetS, getHLocation, hl, hh.1, vecAt, List.getElem?_eq_getElem hh.2]

/-! ## C06 -/

omit [Inhabited D] in
theorem sameLayout_of_shape {t t' : Table D} (h : SameShape t t') : SameLayout t t' :=
  ⟨h.names, fun m => by simp [getColumnType, h.lookup], h.length⟩

omit [Inhabited D] in
theorem sameHeaderView_of {t t' : Table D} (h : SameHeader t t') : SameHeaderView t t' := by
  obtain ⟨a, b, c, d, e⟩ := h
  exact ⟨d, fun m => by simp [headerGetD, headerGetI, headerGetS, getHLocation, a, b, c, e]⟩

omit [Inhabited D] in
theorem holds_iff (t : Table D) (n : Str) (i : Nat) (v : Val D) :
    Holds t n i v ↔ getsVal t n i v := by cases v <;> exact Iff.rfl

/-- **C06.** A successful `Set` stores the value in its cell and changes nothing else. -/
theorem set_changes_one_cell (cv : Conv D) (t : Table D) (hr : Reachable cv t)
    (n : Str) (i : Nat) (v : Val D) (hok : (setVal t n i v).1 = .ok ()) :
    let t' := (setVal t n i v).2
    Holds t' n i v ∧ (∀ m j, (m, j) ≠ (n, i) → SameCell t t' m j) ∧ SameLayout t t' ∧
      SameHeaderView t t' := by
  obtain ⟨h1, h2, h3, h4, _⟩ := setVal_spec t n i v (inv_reachable hr)
  exact ⟨(holds_iff _ _ _ _).2 (h4 hok), h3, sameLayout_of_shape h1, sameHeaderView_of h2⟩

example : ∃ t : Table Int, Reachable exConv t ∧
    (setVal t "n".toList 1 (.i 9)).1 = .ok () ∧ getI t "n".toList 1 = .ok 7 :=
  ⟨_, ⟨exOps, rfl⟩, by decide, by decide⟩

/-- **C06 for `SetWithStr`.** The cell holds the converted text and nothing else changes. -/
theorem setWithStr_changes_one_cell (cv : Conv D) (t : Table D) (hr : Reachable cv t)
    (n : Str) (i : Nat) (x : Str) (hok : (setWithStr cv t n i x).1 = .ok ()) :
    let t' := (setWithStr cv t n i x).2
    ((∃ y, cv.stod x = .ok y ∧ getD t' n i = .ok y) ∨
     (∃ y, cv.stoi x = .ok y ∧ getI t' n i = .ok y) ∨ getS t' n i = .ok x) ∧
    (∀ m j, (m, j) ≠ (n, i) → SameCell t t' m j) ∧ SameLayout t t' ∧ SameHeaderView t t' := by
  rcases setWithStr_cases cv t n i x with ⟨v, hv, hc⟩ | ⟨e, he⟩
  · rw [hv] at hok ⊢
    obtain ⟨h1, h2, h3, h4, _⟩ := setVal_spec t n i v (inv_reachable hr)
    refine ⟨?_, h3, sameLayout_of_shape h1, sameHeaderView_of h2⟩
    have := h4 hok
    cases v with
    | d y => exact Or.inl ⟨y, hc, this⟩
    | i y => exact Or.inr (Or.inl ⟨y, hc, this⟩)
    | s y => simp only at hc; subst hc; exact Or.inr (Or.inr this)
  · rw [he] at hok; cases hok

example : ∃ t : Table Int, Reachable exConv t ∧
    (setWithStr exConv t "n".toList 1 "1".toList).1 = .ok () ∧
    (setWithStr exConv t "n".toList 1 "zz".toList).1 ≠ .ok () :=
  ⟨_, ⟨exOps, rfl⟩, by decide, by decide⟩

/-! ## C07 -/

/-- The calls that the property covers: every mutating call except the two that add a row first. -/
def Spec.Simple : Op D → Prop
  | .addRowVals _ => False
  | .apertureFromRow _ _ => False
  | _ => True

/-- **C07, state, partial.** A failed call leaves the table exactly as it was.  Missing: the two
calls that append a row before they write it (`AddRow(values...)`, `ApertureFromRow`), for which
the claim is false, `failed_addRow_violated`. -/
theorem failed_call_unchanged_partial (cv : Conv D) (t : Table D) (hr : Reachable cv t) (o : Op D)
    (hs : Simple o) (hf : (step cv t o).1 ≠ .ok ()) : (step cv t o).2 = t := by
  have h := inv_reachable hr
  cases o with
  | addColumn n c =>
    simp only [step, addColumn] at hf ⊢
    split
    · rfl
    · next h0 =>
      split
      · next h1 => simp [h0, h1] at hf
      · split
        · next h2 => simp [h0, h2] at hf
        · split
          · next h3 => simp [h0, h3] at hf
          · rfl
  | addRow => simp [step] at hf
  | addRowVals vs => exact absurd hs (by simp [Simple])
  | set n i v => exact (setVal_spec t n i v h).2.2.2.2 hf
  | setWithStr n i x =>
    simp only [step] at hf ⊢
    rcases setWithStr_cases cv t n i x with ⟨v, hv, _⟩ | ⟨e, he⟩
    · rw [hv] at hf ⊢; exact (setVal_spec t n i v h).2.2.2.2 hf
    · rw [he]
  | apertureFromRow src p => exact absurd hs (by simp [Simple])
  | headerAddColumn n c =>
    simp only [step, headerAddColumn] at hf ⊢
    split
    · rfl
    · next h0 =>
      split
      · next h1 => simp [h0, h1] at hf
      · split
        · next h2 => simp [h0, h2] at hf
        · split
          · next h3 => simp [h0, h3] at hf
          · rfl
  | headerSetD n x => exact headerSetD_unchanged t n x hf
  | headerSetI n x => exact headerSetI_unchanged t n x hf
  | headerSetS n x => exact headerSetS_unchanged t n x hf
  | headerSetWithStr n x =>
    simp only [step] at hf ⊢
    rcases headerSetWithStr_cases cv t n x with ⟨v, hv, _⟩ | ⟨v, hv, _⟩ | hv | ⟨e, hv⟩
    · rw [hv] at hf ⊢; exact headerSetD_unchanged t n v hf
    · rw [hv] at hf ⊢; exact headerSetI_unchanged t n v hf
    · rw [hv] at hf ⊢; exact headerSetS_unchanged t n x hf
    · rw [hv]

example : ∃ t : Table Int, Reachable exConv t ∧ Simple (.addColumn "x".toList 'i' : Op Int) ∧
    (step exConv t (.addColumn "x".toList 'i')).1 = .throw .invalidArgument :=
  ⟨_, ⟨exOps, rfl⟩, trivial, by decide⟩

/-- **C07, violated.** `AddRow(values...)` with a value of the wrong type throws and leaves the
table with an extra row. -/
theorem failed_addRow_violated : ∃ (ops : List (Op Int)) (vs : List (Val Int)),
    let t := run exConv empty ops
    (addRowVals t vs).1 = .throw .wrongType ∧ (addRowVals t vs).2.length = t.length + 1 :=
  ⟨[.addColumn "n".toList 'i'], [.d 3], by decide, by decide⟩

/-- What does hold for the two exceptions: rows that existed before, the columns and the header
are untouched, and the table is exactly one row longer, whether or not the call failed. -/
theorem addRow_values_frame (cv : Conv D) (t : Table D) (hr : Reachable cv t) (vs : List (Val D)) :
    let t' := (addRowVals t vs).2
    t'.length = t.length + 1 ∧ t'.colNames = t.colNames ∧
    (∀ m, getColumnType t' m = getColumnType t m) ∧ SameHeaderView t t' ∧
    ∀ m j, j < t.length → SameCell t t' m j := by
  have h := inv_reachable hr
  obtain ⟨h1, h2, h3⟩ := addRowN_spec (addRow t).2 0 (addRow t).1 vs (inv_addRow t h)
  refine ⟨h1.length, h1.names, (sameLayout_of_shape h1).2.1, ?_, ?_⟩
  · have := sameHeaderView_of h2
    exact ⟨this.1, fun m => this.2 m⟩
  · intro m j hj
    have : j ≠ (addRow t).1 := by show j ≠ t.length; omega
    exact (addRow_sameAt t h m j hj).trans (h3 m j this)

theorem apertureFromRow_frame (cv : Conv D) (t src : Table D) (hr : Reachable cv t) (p : Nat) :
    let t' := (apertureFromRow t src p).2
    t'.length = t.length + 1 ∧ t'.colNames = t.colNames ∧
    (∀ m, getColumnType t' m = getColumnType t m) ∧ SameHeaderView t t' ∧
    ∀ m j, j < t.length → SameCell t t' m j := by
  have h := inv_reachable hr
  obtain ⟨h1, h2, h3⟩ := apertureFromRow_rowWrite t src p h
  refine ⟨h1.length, h1.names, (sameLayout_of_shape h1).2.1, ?_, ?_⟩
  · have := sameHeaderView_of h2
    exact ⟨this.1, fun m => this.2 m⟩
  · intro m j hj
    exact (addRow_sameAt t h m j hj).trans (h3 m j (by omega))

/-- **C07, reasons (reading a `double`).** An unknown column or a row `>= Length()` throws
`out_of_range`; a column of another type throws `WrongTypeException`; otherwise the call
succeeds. -/
theorem getD_reason (cv : Conv D) (t : Table D) (hr : Reachable cv t) (n : Str) (i : Nat) :
    (getD t n i = .throw .outOfRange ↔
      n ∉ t.colNames ∨ getColumnType t n = .ok 'd' ∧ t.length ≤ i) ∧
    (getD t n i = .throw .wrongType ↔ ∃ c, getColumnType t n = .ok c ∧ c ≠ 'd') ∧
    ((∃ x, getD t n i = .ok x) ↔ getColumnType t n = .ok 'd' ∧ i < t.length) := by
  have h := inv_reachable hr
  have g := getD_outcome t h n i
  have hm := h.mem n
  unfold getColumnType
  cases hl : t.lookup n with
  | none => simp only [hl] at g; simp [g, hm, hl]
  | some l =>
    simp only [hl] at g
    by_cases ht : l.ty = 'd'
    · by_cases hi : i < t.length
      · simp only [ht, ne_eq, not_true_eq_false, if_false, hi, if_true] at g
        obtain ⟨x, hx⟩ := g
        simp [hx, hm, hl, ht, hi]
      · simp only [ht, ne_eq, not_true_eq_false, if_false, hi] at g
        simp [g, hm, hl, ht, hi]; omega
    · simp only [ht, ne_eq, not_false_eq_true, if_true] at g
      simp [g, hm, hl, ht]

/-- **C07, reasons (reading an `int`).** -/
theorem getI_reason (cv : Conv D) (t : Table D) (hr : Reachable cv t) (n : Str) (i : Nat) :
    (getI t n i = .throw .outOfRange ↔
      n ∉ t.colNames ∨ getColumnType t n = .ok 'i' ∧ t.length ≤ i) ∧
    (getI t n i = .throw .wrongType ↔ ∃ c, getColumnType t n = .ok c ∧ c ≠ 'i') ∧
    ((∃ x, getI t n i = .ok x) ↔ getColumnType t n = .ok 'i' ∧ i < t.length) := by
  have h := inv_reachable hr
  have g := getI_outcome t h n i
  have hm := h.mem n
  unfold getColumnType
  cases hl : t.lookup n with
  | none => simp only [hl] at g; simp [g, hm, hl]
  | some l =>
    simp only [hl] at g
    by_cases ht : l.ty = 'i'
    · by_cases hi : i < t.length
      · simp only [ht, ne_eq, not_true_eq_false, if_false, hi, if_true] at g
        obtain ⟨x, hx⟩ := g
        simp [hx, hm, hl, ht, hi]
      · simp only [ht, ne_eq, not_true_eq_false, if_false, hi] at g
        simp [g, hm, hl, ht, hi]; omega
    · simp only [ht, ne_eq, not_false_eq_true, if_true] at g
      simp [g, hm, hl, ht]

/-- **C07, reasons (reading a string).** -/
theorem getS_reason (cv : Conv D) (t : Table D) (hr : Reachable cv t) (n : Str) (i : Nat) :
    (getS t n i = .throw .outOfRange ↔
      n ∉ t.colNames ∨ getColumnType t n = .ok 's' ∧ t.length ≤ i) ∧
    (getS t n i = .throw .wrongType ↔ ∃ c, getColumnType t n = .ok c ∧ c ≠ 's') ∧
    ((∃ x, getS t n i = .ok x) ↔ getColumnType t n = .ok 's' ∧ i < t.length) := by
  have h := inv_reachable hr
  have g := getS_outcome t h n i
  have hm := h.mem n
  unfold getColumnType
  cases hl : t.lookup n with
  | none => simp only [hl] at g; simp [g, hm, hl]
  | some l =>
    simp only [hl] at g
    by_cases ht : l.ty = 's'
    · by_cases hi : i < t.length
      · simp only [ht, ne_eq, not_true_eq_false, if_false, hi, if_true] at g
        obtain ⟨x, hx⟩ := g
        simp [hx, hm, hl, ht, hi]
      · simp only [ht, ne_eq, not_true_eq_false, if_false, hi] at g
        simp [g, hm, hl, ht, hi]; omega
    · simp only [ht, ne_eq, not_false_eq_true, if_true] at g
      simp [g, hm, hl, ht]

/-- **C07, reasons (writing).** `Set` succeeds for an existing column of the value's type and an
existing row; it throws `out_of_range` for an unknown column or row and `WrongTypeException` for a
column of another type. -/
theorem set_reason (cv : Conv D) (t : Table D) (hr : Reachable cv t) (n : Str) (i : Nat)
    (v : Val D) :
    ((setVal t n i v).1 = .ok () ↔ getColumnType t n = .ok (tyOf v) ∧ i < t.length) ∧
    ((setVal t n i v).1 = .throw .outOfRange ↔
      n ∉ t.colNames ∨ getColumnType t n = .ok (tyOf v) ∧ t.length ≤ i) ∧
    ((setVal t n i v).1 = .throw .wrongType ↔
      ∃ c, getColumnType t n = .ok c ∧ c ≠ tyOf v) := by
  cases v with
  | d x =>
    obtain ⟨r1, r2, r3⟩ := getD_reason cv t hr n i
    have g := setD_outcome t n i x
    simp only [setVal, tyOf]
    rw [← r1, ← r2, ← r3]
    cases hg : getD t n i with
    | ok y => simp only [hg] at g; simp [g]
    | throw e => simp only [hg] at g; simp [g]
    | ub => simp only [hg] at g
  | i x =>
    obtain ⟨r1, r2, r3⟩ := getI_reason cv t hr n i
    have g := setI_outcome t n i x
    simp only [setVal, tyOf]
    rw [← r1, ← r2, ← r3]
    cases hg : getI t n i with
    | ok y => simp only [hg] at g; simp [g]
    | throw e => simp only [hg] at g; simp [g]
    | ub => simp only [hg] at g
  | s x =>
    obtain ⟨r1, r2, r3⟩ := getS_reason cv t hr n i
    have g := setS_outcome t n i x
    simp only [setVal, tyOf]
    rw [← r1, ← r2, ← r3]
    cases hg : getS t n i with
    | ok y => simp only [hg] at g; simp [g]
    | throw e => simp only [hg] at g; simp [g]
    | ub => simp only [hg] at g

/-- **C07, reasons (`AddColumn`).** A duplicate name throws `invalid_argument`, an unknown type
letter `WrongTypeException`, everything else succeeds and adds the column at the end. -/
theorem addColumn_reason (cv : Conv D) (t : Table D) (hr : Reachable cv t) (n : Str) (c : Char) :
    ((addColumn t n c).1 = .throw .invalidArgument ↔ n ∈ t.colNames) ∧
    ((addColumn t n c).1 = .throw .wrongType ↔ n ∉ t.colNames ∧ ¬ Known c) ∧
    ((addColumn t n c).1 = .ok () ↔ n ∉ t.colNames ∧ Known c) ∧
    (n ∉ t.colNames → Known c → (addColumn t n c).2.colNames = t.colNames ++ [n] ∧
      getColumnType (addColumn t n c).2 n = .ok c ∧ (addColumn t n c).2.length = t.length) := by
  have h := inv_reachable hr
  rw [h.mem n]
  unfold addColumn Known getColumnType
  by_cases h0 : (t.lookup n).isSome = true
  · simp [h0]
  · have h0' : (t.lookup n).isSome = false := by simpa using h0
    simp only [h0', Bool.false_eq_true, if_false]
    by_cases h1 : c = 'd'
    · simp [h1, mapSet]
    · by_cases h2 : c = 'i'
      · simp [h2, mapSet]
      · by_cases h3 : c = 's'
        · simp [h3, mapSet]
        · simp [h1, h2, h3]

/-! ## C55 -/

/-- **C55.** `AddRow(v1, ..., vk)` with values of the types of the first `k` columns succeeds and
the new row holds those values, in order; earlier rows are unchanged (`addRow_values_frame`). -/
theorem addRow_values_stored (cv : Conv D) (t : Table D) (hr : Reachable cv t) (vs : List (Val D))
    (hlen : vs.length ≤ t.colNames.length)
    (hty : ∀ k (hk : k < vs.length) (hc : k < t.colNames.length),
      getColumnType t t.colNames[k] = .ok (tyOf vs[k])) :
    (addRowVals t vs).1 = .ok () ∧
    ∀ k (hk : k < vs.length) (hc : k < t.colNames.length),
      Holds (addRowVals t vs).2 t.colNames[k] t.length vs[k] :=
  addRowVals_stored_aux t (inv_reachable hr) vs hlen hty

example : ∃ t : Table Int, Reachable exConv t ∧
    (addRowVals t [.d 2, .i 3, .s "z".toList]).1 = .ok () ∧
    getS (addRowVals t [.d 2, .i 3, .s "z".toList]).2 "name".toList 3 = .ok "z".toList :=
  ⟨_, ⟨exOps, rfl⟩, by decide, by decide⟩

#print axioms table_rectangular
#print axioms header_consistent
#print axioms set_changes_one_cell
#print axioms setWithStr_changes_one_cell
#print axioms failed_call_unchanged_partial
#print axioms failed_addRow_violated
#print axioms addRow_values_frame
#print axioms apertureFromRow_frame
#print axioms getD_reason
#print axioms getI_reason
#print axioms getS_reason
#print axioms set_reason
#print axioms addColumn_reason
#print axioms addRow_values_stored

end Verif.DataTable
