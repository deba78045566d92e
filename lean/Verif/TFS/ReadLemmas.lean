import Verif.TFS.NumLemmas
import Verif.DataTable.HeaderLemmas

/-! # Reading: helper lemmas -/

namespace Verif.TFS
open Verif Verif.DataTable Spec DataTable.Spec

variable {D : Type}

/-- The word converts to the value. -/
def Converts (cv : Conv D) (w : Str) : Val D → Prop
  | .d x => cv.stod w = .ok x
  | .i x => cv.stoi w = .ok x
  | .s x => w = x

theorem tyOf_known (v : Val D) : Known (tyOf v) := by
  cases v with
  | d x => exact Or.inl rfl
  | i x => exact Or.inr (Or.inl rfl)
  | s x => exact Or.inr (Or.inr rfl)

theorem keep_setWithStr (cv : Conv D) (t : Table D) (h : Inv t) (n : Str) (i : Nat) (w : Str)
    (v : Val D) (hty : getColumnType t n = .ok (tyOf v)) (hc : Converts cv w v)
    (hi : i < t.length) :
    keep (setWithStr cv t n i w) = .ok (setVal t n i v).2 ∧ (setVal t n i v).1 = .ok () := by
  have hok := setVal_ok t h n i v hty hi
  have he : setWithStr cv t n i w = setVal t n i v := by
    unfold getColumnType at hty
    unfold setWithStr getLocation
    cases hl : t.lookup n with
    | none => rw [hl] at hty; cases hty
    | some l =>
      rw [hl] at hty
      have hty : l.ty = tyOf v := by injection hty
      cases v with
      | d x =>
        have e : cv.stod w = .ok x := hc
        simp [show l.ty = 'd' from hty, e, setVal]
      | i x =>
        have e : cv.stoi w = .ok x := hc
        simp [show l.ty = 'i' from hty, e, setVal]
      | s x =>
        have e : w = x := hc
        simp [show l.ty = 's' from hty, e, setVal]
  rw [he]
  refine ⟨?_, hok⟩
  generalize setVal t n i v = r at *
  obtain ⟨o, t'⟩ := r
  simp only at hok
  subst hok
  rfl

theorem keep_headerSetWithStr (cv : Conv D) (t : Table D) (n : Str) (w : Str)
    (v : Val D) (l : Loc) (hl : t.hlookup n = some l) (hty : l.ty = tyOf v)
    (hc : Converts cv w v) (hok : (headerSetVal t n v).1 = .ok ()) :
    keep (headerSetWithStr cv t n w) = .ok (headerSetVal t n v).2 := by
  have he : headerSetWithStr cv t n w = headerSetVal t n v := by
    unfold headerSetWithStr getHLocation
    rw [hl]
    cases v with
    | d x =>
      have e : cv.stod w = .ok x := hc
      simp [show l.ty = 'd' from hty, e, headerSetVal]
    | i x =>
      have e : cv.stoi w = .ok x := hc
      simp [show l.ty = 'i' from hty, e, headerSetVal]
    | s x =>
      have e : w = x := hc
      simp [show l.ty = 's' from hty, e, headerSetVal]
  rw [he]
  generalize headerSetVal t n v = r at *
  obtain ⟨o, t'⟩ := r
  simp only at hok
  subst hok
  rfl

/-- One header entry as read. -/
structure HEntry (D : Type) where
  name : Str
  val : Val D
  line : Str

/-- The line of a header entry splits into the four expected words. -/
def HEntry.Ok (cv : Conv D) (e : HEntry D) : Prop :=
  ∃ tw vw, splitLine e.line = ["@".toList, e.name, tw, vw] ∧ typeConv tw = .ok (tyOf e.val) ∧
    Converts cv vw e.val

theorem headerLoop_entries [Inhabited D] (cv : Conv D) (es : List (HEntry D)) (rest : List Str)
    (t : Table D) (ws : List Str) (h : Inv t) (hok : ∀ e ∈ es, e.Ok cv)
    (hnd : (es.map (·.name)).Nodup) (hfresh : ∀ e ∈ es, e.name ∉ t.hcolNames) :
    ∃ t' ws', headerLoop cv t ws (es.map (·.line) ++ rest) = headerLoop cv t' ws' rest ∧
      Inv t' ∧ SameBody t t' ∧ t'.hcolNames = t.hcolNames ++ es.map (·.name) ∧
      (∀ e ∈ es, hgetsVal t' e.name e.val) ∧
      ∀ m, m ∉ es.map (·.name) → SameHAt t t' m := by
  induction es generalizing t ws with
  | nil => exact ⟨t, ws, rfl, h, SameBody.refl t, by simp, by simp, fun m _ => SameHAt.refl t m⟩
  | cons e es ih =>
    obtain ⟨tw, vw, hsp, htc, hcv⟩ := hok e (by simp)
    have hk : Known (tyOf e.val) := tyOf_known e.val
    obtain ⟨a1, a2, a3, ⟨l, a4, a5⟩, a6⟩ :=
      headerAddColumn_spec t e.name (tyOf e.val) h (hfresh e (by simp)) hk
    have hinv1 := inv_headerAddColumn t e.name (tyOf e.val) h
    have hkeep1 : keep (headerAddColumn t e.name (tyOf e.val)) =
        .ok (headerAddColumn t e.name (tyOf e.val)).2 := by
      generalize headerAddColumn t e.name (tyOf e.val) = r at *
      obtain ⟨o, t'⟩ := r
      simp only at a1
      subst a1
      rfl
    obtain ⟨b1, b2, b3, b4, b5⟩ := headerSetVal_spec _ e.name e.val hinv1 l a4 a5
    have hkeep2 := keep_headerSetWithStr cv _ e.name vw e.val l a4 a5 hcv b1
    generalize (headerAddColumn t e.name (tyOf e.val)).2 = t1 at *
    generalize (headerSetVal t1 e.name e.val).2 = t2 at *
    have hinv2 := hinv1.of_sameShape b2
    have hn2 : t2.hcolNames = t.hcolNames ++ [e.name] := by rw [b2.hnames, a2]
    have hnd' := hnd
    simp only [List.map_cons, List.nodup_cons] at hnd'
    obtain ⟨t', ws', c1, c2, c3, c4, c5, c6⟩ := ih t2 ["@".toList, e.name, tw, vw] hinv2
      (fun e' he' => hok e' (by simp [he'])) hnd'.2 (by
        intro e' he' hmem
        rw [hn2, List.mem_append] at hmem
        rcases hmem with hmem | hmem
        · exact hfresh e' (by simp [he']) hmem
        · simp only [List.mem_singleton] at hmem
          exact hnd'.1 (by rw [← hmem]; exact List.mem_map.2 ⟨e', he', rfl⟩))
    refine ⟨t', ws', ?_, c2, (a3.trans b3).trans c3, ?_, ?_, ?_⟩
    · rw [← c1]
      simp only [List.map_cons, List.cons_append, headerLoop, hsp, htc, Outcome.bind_ok, hkeep1,
        hkeep2, ne_eq, not_true_eq_false, if_false]
    · rw [c4, hn2]; simp
    · intro e' he'
      rcases List.mem_cons.1 he' with rfl | he'
      · exact SameHAt.hgetsVal (c6 _ hnd'.1) b4
      · exact c5 e' he'
    · intro m hm
      simp only [List.map_cons, List.mem_cons, not_or] at hm
      exact ((a6 m hm.1).trans (b5 m hm.1)).trans (c6 m hm.2)

theorem addColumn_ok [Inhabited D] (t : Table D) (n : Str) (c : Char) (h : Inv t)
    (hn : n ∉ t.colNames) (hc : Known c) :
    (addColumn t n c).1 = .ok () ∧ (addColumn t n c).2.colNames = t.colNames ++ [n] ∧
    (addColumn t n c).2.length = t.length ∧ SameHeader t (addColumn t n c).2 ∧
    getColumnType (addColumn t n c).2 n = .ok c ∧
    ∀ m, m ≠ n → getColumnType (addColumn t n c).2 m = getColumnType t m := by
  have hf : (t.lookup n).isSome = false := by
    cases hh : (t.lookup n).isSome with
    | false => rfl
    | true => exact absurd ((h.mem n).2 hh) hn
  unfold addColumn getColumnType
  simp only [hf, Bool.false_eq_true, if_false]
  rcases hc with rfl | rfl | rfl
  · simp only [if_true]
    exact ⟨trivial, trivial, trivial, ⟨rfl, rfl, rfl, rfl, rfl⟩, by simp [mapSet],
      fun m hm => by simp [mapSet, hm]⟩
  · simp only [show ('i' = 'd') = False by simp, if_false, if_true]
    exact ⟨trivial, trivial, trivial, ⟨rfl, rfl, rfl, rfl, rfl⟩, by simp [mapSet],
      fun m hm => by simp [mapSet, hm]⟩
  · simp only [show ('s' = 'd') = False by simp, show ('s' = 'i') = False by simp, if_false,
      if_true]
    exact ⟨trivial, trivial, trivial, ⟨rfl, rfl, rfl, rfl, rfl⟩, by simp [mapSet],
      fun m hm => by simp [mapSet, hm]⟩

theorem SameHeader.trans {a b c : Table D} (h : SameHeader a b) (g : SameHeader b c) :
    SameHeader a c :=
  ⟨g.1.trans h.1, g.2.1.trans h.2.1, g.2.2.1.trans h.2.2.1, g.2.2.2.1.trans h.2.2.2.1,
    g.2.2.2.2.trans h.2.2.2.2⟩

theorem addColumns_ok [Inhabited D] (cols : List (Str × Char)) (t : Table D) (h : Inv t)
    (hk : ∀ x ∈ cols, Known x.2) (hnd : (cols.map (·.1)).Nodup)
    (hfresh : ∀ x ∈ cols, x.1 ∉ t.colNames) :
    ∃ t', addColumns t cols = .ok t' ∧ Inv t' ∧ t'.colNames = t.colNames ++ cols.map (·.1) ∧
      t'.length = t.length ∧ SameHeader t t' ∧
      (∀ x ∈ cols, getColumnType t' x.1 = .ok x.2) ∧
      ∀ m, m ∉ cols.map (·.1) → getColumnType t' m = getColumnType t m := by
  induction cols generalizing t with
  | nil => exact ⟨t, rfl, h, by simp, rfl, ⟨rfl, rfl, rfl, rfl, rfl⟩, by simp, fun m _ => rfl⟩
  | cons x cols ih =>
    obtain ⟨n, c⟩ := x
    obtain ⟨a1, a2, a3, a4, a5, a6⟩ := addColumn_ok t n c h (hfresh (n, c) (by simp))
      (hk (n, c) (by simp))
    have hinv := inv_addColumn t n c h
    have hkeep : keep (addColumn t n c) = .ok (addColumn t n c).2 := by
      generalize addColumn t n c = r at *
      obtain ⟨o, t'⟩ := r
      simp only at a1
      subst a1
      rfl
    generalize (addColumn t n c).2 = t1 at *
    simp only [List.map_cons, List.nodup_cons] at hnd
    obtain ⟨t', b1, b2, b3, b4, b5, b6, b7⟩ := ih t1 hinv (fun x hx => hk x (by simp [hx])) hnd.2 (by
      intro x hx hmem
      rw [a2, List.mem_append] at hmem
      rcases hmem with hmem | hmem
      · exact hfresh x (by simp [hx]) hmem
      · simp only [List.mem_singleton] at hmem
        exact hnd.1 (by rw [← hmem]; exact List.mem_map.2 ⟨x, hx, rfl⟩))
    refine ⟨t', ?_, b2, ?_, b4.trans a3, SameHeader.trans a4 b5, ?_, ?_⟩
    · simp only [addColumns, hkeep, Outcome.bind_ok, b1]
    · rw [b3, a2]; simp
    · intro y hy
      rcases List.mem_cons.1 hy with rfl | hy
      · rw [b7 n hnd.1]; exact a5
      · exact b6 y hy
    · intro m hm
      simp only [List.map_cons, List.mem_cons, not_or] at hm
      rw [b7 m hm.2, a6 m hm.1]

theorem setRow_ok (cv : Conv D) (cells : List (Str × Str × Val D)) (t : Table D) (row : Nat)
    (h : Inv t) (hrow : row < t.length)
    (hty : ∀ x ∈ cells, getColumnType t x.1 = .ok (tyOf x.2.2) ∧ Converts cv x.2.1 x.2.2)
    (hnd : (cells.map (·.1)).Nodup) :
    ∃ t', setRow cv t row (cells.map fun x => (x.1, x.2.1)) = .ok t' ∧ RowWrite row t t' ∧
      (∀ x ∈ cells, getsVal t' x.1 row x.2.2) ∧
      ∀ m, m ∉ cells.map (·.1) → SameAt t t' m row := by
  induction cells generalizing t with
  | nil => exact ⟨t, rfl, RowWrite.refl row t, by simp, fun m _ => SameAt.refl t m row⟩
  | cons x cells ih =>
    obtain ⟨n, w, v⟩ := x
    obtain ⟨h1, h2⟩ := hty (n, w, v) (by simp)
    obtain ⟨k1, k2⟩ := keep_setWithStr cv t h n row w v h1 h2 hrow
    obtain ⟨s1, s2, s3, s4, _⟩ := setVal_spec t n row v h
    have s4 := s4 k2
    have hrw := setVal_rowWrite t n row v h
    generalize (setVal t n row v).2 = t1 at *
    simp only [List.map_cons, List.nodup_cons] at hnd
    obtain ⟨t', b1, b2, b3, b4⟩ := ih t1 (h.of_sameShape s1) (by rw [s1.length]; exact hrow) (by
      intro y hy
      have := hty y (by simp [hy])
      refine ⟨?_, this.2⟩
      simpa [getColumnType, s1.lookup] using this.1) hnd.2
    refine ⟨t', ?_, hrw.trans b2, ?_, ?_⟩
    · simp only [List.map_cons, setRow, k1, Outcome.bind_ok, b1]
    · intro y hy
      rcases List.mem_cons.1 hy with rfl | hy
      · exact SameAt.getsVal (b4 n hnd.1) s4
      · exact b3 y hy
    · intro m hm
      simp only [List.map_cons, List.mem_cons, not_or] at hm
      exact (s3 m row (fun he => hm.1 (Prod.mk.inj he).1)).trans (b4 m hm.2)

/-- A row as read: its line, and for every column the value. -/
def RowOk (cv : Conv D) (types : List (Str × Char)) (line : Str) (vals : Str → Val D) : Prop :=
  ∃ word : Str → Str, splitLine line = types.map (fun x => word x.1) ∧
    ∀ x ∈ types, Converts cv (word x.1) (vals x.1) ∧ tyOf (vals x.1) = x.2

theorem bodyLoop_rows [Inhabited D] (cv : Conv D) (types : List (Str × Char))
    (rows : List (Str × (Str → Val D))) (t : Table D) (h : Inv t)
    (hnd : (types.map (·.1)).Nodup)
    (hty : ∀ x ∈ types, getColumnType t x.1 = .ok x.2)
    (hne : types ≠ [] ∨ rows = [])
    (hrows : ∀ r ∈ rows, RowOk cv types r.1 r.2) :
    ∃ t', bodyLoop cv (types.map (·.1)) (types.map (·.2)) t (rows.map (·.1)) = .ok t' ∧
      Inv t' ∧ t'.length = t.length + rows.length ∧ t'.colNames = t.colNames ∧
      t'.lookup = t.lookup ∧ SameHeader t t' ∧
      (∀ m j, j < t.length → SameAt t t' m j) ∧
      ∀ k (hk : k < rows.length), ∀ x ∈ types, getsVal t' x.1 (t.length + k) (rows[k].2 x.1) := by
  induction rows generalizing t with
  | nil =>
    exact ⟨t, rfl, h, by simp, rfl, rfl, ⟨rfl, rfl, rfl, rfl, rfl⟩, fun m j _ => SameAt.refl t m j,
      fun k hk => absurd hk (by simp)⟩
  | cons r rows ih =>
    obtain ⟨line, vals⟩ := r
    have htne : types ≠ [] := by
      rcases hne with h | h
      · exact h
      · cases h
    obtain ⟨word, hsp, hw⟩ := hrows (line, vals) (by simp)
    have hinv0 := inv_addRow t h
    have hct : ∀ m, getColumnType (addRow t).2 m = getColumnType t m := fun m => rfl
    obtain ⟨t1, b1, b2, b3, _⟩ := setRow_ok cv (types.map fun x => (x.1, word x.1, vals x.1))
      (addRow t).2 (addRow t).1 hinv0 (by show t.length < t.length + 1; omega) (by
        intro y hy
        obtain ⟨x, hx, rfl⟩ := List.mem_map.1 hy
        obtain ⟨c1, c2⟩ := hw x hx
        refine ⟨?_, c1⟩
        rw [hct, hty x hx, c2]) (by simpa [Function.comp_def] using hnd)
    have hinv1 := hinv0.of_sameShape b2.1
    have hct1 : ∀ m, getColumnType t1 m = getColumnType t m := by
      intro m; rw [← hct m]; simp [getColumnType, b2.1.lookup]
    have hlen1 : t1.length = t.length + 1 := b2.1.length
    obtain ⟨t', d1, d2, d3, d4, d5, d6, d7, d8⟩ := ih t1 hinv1
      (fun x hx => by rw [hct1]; exact hty x hx) (Or.inl htne)
      (fun r hr => hrows r (by simp [hr]))
    refine ⟨t', ?_, d2, ?_, ?_, ?_, ?_, ?_, ?_⟩
    · simp only [List.map_cons, bodyLoop]
      have hzip : (types.map (·.1)).zip (types.map fun x => word x.1) =
          (types.map fun x => (x.1, word x.1, vals x.1)).map fun x => (x.1, x.2.1) := by
        rw [List.zip_map', List.map_map]; rfl
      cases hl : splitLine line with
      | nil => rw [hsp] at hl; exact absurd (List.map_eq_nil_iff.1 hl) htne
      | cons w ws =>
        have hlen : (w :: ws).length = (types.map (·.2)).length := by
          rw [← hl, hsp]; simp
        simp only [hlen, ne_eq, not_true_eq_false, if_false]
        rw [← hl, hsp, hzip, b1]
        exact d1
    · rw [d3, hlen1]; simp; omega
    · rw [d4, b2.1.names]; rfl
    · rw [d5, b2.1.lookup]; rfl
    · exact SameHeader.trans (SameHeader.trans ⟨rfl, rfl, rfl, rfl, rfl⟩ b2.2.1) d6
    · intro m j hj
      have e1 := addRow_sameAt t h m j hj
      have e2 := b2.2.2 m j (by show j ≠ t.length; omega)
      have e3 := d7 m j (by omega)
      exact (e1.trans e2).trans e3
    · intro k hk x hx
      cases k with
      | zero =>
        have e2 := b3 (x.1, word x.1, vals x.1) (List.mem_map.2 ⟨x, hx, rfl⟩)
        exact SameAt.getsVal (d7 x.1 t.length (by omega)) e2
      | succ k =>
        have := d8 k (by simpa using hk) x hx
        rw [hlen1] at this
        rw [show t.length + (k + 1) = t.length + 1 + k by omega]
        exact this

theorem typesOf_ok (l : List (Str × Char)) (h : ∀ x ∈ l, typeConv x.1 = .ok x.2) :
    typesOf (l.map (·.1)) = .ok (l.map (·.2)) := by
  induction l with
  | nil => rfl
  | cons x l ih =>
    simp only [List.map_cons, typesOf, h x (by simp), Outcome.bind_ok,
      ih (fun y hy => h y (by simp [hy]))]

theorem collect_ok {α β : Type} (f : α → Outcome Exn β) (g : α → β) (l : List α)
    (h : ∀ a ∈ l, f a = .ok (g a)) : collect f l = .ok (l.map g) := by
  induction l with
  | nil => rfl
  | cons a l ih =>
    simp only [collect, h a (by simp), Outcome.bind_ok, ih (fun y hy => h y (by simp [hy])),
      List.map_cons]

end Verif.TFS
