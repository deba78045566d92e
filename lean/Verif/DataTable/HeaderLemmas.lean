import Verif.DataTable.Lemmas

/-! # Helper lemmas for the header of a `DataTable` -/

namespace Verif.DataTable
open Verif Spec

variable {D : Type}

/-- Everything about the body of the table agrees. -/
def SameBody (t t' : Table D) : Prop :=
  t'.dataD = t.dataD ∧ t'.dataI = t.dataI ∧ t'.dataS = t.dataS ∧ t'.colNames = t.colNames ∧
    t'.lookup = t.lookup ∧ t'.length = t.length

theorem SameBody.refl (t : Table D) : SameBody t t := ⟨rfl, rfl, rfl, rfl, rfl, rfl⟩

theorem SameBody.trans {a b c : Table D} (h : SameBody a b) (g : SameBody b c) : SameBody a c :=
  ⟨g.1.trans h.1, g.2.1.trans h.2.1, g.2.2.1.trans h.2.2.1, g.2.2.2.1.trans h.2.2.2.1,
    g.2.2.2.2.1.trans h.2.2.2.2.1, g.2.2.2.2.2.trans h.2.2.2.2.2⟩

/-- The header getters agree at one name. -/
def SameHAt (t t' : Table D) (m : Str) : Prop :=
  headerGetD t' m = headerGetD t m ∧ headerGetI t' m = headerGetI t m ∧
    headerGetS t' m = headerGetS t m

theorem SameHAt.refl (t : Table D) (m : Str) : SameHAt t t m := ⟨rfl, rfl, rfl⟩

theorem SameHAt.trans {a b c : Table D} {m : Str} (h : SameHAt a b m) (g : SameHAt b c m) :
    SameHAt a c m := ⟨g.1.trans h.1, g.2.1.trans h.2.1, g.2.2.trans h.2.2⟩

/-- Overload resolution of `HeaderSet`, DataTable.h:195-201. -/
def headerSetVal (t : Table D) (n : Str) : Val D → Outcome Exn Unit × Table D
  | .d x => headerSetD t n x
  | .i x => headerSetI t n x
  | .s x => headerSetS t n x

/-- The typed header getter of the value's type. -/
def hgetsVal (t : Table D) (n : Str) : Val D → Prop
  | .d x => headerGetD t n = .ok x
  | .i x => headerGetI t n = .ok x
  | .s x => headerGetS t n = .ok x

theorem SameHAt.hgetsVal {t t' : Table D} {m : Str} {v : Val D} (h : SameHAt t t' m)
    (hv : hgetsVal t m v) : hgetsVal t' m v := by
  cases v with
  | d x => exact h.1.trans hv
  | i x => exact h.2.1.trans hv
  | s x => exact h.2.2.trans hv

theorem headerSetVal_spec (t : Table D) (n : Str) (v : Val D) (h : Inv t) (l : Loc)
    (hl : t.hlookup n = some l) (hty : l.ty = tyOf v) :
    (headerSetVal t n v).1 = .ok () ∧ SameShape t (headerSetVal t n v).2 ∧
    SameBody t (headerSetVal t n v).2 ∧ hgetsVal (headerSetVal t n v).2 n v ∧
    ∀ m, m ≠ n → SameHAt t (headerSetVal t n v).2 m := by
  have hloc := h.hloc n l hl
  have hinj : ∀ m l', t.hlookup m = some l' → m ≠ n → l' ≠ l := by
    intro m l' hm hmn he
    subst he
    exact hmn (h.hinj m n _ hm hl)
  cases v with
  | d x =>
    have ht : l.ty = 'd' := hty
    have hp : l.pos < t.hdataD.length := by
      rcases hloc with h | h | h
      · exact h.2
      · rw [ht] at h; exact absurd h.1 (by decide)
      · rw [ht] at h; exact absurd h.1 (by decide)
    have he : headerSetVal t n (.d x) = (.ok (), { t with hdataD := t.hdataD.set l.pos x }) := by
      simp [headerSetVal, headerSetD, getHLocation, hl, ht, hp]
    rw [he]
    refine ⟨rfl, ⟨rfl, rfl, rfl, rfl, rfl, rfl, rfl, rfl, by simp, rfl, rfl⟩, SameBody.refl t, ?_, ?_⟩
    · show headerGetD _ n = _
      simp [headerGetD, getHLocation, hl, ht, vecAt, hp]
    · intro m hm
      refine ⟨?_, rfl, rfl⟩
      unfold headerGetD getHLocation
      cases hlm : t.hlookup m with
      | none => rfl
      | some l' =>
        simp only [Outcome.bind_ok]
        by_cases hd : l'.ty = 'd'
        · have hpos : l.pos ≠ l'.pos := by
            intro he
            refine hinj m l' hlm hm ?_
            cases l; cases l'; simp_all
          simp only [hd, ne_eq, not_true_eq_false, if_false, vecAt]
          rw [List.getElem?_set_ne hpos]
        · simp [hd]
  | i x =>
    have ht : l.ty = 'i' := hty
    have hp : l.pos < t.hdataI.length := by
      rcases hloc with h | h | h
      · rw [ht] at h; exact absurd h.1 (by decide)
      · exact h.2
      · rw [ht] at h; exact absurd h.1 (by decide)
    have he : headerSetVal t n (.i x) = (.ok (), { t with hdataI := t.hdataI.set l.pos x }) := by
      simp [headerSetVal, headerSetI, getHLocation, hl, ht, hp]
    rw [he]
    refine ⟨rfl, ⟨rfl, rfl, rfl, rfl, rfl, rfl, rfl, rfl, rfl, by simp, rfl⟩, SameBody.refl t, ?_, ?_⟩
    · show headerGetI _ n = _
      simp [headerGetI, getHLocation, hl, ht, vecAt, hp]
    · intro m hm
      refine ⟨rfl, ?_, rfl⟩
      unfold headerGetI getHLocation
      cases hlm : t.hlookup m with
      | none => rfl
      | some l' =>
        simp only [Outcome.bind_ok]
        by_cases hd : l'.ty = 'i'
        · have hpos : l.pos ≠ l'.pos := by
            intro he
            refine hinj m l' hlm hm ?_
            cases l; cases l'; simp_all
          simp only [hd, ne_eq, not_true_eq_false, if_false, vecAt]
          rw [List.getElem?_set_ne hpos]
        · simp [hd]
  | s x =>
    have ht : l.ty = 's' := hty
    have hp : l.pos < t.hdataS.length := by
      rcases hloc with h | h | h
      · rw [ht] at h; exact absurd h.1 (by decide)
      · rw [ht] at h; exact absurd h.1 (by decide)
      · exact h.2
    have he : headerSetVal t n (.s x) = (.ok (), { t with hdataS := t.hdataS.set l.pos x }) := by
      simp [headerSetVal, headerSetS, getHLocation, hl, ht, hp]
    rw [he]
    refine ⟨rfl, ⟨rfl, rfl, rfl, rfl, rfl, rfl, rfl, rfl, rfl, rfl, by simp⟩, SameBody.refl t, ?_, ?_⟩
    · show headerGetS _ n = _
      simp [headerGetS, getHLocation, hl, ht, vecAt, hp]
    · intro m hm
      refine ⟨rfl, rfl, ?_⟩
      unfold headerGetS getHLocation
      cases hlm : t.hlookup m with
      | none => rfl
      | some l' =>
        simp only [Outcome.bind_ok]
        by_cases hd : l'.ty = 's'
        · have hpos : l.pos ≠ l'.pos := by
            intro he
            refine hinj m l' hlm hm ?_
            cases l; cases l'; simp_all
          simp only [hd, ne_eq, not_true_eq_false, if_false, vecAt]
          rw [List.getElem?_set_ne hpos]
        · simp [hd]

theorem vecAt_append_left {α : Type} (v : List α) (x : α) (i : Nat) (h : i < v.length) :
    vecAt (v ++ [x]) i = vecAt v i := by
  unfold vecAt; rw [List.getElem?_append_left h]

theorem headerAddColumn_spec [Inhabited D] (t : Table D) (n : Str) (c : Char) (h : Inv t)
    (hn : n ∉ t.hcolNames) (hc : Known c) :
    (headerAddColumn t n c).1 = .ok () ∧
    (headerAddColumn t n c).2.hcolNames = t.hcolNames ++ [n] ∧
    SameBody t (headerAddColumn t n c).2 ∧
    (∃ l, (headerAddColumn t n c).2.hlookup n = some l ∧ l.ty = c) ∧
    ∀ m, m ≠ n → SameHAt t (headerAddColumn t n c).2 m := by
  have hf : (t.hlookup n).isSome = false := by
    cases hh : (t.hlookup n).isSome with
    | false => rfl
    | true => exact absurd ((h.hmem n).2 hh) hn
  have hget : ∀ m (t' : Table D), m ≠ n → (∀ k, k ≠ n → t'.hlookup k = t.hlookup k) →
      (∀ i, i < t.hdataD.length → vecAt t'.hdataD i = vecAt t.hdataD i) →
      (∀ i, i < t.hdataI.length → vecAt t'.hdataI i = vecAt t.hdataI i) →
      (∀ i, i < t.hdataS.length → vecAt t'.hdataS i = vecAt t.hdataS i) → SameHAt t t' m := by
    intro m t' hm hlk hD hI hS
    have hlkm := hlk m hm
    unfold SameHAt headerGetD headerGetI headerGetS getHLocation
    rw [hlkm]
    cases hlm : t.hlookup m with
    | none => exact ⟨rfl, rfl, rfl⟩
    | some l =>
      simp only [Outcome.bind_ok]
      have hd : 'i' ≠ 'd' ∧ 's' ≠ 'd' ∧ 's' ≠ 'i' := by decide
      rcases h.hloc m l hlm with ⟨ht, hp⟩ | ⟨ht, hp⟩ | ⟨ht, hp⟩
      · simp [ht, hD _ hp]
      · simp [ht, hI _ hp]
      · simp [ht, hS _ hp]
  unfold headerAddColumn
  simp only [hf, Bool.false_eq_true, if_false]
  rcases hc with rfl | rfl | rfl
  · simp only [if_true]
    refine ⟨trivial, trivial, SameBody.refl t, ⟨_, mapSet_self _ _ _, rfl⟩, ?_⟩
    intro m hm
    exact hget m _ hm (fun k hk => mapSet_ne _ _ _ _ hk) (fun i hi => vecAt_append_left _ _ _ hi)
      (fun i _ => rfl) (fun i _ => rfl)
  · simp only [show ('i' = 'd') = False by simp, if_false, if_true]
    refine ⟨trivial, trivial, SameBody.refl t, ⟨_, mapSet_self _ _ _, rfl⟩, ?_⟩
    intro m hm
    exact hget m _ hm (fun k hk => mapSet_ne _ _ _ _ hk) (fun i _ => rfl)
      (fun i hi => vecAt_append_left _ _ _ hi) (fun i _ => rfl)
  · simp only [show ('s' = 'd') = False by simp, show ('s' = 'i') = False by simp, if_false,
      if_true]
    refine ⟨trivial, trivial, SameBody.refl t, ⟨_, mapSet_self _ _ _, rfl⟩, ?_⟩
    intro m hm
    exact hget m _ hm (fun k hk => mapSet_ne _ _ _ _ hk) (fun i _ => rfl) (fun i _ => rfl)
      (fun i hi => vecAt_append_left _ _ _ hi)

/-- In a consistent table every listed header entry has a value of its type. -/
theorem header_value (t : Table D) (h : Inv t) (n : Str) (hn : n ∈ t.hcolNames) :
    ∃ v l, hgetsVal t n v ∧ t.hlookup n = some l ∧ l.ty = tyOf v := by
  obtain ⟨l, hl⟩ := Option.isSome_iff_exists.1 ((h.hmem n).1 hn)
  rcases h.hloc n l hl with hh | hh | hh
  · refine ⟨.d (t.hdataD[l.pos]'hh.2), l, ?_, hl, hh.1⟩
    simp [hgetsVal, headerGetD, getHLocation, hl, hh.1, vecAt, List.getElem?_eq_getElem hh.2]
  · refine ⟨.i (t.hdataI[l.pos]'hh.2), l, ?_, hl, hh.1⟩
    simp [hgetsVal, headerGetI, getHLocation, hl, hh.1, vecAt, List.getElem?_eq_getElem hh.2]
  · refine ⟨.s (t.hdataS[l.pos]'hh.2), l, ?_, hl, hh.1⟩
    simp [hgetsVal, headerGetS, getHLocation, hl, hh.1, vecAt, List.getElem?_eq_getElem hh.2]

/-- In a consistent table every cell has a value of its column's type. -/
theorem cell_value (t : Table D) (h : Inv t) (n : Str) (hn : n ∈ t.colNames) (i : Nat)
    (hi : i < t.length) :
    ∃ v, getsVal t n i v ∧ getColumnType t n = .ok (tyOf v) := by
  obtain ⟨l, hl⟩ := Option.isSome_iff_exists.1 ((h.mem n).1 hn)
  have hct : getColumnType t n = .ok l.ty := by simp [getColumnType, hl]
  rcases h.loc n l hl with hh | hh | hh
  · have g := getD_outcome t h n i
    simp only [hl, hh.1, ne_eq, not_true_eq_false, if_false, hi, if_true] at g
    obtain ⟨x, hx⟩ := g
    exact ⟨.d x, hx, by rw [hct, hh.1]; rfl⟩
  · have g := getI_outcome t h n i
    simp only [hl, hh.1, ne_eq, not_true_eq_false, if_false, hi, if_true] at g
    obtain ⟨x, hx⟩ := g
    exact ⟨.i x, hx, by rw [hct, hh.1]; rfl⟩
  · have g := getS_outcome t h n i
    simp only [hl, hh.1, ne_eq, not_true_eq_false, if_false, hi, if_true] at g
    obtain ⟨x, hx⟩ := g
    exact ⟨.s x, hx, by rw [hct, hh.1]; rfl⟩

end Verif.DataTable
