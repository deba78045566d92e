import Verif.DataTable.Model
import Verif.DataTable.Spec

/-! # Helper lemmas for `DataTable` -/

namespace Verif.DataTable
open Verif

variable {D : Type}

/-- Double-indexed read. -/
def read2 {α : Type} (v : List (List α)) (p i : Nat) : Option α := v[p]?.bind (·[i]?)

def ofOpt {α : Type} : Option α → Outcome Exn α
  | some x => .ok x
  | none => .throw .outOfRange

theorem vecAt_eq {α : Type} (v : List α) (i : Nat) : vecAt v i = ofOpt v[i]? := by
  unfold vecAt ofOpt; cases v[i]? <;> rfl

theorem vecAt2_eq {α : Type} (v : List (List α)) (p i : Nat) :
    (vecAt v p >>= fun c => vecAt c i) = ofOpt (read2 v p i) := by
  rw [vecAt_eq]; unfold read2
  cases v[p]? with
  | none => rfl
  | some c => simp [ofOpt, vecAt_eq]

theorem getD_eq (t : Table D) (n : Str) (i : Nat) :
    getD t n i = match t.lookup n with
      | none => .throw .outOfRange
      | some l => if l.ty ≠ 'd' then .throw .wrongType else ofOpt (read2 t.dataD l.pos i) := by
  unfold getD getLocation
  cases t.lookup n with
  | none => rfl
  | some l => simp only [Outcome.bind_ok]; rw [vecAt2_eq]

theorem getI_eq (t : Table D) (n : Str) (i : Nat) :
    getI t n i = match t.lookup n with
      | none => .throw .outOfRange
      | some l => if l.ty ≠ 'i' then .throw .wrongType else ofOpt (read2 t.dataI l.pos i) := by
  unfold getI getLocation
  cases t.lookup n with
  | none => rfl
  | some l => simp only [Outcome.bind_ok]; rw [vecAt2_eq]

theorem getS_eq (t : Table D) (n : Str) (i : Nat) :
    getS t n i = match t.lookup n with
      | none => .throw .outOfRange
      | some l => if l.ty ≠ 's' then .throw .wrongType else ofOpt (read2 t.dataS l.pos i) := by
  unfold getS getLocation
  cases t.lookup n with
  | none => rfl
  | some l => simp only [Outcome.bind_ok]; rw [vecAt2_eq]

theorem vecSet_ok {α : Type} {v w : List (List α)} {p i : Nat} {x : α}
    (h : vecSet v p i x = .ok w) :
    w.map List.length = v.map List.length ∧ read2 w p i = some x ∧
      ∀ q j, ¬(q = p ∧ j = i) → read2 w q j = read2 v q j := by
  unfold vecSet at h
  cases hc : v[p]? with
  | none => rw [hc] at h; cases h
  | some c =>
    rw [hc] at h
    by_cases hi : i < c.length
    · simp only [hi, if_true] at h
      injection h with h; subst h
      have hp : p < v.length := by
        by_cases hp : p < v.length
        · exact hp
        · rw [List.getElem?_eq_none (by omega)] at hc; cases hc
      have hcv : v[p] = c := by
        rw [List.getElem?_eq_getElem hp] at hc; exact Option.some.inj hc
      refine ⟨?_, ?_, ?_⟩
      · rw [List.map_set, List.length_set]
        apply List.ext_getElem (by simp)
        intro k h1 h2
        rw [List.getElem_set]
        split
        · next he => subst he; simp [hcv]
        · rfl
      · unfold read2
        rw [List.getElem?_set_self hp]
        simp [hi]
      · intro q j hqj
        unfold read2
        by_cases hq : q = p
        · subst hq
          rw [List.getElem?_set_self hp, hc]
          have : j ≠ i := fun hj => hqj ⟨rfl, hj⟩
          simp only [Option.bind_some]
          rw [List.getElem?_set_ne (fun he => this he.symm)]
        · rw [List.getElem?_set_ne (fun he => hq he.symm)]
    · simp only [hi, if_false] at h; cases h

theorem vecSet_cases {α : Type} (v : List (List α)) (p i : Nat) (x : α) :
    (∃ w, vecSet v p i x = .ok w) ∧ (read2 v p i).isSome ∨
      vecSet v p i x = .throw .outOfRange ∧ read2 v p i = none := by
  unfold vecSet read2
  cases hc : v[p]? with
  | none => simp
  | some c =>
    by_cases hi : i < c.length
    · simp [hi]
    · simp only [hi, if_false]
      exact Or.inr ⟨trivial, by simp; omega⟩

/-- Same names, types, sizes, and same header shape. -/
structure SameShape (t t' : Table D) : Prop where
  names : t'.colNames = t.colNames
  lookup : t'.lookup = t.lookup
  length : t'.length = t.length
  sizeD : t'.dataD.map List.length = t.dataD.map List.length
  sizeI : t'.dataI.map List.length = t.dataI.map List.length
  sizeS : t'.dataS.map List.length = t.dataS.map List.length
  hnames : t'.hcolNames = t.hcolNames
  hlookup : t'.hlookup = t.hlookup
  hsizeD : t'.hdataD.length = t.hdataD.length
  hsizeI : t'.hdataI.length = t.hdataI.length
  hsizeS : t'.hdataS.length = t.hdataS.length

theorem SameShape.refl (t : Table D) : SameShape t t := ⟨rfl, rfl, rfl, rfl, rfl, rfl, rfl, rfl, rfl, rfl, rfl⟩

theorem SameShape.trans {a b c : Table D} (h : SameShape a b) (g : SameShape b c) :
    SameShape a c :=
  ⟨g.names.trans h.names, g.lookup.trans h.lookup, g.length.trans h.length,
    g.sizeD.trans h.sizeD, g.sizeI.trans h.sizeI, g.sizeS.trans h.sizeS,
    g.hnames.trans h.hnames, g.hlookup.trans h.hlookup, g.hsizeD.trans h.hsizeD,
    g.hsizeI.trans h.hsizeI, g.hsizeS.trans h.hsizeS⟩

/-- Valid locations. -/
def LocOK (l : Loc) (nd ni ns : Nat) : Prop :=
  (l.ty = 'd' ∧ l.pos < nd) ∨ (l.ty = 'i' ∧ l.pos < ni) ∨ (l.ty = 's' ∧ l.pos < ns)

/-- Internal invariant of a table. -/
structure Inv (t : Table D) : Prop where
  nodup : t.colNames.Nodup
  mem : ∀ n, n ∈ t.colNames ↔ (t.lookup n).isSome = true
  loc : ∀ n l, t.lookup n = some l → LocOK l t.dataD.length t.dataI.length t.dataS.length
  inj : ∀ n m l, t.lookup n = some l → t.lookup m = some l → n = m
  rectD : ∀ k ∈ t.dataD.map List.length, k = t.length
  rectI : ∀ k ∈ t.dataI.map List.length, k = t.length
  rectS : ∀ k ∈ t.dataS.map List.length, k = t.length
  hnodup : t.hcolNames.Nodup
  hmem : ∀ n, n ∈ t.hcolNames ↔ (t.hlookup n).isSome = true
  hloc : ∀ n l, t.hlookup n = some l → LocOK l t.hdataD.length t.hdataI.length t.hdataS.length
  hinj : ∀ n m l, t.hlookup n = some l → t.hlookup m = some l → n = m

theorem inv_empty : Inv (empty : Table D) := by
  constructor <;> simp [empty]

theorem Inv.of_sameShape {t t' : Table D} (h : Inv t) (s : SameShape t t') : Inv t' := by
  have hD : t'.dataD.length = t.dataD.length := by
    have := congrArg List.length s.sizeD; simpa using this
  have hI : t'.dataI.length = t.dataI.length := by
    have := congrArg List.length s.sizeI; simpa using this
  have hS : t'.dataS.length = t.dataS.length := by
    have := congrArg List.length s.sizeS; simpa using this
  constructor
  · rw [s.names]; exact h.nodup
  · rw [s.names, s.lookup]; exact h.mem
  · rw [s.lookup, hD, hI, hS]; exact h.loc
  · rw [s.lookup]; exact h.inj
  · rw [s.sizeD, s.length]; exact h.rectD
  · rw [s.sizeI, s.length]; exact h.rectI
  · rw [s.sizeS, s.length]; exact h.rectS
  · rw [s.hnames]; exact h.hnodup
  · rw [s.hnames, s.hlookup]; exact h.hmem
  · rw [s.hlookup, s.hsizeD, s.hsizeI, s.hsizeS]; exact h.hloc
  · rw [s.hlookup]; exact h.hinj

/-- What a cell write does: outcome and new table. -/
theorem setD_cases (t : Table D) (n : Str) (i : Nat) (x : D) :
    (∃ l w, t.lookup n = some l ∧ l.ty = 'd' ∧ vecSet t.dataD l.pos i x = .ok w ∧
      (read2 t.dataD l.pos i).isSome ∧ setD t n i x = (.ok (), { t with dataD := w })) ∨
    (∃ l, t.lookup n = some l ∧ l.ty = 'd' ∧ read2 t.dataD l.pos i = none ∧
      setD t n i x = (.throw .outOfRange, t)) ∨
    (∃ l, t.lookup n = some l ∧ l.ty ≠ 'd' ∧ setD t n i x = (.throw .wrongType, t)) ∨
    (t.lookup n = none ∧ setD t n i x = (.throw .outOfRange, t)) := by
  unfold setD getLocation
  cases hl : t.lookup n with
  | none => simp
  | some l =>
    by_cases ht : l.ty = 'd'
    · rcases vecSet_cases t.dataD l.pos i x with ⟨⟨w, hw⟩, hr⟩ | ⟨hw, hr⟩
      · exact Or.inl ⟨l, w, rfl, ht, hw, hr, by simp [ht, hw]⟩
      · exact Or.inr (Or.inl ⟨l, rfl, ht, hr, by simp [ht, hw]⟩)
    · exact Or.inr (Or.inr (Or.inl ⟨l, rfl, ht, by simp [ht]⟩))

theorem setI_cases (t : Table D) (n : Str) (i : Nat) (x : Int) :
    (∃ l w, t.lookup n = some l ∧ l.ty = 'i' ∧ vecSet t.dataI l.pos i x = .ok w ∧
      (read2 t.dataI l.pos i).isSome ∧ setI t n i x = (.ok (), { t with dataI := w })) ∨
    (∃ l, t.lookup n = some l ∧ l.ty = 'i' ∧ read2 t.dataI l.pos i = none ∧
      setI t n i x = (.throw .outOfRange, t)) ∨
    (∃ l, t.lookup n = some l ∧ l.ty ≠ 'i' ∧ setI t n i x = (.throw .wrongType, t)) ∨
    (t.lookup n = none ∧ setI t n i x = (.throw .outOfRange, t)) := by
  unfold setI getLocation
  cases hl : t.lookup n with
  | none => simp
  | some l =>
    by_cases ht : l.ty = 'i'
    · rcases vecSet_cases t.dataI l.pos i x with ⟨⟨w, hw⟩, hr⟩ | ⟨hw, hr⟩
      · exact Or.inl ⟨l, w, rfl, ht, hw, hr, by simp [ht, hw]⟩
      · exact Or.inr (Or.inl ⟨l, rfl, ht, hr, by simp [ht, hw]⟩)
    · exact Or.inr (Or.inr (Or.inl ⟨l, rfl, ht, by simp [ht]⟩))

theorem setS_cases (t : Table D) (n : Str) (i : Nat) (x : Str) :
    (∃ l w, t.lookup n = some l ∧ l.ty = 's' ∧ vecSet t.dataS l.pos i x = .ok w ∧
      (read2 t.dataS l.pos i).isSome ∧ setS t n i x = (.ok (), { t with dataS := w })) ∨
    (∃ l, t.lookup n = some l ∧ l.ty = 's' ∧ read2 t.dataS l.pos i = none ∧
      setS t n i x = (.throw .outOfRange, t)) ∨
    (∃ l, t.lookup n = some l ∧ l.ty ≠ 's' ∧ setS t n i x = (.throw .wrongType, t)) ∨
    (t.lookup n = none ∧ setS t n i x = (.throw .outOfRange, t)) := by
  unfold setS getLocation
  cases hl : t.lookup n with
  | none => simp
  | some l =>
    by_cases ht : l.ty = 's'
    · rcases vecSet_cases t.dataS l.pos i x with ⟨⟨w, hw⟩, hr⟩ | ⟨hw, hr⟩
      · exact Or.inl ⟨l, w, rfl, ht, hw, hr, by simp [ht, hw]⟩
      · exact Or.inr (Or.inl ⟨l, rfl, ht, hr, by simp [ht, hw]⟩)
    · exact Or.inr (Or.inr (Or.inl ⟨l, rfl, ht, by simp [ht]⟩))

/-- The three getters agree at one cell. -/
def SameAt (t t' : Table D) (m : Str) (j : Nat) : Prop :=
  getD t' m j = getD t m j ∧ getI t' m j = getI t m j ∧ getS t' m j = getS t m j

theorem SameAt.refl (t : Table D) (m : Str) (j : Nat) : SameAt t t m j := ⟨rfl, rfl, rfl⟩

theorem SameAt.trans {a b c : Table D} {m : Str} {j : Nat} (h : SameAt a b m j)
    (g : SameAt b c m j) : SameAt a c m j :=
  ⟨g.1.trans h.1, g.2.1.trans h.2.1, g.2.2.trans h.2.2⟩

/-- The header getters agree. -/
def SameHeader (t t' : Table D) : Prop :=
  t'.hdataD = t.hdataD ∧ t'.hdataI = t.hdataI ∧ t'.hdataS = t.hdataS ∧
    t'.hcolNames = t.hcolNames ∧ t'.hlookup = t.hlookup

/-- The typed getter of the value's type. -/
def getsVal (t : Table D) (n : Str) (i : Nat) : Val D → Prop
  | .d x => getD t n i = .ok x
  | .i x => getI t n i = .ok x
  | .s x => getS t n i = .ok x

theorem setVal_spec (t : Table D) (n : Str) (i : Nat) (v : Val D) (ht : Inv t) :
    SameShape t (setVal t n i v).2 ∧ SameHeader t (setVal t n i v).2 ∧
    (∀ m j, (m, j) ≠ (n, i) → SameAt t (setVal t n i v).2 m j) ∧
    ((setVal t n i v).1 = .ok () → getsVal (setVal t n i v).2 n i v) ∧
    ((setVal t n i v).1 ≠ .ok () → (setVal t n i v).2 = t) := by
  have triv : ∀ e, setVal t n i v = (.throw e, t) →
      SameShape t (setVal t n i v).2 ∧ SameHeader t (setVal t n i v).2 ∧
      (∀ m j, (m, j) ≠ (n, i) → SameAt t (setVal t n i v).2 m j) ∧
      ((setVal t n i v).1 = .ok () → getsVal (setVal t n i v).2 n i v) ∧
      ((setVal t n i v).1 ≠ .ok () → (setVal t n i v).2 = t) := by
    intro e h
    rw [h]
    refine ⟨SameShape.refl t, ⟨rfl, rfl, rfl, rfl, rfl⟩, fun m j _ => SameAt.refl t m j, ?_,
      fun _ => rfl⟩
    intro h; simp at h
  cases v with
  | d x =>
    rcases setD_cases t n i x with ⟨l, w, hl, hty, hw, _, he⟩ | ⟨l, _, _, _, he⟩ | ⟨l, _, _, he⟩ |
      ⟨_, he⟩
    · obtain ⟨h1, h2, h3⟩ := vecSet_ok hw
      rw [show setVal t n i (.d x) = _ from he]
      refine ⟨⟨rfl, rfl, rfl, h1, rfl, rfl, rfl, rfl, rfl, rfl, rfl⟩, ⟨rfl, rfl, rfl, rfl, rfl⟩,
        ?_, ?_, fun h => absurd rfl h⟩
      · intro m j hmj
        refine ⟨?_, by rw [getI_eq, getI_eq], by rw [getS_eq, getS_eq]⟩
        rw [getD_eq, getD_eq]
        cases hm : t.lookup m with
        | none => simp
        | some l' =>
          by_cases hd : l'.ty = 'd'
          · simp only [hd, ne_eq, not_true_eq_false, if_false]
            rw [h3 l'.pos j]
            rintro ⟨hp, rfl⟩
            have : l' = l := by
              cases l'; cases l; simp_all
            subst this
            exact hmj (by rw [ht.inj m n _ hm hl])
          · simp [hd]
      · intro _
        show getD _ n i = .ok x
        rw [getD_eq]
        simp only [hl, hty, ne_eq, not_true_eq_false, if_false, h2, ofOpt]
    · exact triv _ he
    · exact triv _ he
    · exact triv _ he
  | i x =>
    rcases setI_cases t n i x with ⟨l, w, hl, hty, hw, _, he⟩ | ⟨l, _, _, _, he⟩ | ⟨l, _, _, he⟩ |
      ⟨_, he⟩
    · obtain ⟨h1, h2, h3⟩ := vecSet_ok hw
      rw [show setVal t n i (.i x) = _ from he]
      refine ⟨⟨rfl, rfl, rfl, rfl, h1, rfl, rfl, rfl, rfl, rfl, rfl⟩, ⟨rfl, rfl, rfl, rfl, rfl⟩,
        ?_, ?_, fun h => absurd rfl h⟩
      · intro m j hmj
        refine ⟨by rw [getD_eq, getD_eq], ?_, by rw [getS_eq, getS_eq]⟩
        rw [getI_eq, getI_eq]
        cases hm : t.lookup m with
        | none => simp
        | some l' =>
          by_cases hd : l'.ty = 'i'
          · simp only [hd, ne_eq, not_true_eq_false, if_false]
            rw [h3 l'.pos j]
            rintro ⟨hp, rfl⟩
            have : l' = l := by
              cases l'; cases l; simp_all
            subst this
            exact hmj (by rw [ht.inj m n _ hm hl])
          · simp [hd]
      · intro _
        show getI _ n i = .ok x
        rw [getI_eq]
        simp only [hl, hty, ne_eq, not_true_eq_false, if_false, h2, ofOpt]
    · exact triv _ he
    · exact triv _ he
    · exact triv _ he
  | s x =>
    rcases setS_cases t n i x with ⟨l, w, hl, hty, hw, _, he⟩ | ⟨l, _, _, _, he⟩ | ⟨l, _, _, he⟩ |
      ⟨_, he⟩
    · obtain ⟨h1, h2, h3⟩ := vecSet_ok hw
      rw [show setVal t n i (.s x) = _ from he]
      refine ⟨⟨rfl, rfl, rfl, rfl, rfl, h1, rfl, rfl, rfl, rfl, rfl⟩, ⟨rfl, rfl, rfl, rfl, rfl⟩,
        ?_, ?_, fun h => absurd rfl h⟩
      · intro m j hmj
        refine ⟨by rw [getD_eq, getD_eq], by rw [getI_eq, getI_eq], ?_⟩
        rw [getS_eq, getS_eq]
        cases hm : t.lookup m with
        | none => simp
        | some l' =>
          by_cases hd : l'.ty = 's'
          · simp only [hd, ne_eq, not_true_eq_false, if_false]
            rw [h3 l'.pos j]
            rintro ⟨hp, rfl⟩
            have : l' = l := by
              cases l'; cases l; simp_all
            subst this
            exact hmj (by rw [ht.inj m n _ hm hl])
          · simp [hd]
      · intro _
        show getS _ n i = .ok x
        rw [getS_eq]
        simp only [hl, hty, ne_eq, not_true_eq_false, if_false, h2, ofOpt]
    · exact triv _ he
    · exact triv _ he
    · exact triv _ he

/-- `SetWithStr` is a typed set of the converted value, or fails without effect. -/
theorem setWithStr_cases (cv : Conv D) (t : Table D) (n : Str) (i : Nat) (x : Str) :
    (∃ v, setWithStr cv t n i x = setVal t n i v ∧
      match v with
      | .d y => cv.stod x = .ok y
      | .i y => cv.stoi x = .ok y
      | .s y => y = x) ∨
    (∃ e, setWithStr cv t n i x = (.throw e, t)) := by
  unfold setWithStr getLocation
  cases t.lookup n with
  | some l =>
    simp only
    split
    · cases h : cv.stod x with
      | ok v => exact Or.inl ⟨.d v, rfl, rfl⟩
      | error e => exact Or.inr ⟨e, rfl⟩
    · split
      · cases h : cv.stoi x with
        | ok v => exact Or.inl ⟨.i v, rfl, rfl⟩
        | error e => exact Or.inr ⟨e, rfl⟩
      · split
        · exact Or.inl ⟨.s x, rfl, rfl⟩
        · exact Or.inr ⟨_, rfl⟩
  | none => exact Or.inr ⟨_, rfl⟩

/-! ## Adding rows and columns -/

theorem read2_map_append {α : Type} (v : List (List α)) (x : α) (len p i : Nat)
    (hr : ∀ k ∈ v.map List.length, k = len) (hi : i < len) :
    read2 (v.map (· ++ [x])) p i = read2 v p i := by
  unfold read2
  rw [List.getElem?_map]
  cases hc : v[p]? with
  | none => rfl
  | some c =>
    have : c.length = len := hr _ (List.mem_map.2 ⟨c, List.mem_of_getElem? hc, rfl⟩)
    simp only [Option.map_some, Option.bind_some]
    rw [List.getElem?_append_left (by omega)]

theorem read2_isSome {α : Type} (v : List (List α)) (len p i : Nat)
    (hr : ∀ k ∈ v.map List.length, k = len) (hp : p < v.length) :
    (read2 v p i).isSome = true ↔ i < len := by
  unfold read2
  rw [List.getElem?_eq_getElem hp]
  have : (v[p]).length = len := hr _ (List.mem_map.2 ⟨_, List.getElem_mem hp, rfl⟩)
  simp [this]

theorem inv_addRow [Inhabited D] (t : Table D) (h : Inv t) : Inv (addRow t).2 := by
  have rect : ∀ {α : Type} (v : List (List α)) (x : α) (len : Nat),
      (∀ k ∈ v.map List.length, k = len) →
      ∀ k ∈ (v.map (· ++ [x])).map List.length, k = len + 1 := by
    intro α v x len hv k hk
    simp only [List.map_map, List.mem_map, Function.comp] at hk
    obtain ⟨c, hc, rfl⟩ := hk
    have := hv c.length (List.mem_map.2 ⟨c, hc, rfl⟩)
    simp [this]
  unfold addRow
  constructor
  · exact h.nodup
  · exact h.mem
  · intro n l hl
    have := h.loc n l hl
    simpa using this
  · exact h.inj
  · exact rect _ _ _ h.rectD
  · exact rect _ _ _ h.rectI
  · exact rect _ _ _ h.rectS
  · exact h.hnodup
  · exact h.hmem
  · exact h.hloc
  · exact h.hinj

theorem addRow_sameAt [Inhabited D] (t : Table D) (h : Inv t) (m : Str) (j : Nat)
    (hj : j < t.length) : SameAt t (addRow t).2 m j := by
  unfold addRow
  refine ⟨?_, ?_, ?_⟩
  · rw [getD_eq, getD_eq]; simp only
    cases t.lookup m with
    | none => rfl
    | some l => simp only; rw [read2_map_append _ _ _ _ _ h.rectD hj]
  · rw [getI_eq, getI_eq]; simp only
    cases t.lookup m with
    | none => rfl
    | some l => simp only; rw [read2_map_append _ _ _ _ _ h.rectI hj]
  · rw [getS_eq, getS_eq]; simp only
    cases t.lookup m with
    | none => rfl
    | some l => simp only; rw [read2_map_append _ _ _ _ _ h.rectS hj]

theorem addRowN_spec (t : Table D) (col row : Nat) (vs : List (Val D)) (h : Inv t) :
    SameShape t (addRowN t col row vs).2 ∧ SameHeader t (addRowN t col row vs).2 ∧
    ∀ m j, j ≠ row → SameAt t (addRowN t col row vs).2 m j := by
  induction vs generalizing t col with
  | nil => exact ⟨SameShape.refl t, ⟨rfl, rfl, rfl, rfl, rfl⟩, fun m j _ => SameAt.refl t m j⟩
  | cons v vs ih =>
    unfold addRowN
    cases hc : t.colNames[col]? with
    | none => exact ⟨SameShape.refl t, ⟨rfl, rfl, rfl, rfl, rfl⟩, fun m j _ => SameAt.refl t m j⟩
    | some name =>
      simp only
      obtain ⟨h1, h2, h3, _, _⟩ := setVal_spec t name row v h
      have hne : ∀ m j, j ≠ row → (m, j) ≠ (name, row) := fun m j hj he =>
        hj (Prod.mk.inj he).2
      generalize hr : setVal t name row v = r at *
      obtain ⟨o, t'⟩ := r
      cases o with
      | ok u =>
        obtain ⟨g1, g2, g3⟩ := ih t' (col + 1) (h.of_sameShape h1)
        refine ⟨h1.trans g1, ?_, fun m j hj => (h3 m j (hne m j hj)).trans (g3 m j hj)⟩
        obtain ⟨a1, a2, a3, a4, a5⟩ := h2
        obtain ⟨b1, b2, b3, b4, b5⟩ := g2
        exact ⟨b1.trans a1, b2.trans a2, b3.trans a3, b4.trans a4, b5.trans a5⟩
      | throw e => exact ⟨h1, h2, fun m j hj => h3 m j (hne m j hj)⟩
      | ub => exact ⟨h1, h2, fun m j hj => h3 m j (hne m j hj)⟩

theorem mapSet_self (m : Str → Option Loc) (n : Str) (l : Loc) : mapSet m n l n = some l := by
  simp [mapSet]

theorem mapSet_ne (m : Str → Option Loc) (n k : Str) (l : Loc) (h : k ≠ n) :
    mapSet m n l k = m k := by simp [mapSet, h]

/-- Invariant of names and lookup when one name with a fresh location is added. -/
theorem names_add {names : List Str} {m : Str → Option Loc} {nd ni ns nd' ni' ns' : Nat}
    {name : Str} {l : Loc}
    (hnodup : names.Nodup) (hmem : ∀ n, n ∈ names ↔ (m n).isSome = true)
    (hloc : ∀ n l, m n = some l → LocOK l nd ni ns)
    (hinj : ∀ n k l, m n = some l → m k = some l → n = k)
    (hfresh : (m name).isSome = false) (hl : LocOK l nd' ni' ns') (hlf : ¬ LocOK l nd ni ns)
    (h1 : nd ≤ nd') (h2 : ni ≤ ni') (h3 : ns ≤ ns') :
    (names ++ [name]).Nodup ∧ (∀ n, n ∈ names ++ [name] ↔ (mapSet m name l n).isSome = true) ∧
    (∀ n l', mapSet m name l n = some l' → LocOK l' nd' ni' ns') ∧
    (∀ n k l', mapSet m name l n = some l' → mapSet m name l k = some l' → n = k) := by
  have hnn : name ∉ names := by
    intro h; rw [hmem] at h; rw [h] at hfresh; cases hfresh
  refine ⟨?_, ?_, ?_, ?_⟩
  · rw [List.nodup_append]
    refine ⟨hnodup, by simp, ?_⟩
    intro a ha b hb
    simp at hb
    subst hb
    exact fun hab => hnn (hab ▸ ha)
  · intro n
    by_cases hn : n = name
    · subst hn; simp [mapSet]
    · simp [mapSet, hn, hmem]
  · intro n l' hl'
    by_cases hn : n = name
    · subst hn; rw [mapSet_self] at hl'; cases hl'; exact hl
    · rw [mapSet_ne _ _ _ _ hn] at hl'
      have := hloc n l' hl'
      unfold LocOK at *
      rcases this with ⟨ht, hp⟩ | ⟨ht, hp⟩ | ⟨ht, hp⟩
      · exact Or.inl ⟨ht, by omega⟩
      · exact Or.inr (Or.inl ⟨ht, by omega⟩)
      · exact Or.inr (Or.inr ⟨ht, by omega⟩)
  · intro n k l' hn hk
    by_cases e1 : n = name
    · by_cases e2 : k = name
      · rw [e1, e2]
      · rw [e1, mapSet_self] at hn; cases hn
        rw [mapSet_ne _ _ _ _ e2] at hk
        exact absurd (hloc k l hk) hlf
    · rw [mapSet_ne _ _ _ _ e1] at hn
      by_cases e2 : k = name
      · rw [e2, mapSet_self] at hk; cases hk
        exact absurd (hloc n l hn) hlf
      · rw [mapSet_ne _ _ _ _ e2] at hk
        exact hinj n k l' hn hk

theorem inv_addColumn [Inhabited D] (t : Table D) (name : Str) (type : Char) (h : Inv t) :
    Inv (addColumn t name type).2 := by
  have rect : ∀ {α : Type} (v : List (List α)) (x : α) (len : Nat),
      (∀ k ∈ v.map List.length, k = len) →
      ∀ k ∈ (v ++ [List.replicate len x]).map List.length, k = len := by
    intro α v x len hv k hk
    simp only [List.map_append, List.mem_append] at hk
    rcases hk with hk | hk
    · exact hv k hk
    · simpa using hk
  unfold addColumn
  by_cases hf : (t.lookup name).isSome = true
  · simp only [hf, if_true]; exact h
  · have hf' : (t.lookup name).isSome = false := by simpa using hf
    simp only [hf', Bool.false_eq_true, if_false]
    by_cases hd : type = 'd'
    · simp only [if_pos hd]
      subst hd
      obtain ⟨a, b, c, d⟩ := names_add (l := ⟨'d', t.dataD.length⟩) (nd' := t.dataD.length + 1)
        (ni' := t.dataI.length) (ns' := t.dataS.length)
        h.nodup h.mem h.loc h.inj hf' (by simp [LocOK]) (by simp [LocOK]) (by omega) (by omega)
        (by omega)
      exact ⟨a, b, by simpa using c, d, rect _ _ _ h.rectD, h.rectI, h.rectS, h.hnodup, h.hmem,
        h.hloc, h.hinj⟩
    · simp only [if_neg hd]
      by_cases hi : type = 'i'
      · simp only [if_pos hi]
        subst hi
        obtain ⟨a, b, c, d⟩ := names_add (l := ⟨'i', t.dataI.length⟩) (nd' := t.dataD.length)
          (ni' := t.dataI.length + 1) (ns' := t.dataS.length)
          h.nodup h.mem h.loc h.inj hf' (by simp [LocOK]) (by simp [LocOK]) (by omega) (by omega)
          (by omega)
        exact ⟨a, b, by simpa using c, d, h.rectD, rect _ _ _ h.rectI, h.rectS, h.hnodup, h.hmem,
          h.hloc, h.hinj⟩
      · simp only [if_neg hi]
        by_cases hs : type = 's'
        · simp only [if_pos hs]
          subst hs
          obtain ⟨a, b, c, d⟩ := names_add (l := ⟨'s', t.dataS.length⟩) (nd' := t.dataD.length)
            (ni' := t.dataI.length) (ns' := t.dataS.length + 1)
            h.nodup h.mem h.loc h.inj hf' (by simp [LocOK]) (by simp [LocOK]) (by omega) (by omega)
            (by omega)
          exact ⟨a, b, by simpa using c, d, h.rectD, h.rectI, rect _ _ _ h.rectS, h.hnodup, h.hmem,
            h.hloc, h.hinj⟩
        · simp only [if_neg hs]; exact h

theorem inv_headerAddColumn [Inhabited D] (t : Table D) (name : Str) (type : Char) (h : Inv t) :
    Inv (headerAddColumn t name type).2 := by
  unfold headerAddColumn
  by_cases hf : (t.hlookup name).isSome = true
  · simp only [hf, if_true]; exact h
  · have hf' : (t.hlookup name).isSome = false := by simpa using hf
    simp only [hf', Bool.false_eq_true, if_false]
    by_cases hd : type = 'd'
    · simp only [if_pos hd]
      subst hd
      obtain ⟨a, b, c, d⟩ := names_add (l := ⟨'d', t.hdataD.length⟩) (nd' := t.hdataD.length + 1)
        (ni' := t.hdataI.length) (ns' := t.hdataS.length)
        h.hnodup h.hmem h.hloc h.hinj hf' (by simp [LocOK]) (by simp [LocOK]) (by omega) (by omega)
        (by omega)
      exact ⟨h.nodup, h.mem, h.loc, h.inj, h.rectD, h.rectI, h.rectS, a, b, by simpa using c, d⟩
    · simp only [if_neg hd]
      by_cases hi : type = 'i'
      · simp only [if_pos hi]
        subst hi
        obtain ⟨a, b, c, d⟩ := names_add (l := ⟨'i', t.hdataI.length⟩) (nd' := t.hdataD.length)
          (ni' := t.hdataI.length + 1) (ns' := t.hdataS.length)
          h.hnodup h.hmem h.hloc h.hinj hf' (by simp [LocOK]) (by simp [LocOK]) (by omega)
          (by omega) (by omega)
        exact ⟨h.nodup, h.mem, h.loc, h.inj, h.rectD, h.rectI, h.rectS, a, b, by simpa using c, d⟩
      · simp only [if_neg hi]
        by_cases hs : type = 's'
        · simp only [if_pos hs]
          subst hs
          obtain ⟨a, b, c, d⟩ := names_add (l := ⟨'s', t.hdataS.length⟩) (nd' := t.hdataD.length)
            (ni' := t.hdataI.length) (ns' := t.hdataS.length + 1)
            h.hnodup h.hmem h.hloc h.hinj hf' (by simp [LocOK]) (by simp [LocOK]) (by omega)
            (by omega) (by omega)
          exact ⟨h.nodup, h.mem, h.loc, h.inj, h.rectD, h.rectI, h.rectS, a, b, by simpa using c, d⟩
        · simp only [if_neg hs]; exact h

/-! ## Header writes -/

theorem headerSetD_shape (t : Table D) (n : Str) (x : D) : SameShape t (headerSetD t n x).2 := by
  unfold headerSetD getHLocation
  cases t.hlookup n with
  | none => exact SameShape.refl t
  | some l =>
    simp only
    split
    · exact SameShape.refl t
    · split
      · exact ⟨rfl, rfl, rfl, rfl, rfl, rfl, rfl, rfl, by simp, rfl, rfl⟩
      · exact SameShape.refl t

theorem headerSetI_shape (t : Table D) (n : Str) (x : Int) : SameShape t (headerSetI t n x).2 := by
  unfold headerSetI getHLocation
  cases t.hlookup n with
  | none => exact SameShape.refl t
  | some l =>
    simp only
    split
    · exact SameShape.refl t
    · split
      · exact ⟨rfl, rfl, rfl, rfl, rfl, rfl, rfl, rfl, rfl, by simp, rfl⟩
      · exact SameShape.refl t

theorem headerSetS_shape (t : Table D) (n : Str) (x : Str) : SameShape t (headerSetS t n x).2 := by
  unfold headerSetS getHLocation
  cases t.hlookup n with
  | none => exact SameShape.refl t
  | some l =>
    simp only
    split
    · exact SameShape.refl t
    · split
      · exact ⟨rfl, rfl, rfl, rfl, rfl, rfl, rfl, rfl, rfl, rfl, by simp⟩
      · exact SameShape.refl t

theorem headerSetWithStr_cases (cv : Conv D) (t : Table D) (n : Str) (x : Str) :
    (∃ v, headerSetWithStr cv t n x = headerSetD t n v ∧ cv.stod x = .ok v) ∨
    (∃ v, headerSetWithStr cv t n x = headerSetI t n v ∧ cv.stoi x = .ok v) ∨
    headerSetWithStr cv t n x = headerSetS t n x ∨
    ∃ e, headerSetWithStr cv t n x = (.throw e, t) := by
  unfold headerSetWithStr getHLocation
  cases t.hlookup n with
  | some l =>
    simp only
    split
    · cases h : cv.stod x with
      | ok v => exact Or.inl ⟨v, rfl, rfl⟩
      | error e => exact Or.inr (Or.inr (Or.inr ⟨e, rfl⟩))
    · split
      · cases h : cv.stoi x with
        | ok v => exact Or.inr (Or.inl ⟨v, rfl, rfl⟩)
        | error e => exact Or.inr (Or.inr (Or.inr ⟨e, rfl⟩))
      · split
        · exact Or.inr (Or.inr (Or.inl rfl))
        · exact Or.inr (Or.inr (Or.inr ⟨_, rfl⟩))
  | none => exact Or.inr (Or.inr (Or.inr ⟨_, rfl⟩))

/-! ## `ApertureFromRow` -/

/-- What a sequence of row writes preserves. -/
def RowWrite (row : Nat) (t t' : Table D) : Prop :=
  SameShape t t' ∧ SameHeader t t' ∧ ∀ m j, j ≠ row → SameAt t t' m j

theorem RowWrite.refl (row : Nat) (t : Table D) : RowWrite row t t :=
  ⟨SameShape.refl t, ⟨rfl, rfl, rfl, rfl, rfl⟩, fun m j _ => SameAt.refl t m j⟩

theorem RowWrite.trans {row : Nat} {a b c : Table D} (h : RowWrite row a b)
    (g : RowWrite row b c) : RowWrite row a c := by
  obtain ⟨h1, ⟨a1, a2, a3, a4, a5⟩, h3⟩ := h
  obtain ⟨g1, ⟨b1, b2, b3, b4, b5⟩, g3⟩ := g
  exact ⟨h1.trans g1, ⟨b1.trans a1, b2.trans a2, b3.trans a3, b4.trans a4, b5.trans a5⟩,
    fun m j hj => (h3 m j hj).trans (g3 m j hj)⟩

theorem setVal_rowWrite (t : Table D) (n : Str) (row : Nat) (v : Val D) (h : Inv t) :
    RowWrite row t (setVal t n row v).2 := by
  obtain ⟨h1, h2, h3, _, _⟩ := setVal_spec t n row v h
  exact ⟨h1, h2, fun m j hj => h3 m j (fun he => hj (Prod.mk.inj he).2)⟩

theorem copyD_rowWrite (src : Table D) (p row : Nat) (n : Str) (t : Table D) (h : Inv t) :
    RowWrite row t (copyD src p row n t).2 := by
  unfold copyD
  cases getD src n p with
  | ok x => exact setVal_rowWrite t n row (.d x) h
  | throw e => exact RowWrite.refl row t
  | ub => exact RowWrite.refl row t

theorem copyS_rowWrite (src : Table D) (p row : Nat) (n : Str) (t : Table D) (h : Inv t) :
    RowWrite row t (copyS src p row n t).2 := by
  unfold copyS
  cases getS src n p with
  | ok x => exact setVal_rowWrite t n row (.s x) h
  | throw e => exact RowWrite.refl row t
  | ub => exact RowWrite.refl row t

theorem seq_rowWrite {α β : Type} {row : Nat} {t : Table D} {r : Outcome Exn α × Table D}
    {k : α → Table D → Outcome Exn β × Table D} (h : RowWrite row t r.2)
    (hk : ∀ a, RowWrite row r.2 (k a r.2).2) : RowWrite row t (seq r k).2 := by
  obtain ⟨o, t'⟩ := r
  cases o with
  | ok a => exact h.trans (hk a)
  | throw e => exact h
  | ub => exact h

theorem apertureFromRow_rowWrite [Inhabited D] (t src : Table D) (p : Nat) (h : Inv t) :
    RowWrite t.length (addRow t).2 (apertureFromRow t src p).2 := by
  have h0 := inv_addRow t h
  unfold apertureFromRow
  simp only
  have hrow : (addRow t).1 = t.length := rfl
  rw [hrow]
  have cs := fun n (t : Table D) (ht : Inv t) (row : Nat) => copyS_rowWrite src p row n t ht
  have cd := fun n (t : Table D) (ht : Inv t) (row : Nat) => copyD_rowWrite src p row n t ht
  have a1 := cs "APERTYPE".toList _ h0 t.length
  have i1 := h0.of_sameShape a1.1
  refine seq_rowWrite a1 fun _ => ?_
  have a2 := cd "S".toList _ i1 t.length
  have i2 := i1.of_sameShape a2.1
  refine seq_rowWrite a2 fun _ => ?_
  have a3 := cd "APER_1".toList _ i2 t.length
  have i3 := i2.of_sameShape a3.1
  refine seq_rowWrite a3 fun _ => ?_
  have a4 := cd "APER_2".toList _ i3 t.length
  have i4 := i3.of_sameShape a4.1
  refine seq_rowWrite a4 fun _ => ?_
  have a5 := cd "APER_3".toList _ i4 t.length
  have i5 := i4.of_sameShape a5.1
  refine seq_rowWrite a5 fun _ => ?_
  exact cd "APER_4".toList _ i5 t.length

theorem inv_step [Inhabited D] (cv : Conv D) (t : Table D) (o : Op D) (h : Inv t) :
    Inv (step cv t o).2 := by
  cases o with
  | addColumn n c => exact inv_addColumn t n c h
  | addRow => exact inv_addRow t h
  | addRowVals vs =>
    exact (inv_addRow t h).of_sameShape (addRowN_spec _ 0 _ vs (inv_addRow t h)).1
  | set n i v => exact h.of_sameShape (setVal_spec t n i v h).1
  | setWithStr n i x =>
    show Inv (setWithStr cv t n i x).2
    rcases setWithStr_cases cv t n i x with ⟨v, hv, _⟩ | ⟨e, he⟩
    · rw [hv]; exact h.of_sameShape (setVal_spec t n i v h).1
    · rw [he]; exact h
  | apertureFromRow src p =>
    exact (inv_addRow t h).of_sameShape (apertureFromRow_rowWrite t src p h).1
  | headerAddColumn n c => exact inv_headerAddColumn t n c h
  | headerSetD n x => exact h.of_sameShape (headerSetD_shape t n x)
  | headerSetI n x => exact h.of_sameShape (headerSetI_shape t n x)
  | headerSetS n x => exact h.of_sameShape (headerSetS_shape t n x)
  | headerSetWithStr n x =>
    show Inv (headerSetWithStr cv t n x).2
    rcases headerSetWithStr_cases cv t n x with ⟨v, hv, _⟩ | ⟨v, hv, _⟩ | hv | ⟨e, hv⟩
    · rw [hv]; exact h.of_sameShape (headerSetD_shape t n v)
    · rw [hv]; exact h.of_sameShape (headerSetI_shape t n v)
    · rw [hv]; exact h.of_sameShape (headerSetS_shape t n x)
    · rw [hv]; exact h

theorem inv_run [Inhabited D] (cv : Conv D) (ops : List (Op D)) (t : Table D) (h : Inv t) :
    Inv (run cv t ops) := by
  induction ops generalizing t with
  | nil => exact h
  | cons o os ih => exact ih _ (inv_step cv t o h)

/-! ## The outcome of a typed access in a table that satisfies the invariant -/

theorem getD_outcome (t : Table D) (h : Inv t) (n : Str) (i : Nat) :
    match t.lookup n with
    | none => getD t n i = .throw .outOfRange
    | some l =>
      if l.ty ≠ 'd' then getD t n i = .throw .wrongType
      else if i < t.length then ∃ x, getD t n i = .ok x else getD t n i = .throw .outOfRange := by
  rw [getD_eq]
  cases hl : t.lookup n with
  | none => rfl
  | some l =>
    by_cases ht : l.ty = 'd'
    · simp only [ht, ne_eq, not_true_eq_false, if_false]
      have hp : l.pos < t.dataD.length := by
        rcases h.loc n l hl with h | h | h
        · exact h.2
        · rw [ht] at h; exact absurd h.1 (by decide)
        · rw [ht] at h; exact absurd h.1 (by decide)
      have := read2_isSome t.dataD t.length l.pos i h.rectD hp
      by_cases hi : i < t.length
      · simp only [hi, if_true]
        obtain ⟨x, hx⟩ := Option.isSome_iff_exists.1 (this.2 hi)
        exact ⟨x, by rw [hx]; rfl⟩
      · simp only [hi, if_false]
        cases hr : read2 t.dataD l.pos i with
        | none => rfl
        | some x => rw [hr] at this; exact absurd (this.1 rfl) hi
    · simp [ht]

theorem getI_outcome (t : Table D) (h : Inv t) (n : Str) (i : Nat) :
    match t.lookup n with
    | none => getI t n i = .throw .outOfRange
    | some l =>
      if l.ty ≠ 'i' then getI t n i = .throw .wrongType
      else if i < t.length then ∃ x, getI t n i = .ok x else getI t n i = .throw .outOfRange := by
  rw [getI_eq]
  cases hl : t.lookup n with
  | none => rfl
  | some l =>
    by_cases ht : l.ty = 'i'
    · simp only [ht, ne_eq, not_true_eq_false, if_false]
      have hp : l.pos < t.dataI.length := by
        rcases h.loc n l hl with h | h | h
        · rw [ht] at h; exact absurd h.1 (by decide)
        · exact h.2
        · rw [ht] at h; exact absurd h.1 (by decide)
      have := read2_isSome t.dataI t.length l.pos i h.rectI hp
      by_cases hi : i < t.length
      · simp only [hi, if_true]
        obtain ⟨x, hx⟩ := Option.isSome_iff_exists.1 (this.2 hi)
        exact ⟨x, by rw [hx]; rfl⟩
      · simp only [hi, if_false]
        cases hr : read2 t.dataI l.pos i with
        | none => rfl
        | some x => rw [hr] at this; exact absurd (this.1 rfl) hi
    · simp [ht]

theorem getS_outcome (t : Table D) (h : Inv t) (n : Str) (i : Nat) :
    match t.lookup n with
    | none => getS t n i = .throw .outOfRange
    | some l =>
      if l.ty ≠ 's' then getS t n i = .throw .wrongType
      else if i < t.length then ∃ x, getS t n i = .ok x else getS t n i = .throw .outOfRange := by
  rw [getS_eq]
  cases hl : t.lookup n with
  | none => rfl
  | some l =>
    by_cases ht : l.ty = 's'
    · simp only [ht, ne_eq, not_true_eq_false, if_false]
      have hp : l.pos < t.dataS.length := by
        rcases h.loc n l hl with h | h | h
        · rw [ht] at h; exact absurd h.1 (by decide)
        · rw [ht] at h; exact absurd h.1 (by decide)
        · exact h.2
      have := read2_isSome t.dataS t.length l.pos i h.rectS hp
      by_cases hi : i < t.length
      · simp only [hi, if_true]
        obtain ⟨x, hx⟩ := Option.isSome_iff_exists.1 (this.2 hi)
        exact ⟨x, by rw [hx]; rfl⟩
      · simp only [hi, if_false]
        cases hr : read2 t.dataS l.pos i with
        | none => rfl
        | some x => rw [hr] at this; exact absurd (this.1 rfl) hi
    · simp [ht]

/-- A write fails exactly when the getter of that type fails, with the same exception. -/
theorem setD_outcome (t : Table D) (n : Str) (i : Nat) (x : D) :
    match getD t n i with
    | .ok _ => (setD t n i x).1 = .ok ()
    | .throw e => setD t n i x = (.throw e, t)
    | .ub => False := by
  rw [getD_eq]
  rcases setD_cases t n i x with ⟨l, w, hl, hty, hw, hr, he⟩ | ⟨l, hl, hty, hr, he⟩ |
    ⟨l, hl, hty, he⟩ | ⟨hl, he⟩
  · obtain ⟨y, hy⟩ := Option.isSome_iff_exists.1 hr
    simp [hl, hty, hy, ofOpt, he]
  · simp [hl, hty, hr, ofOpt, he]
  · simp [hl, hty, he]
  · simp [hl, he]

theorem setI_outcome (t : Table D) (n : Str) (i : Nat) (x : Int) :
    match getI t n i with
    | .ok _ => (setI t n i x).1 = .ok ()
    | .throw e => setI t n i x = (.throw e, t)
    | .ub => False := by
  rw [getI_eq]
  rcases setI_cases t n i x with ⟨l, w, hl, hty, hw, hr, he⟩ | ⟨l, hl, hty, hr, he⟩ |
    ⟨l, hl, hty, he⟩ | ⟨hl, he⟩
  · obtain ⟨y, hy⟩ := Option.isSome_iff_exists.1 hr
    simp [hl, hty, hy, ofOpt, he]
  · simp [hl, hty, hr, ofOpt, he]
  · simp [hl, hty, he]
  · simp [hl, he]

theorem setS_outcome (t : Table D) (n : Str) (i : Nat) (x : Str) :
    match getS t n i with
    | .ok _ => (setS t n i x).1 = .ok ()
    | .throw e => setS t n i x = (.throw e, t)
    | .ub => False := by
  rw [getS_eq]
  rcases setS_cases t n i x with ⟨l, w, hl, hty, hw, hr, he⟩ | ⟨l, hl, hty, hr, he⟩ |
    ⟨l, hl, hty, he⟩ | ⟨hl, he⟩
  · obtain ⟨y, hy⟩ := Option.isSome_iff_exists.1 hr
    simp [hl, hty, hy, ofOpt, he]
  · simp [hl, hty, hr, ofOpt, he]
  · simp [hl, hty, he]
  · simp [hl, he]

theorem headerSetD_unchanged (t : Table D) (n : Str) (x : D)
    (hf : (headerSetD t n x).1 ≠ .ok ()) : (headerSetD t n x).2 = t := by
  unfold headerSetD getHLocation at *
  cases hl : t.hlookup n with
  | none => rfl
  | some l =>
    simp only [hl] at hf ⊢
    by_cases h1 : l.ty = 'd'
    · by_cases h2 : l.pos < t.hdataD.length
      · simp [h1, h2] at hf
      · simp [h1, h2]
    · simp [h1]

theorem headerSetI_unchanged (t : Table D) (n : Str) (x : Int)
    (hf : (headerSetI t n x).1 ≠ .ok ()) : (headerSetI t n x).2 = t := by
  unfold headerSetI getHLocation at *
  cases hl : t.hlookup n with
  | none => rfl
  | some l =>
    simp only [hl] at hf ⊢
    by_cases h1 : l.ty = 'i'
    · by_cases h2 : l.pos < t.hdataI.length
      · simp [h1, h2] at hf
      · simp [h1, h2]
    · simp [h1]

theorem headerSetS_unchanged (t : Table D) (n : Str) (x : Str)
    (hf : (headerSetS t n x).1 ≠ .ok ()) : (headerSetS t n x).2 = t := by
  unfold headerSetS getHLocation at *
  cases hl : t.hlookup n with
  | none => rfl
  | some l =>
    simp only [hl] at hf ⊢
    by_cases h1 : l.ty = 's'
    · by_cases h2 : l.pos < t.hdataS.length
      · simp [h1, h2] at hf
      · simp [h1, h2]
    · simp [h1]

/-! ## `AddRow(values...)` with values of the right types -/

theorem setVal_ok (t : Table D) (h : Inv t) (n : Str) (i : Nat) (v : Val D)
    (hty : getColumnType t n = .ok (Spec.tyOf v)) (hi : i < t.length) :
    (setVal t n i v).1 = .ok () := by
  unfold getColumnType at hty
  cases hl : t.lookup n with
  | none => rw [hl] at hty; cases hty
  | some l =>
    rw [hl] at hty
    have hty : l.ty = Spec.tyOf v := by injection hty
    cases v with
    | d x =>
      have g := getD_outcome t h n i
      have g2 := setD_outcome t n i x
      simp only [hl, show l.ty = 'd' from hty, ne_eq, not_true_eq_false, if_false, hi, if_true] at g
      obtain ⟨y, hy⟩ := g
      rw [hy] at g2; exact g2
    | i x =>
      have g := getI_outcome t h n i
      have g2 := setI_outcome t n i x
      simp only [hl, show l.ty = 'i' from hty, ne_eq, not_true_eq_false, if_false, hi, if_true] at g
      obtain ⟨y, hy⟩ := g
      rw [hy] at g2; exact g2
    | s x =>
      have g := getS_outcome t h n i
      have g2 := setS_outcome t n i x
      simp only [hl, show l.ty = 's' from hty, ne_eq, not_true_eq_false, if_false, hi, if_true] at g
      obtain ⟨y, hy⟩ := g
      rw [hy] at g2; exact g2

theorem addRowN_other (t : Table D) (col row : Nat) (vs : List (Val D)) (h : Inv t) (m : Str)
    (j : Nat) (hm : ∀ k, col ≤ k → t.colNames[k]? ≠ some m) :
    SameAt t (addRowN t col row vs).2 m j := by
  induction vs generalizing t col with
  | nil => exact SameAt.refl t m j
  | cons v vs ih =>
    unfold addRowN
    cases hc : t.colNames[col]? with
    | none => exact SameAt.refl t m j
    | some name =>
      simp only
      obtain ⟨h1, _, h3, _, _⟩ := setVal_spec t name row v h
      have hne : (m, j) ≠ (name, row) := by
        intro he
        have : m = name := (Prod.mk.inj he).1
        exact hm col (Nat.le_refl _) (by rw [hc, this])
      generalize hr : setVal t name row v = r at *
      obtain ⟨o, t'⟩ := r
      cases o with
      | ok u =>
        refine (h3 m j hne).trans (ih t' (col + 1) (h.of_sameShape h1) ?_)
        intro k hk
        rw [h1.names]; exact hm k (by omega)
      | throw e => exact h3 m j hne
      | ub => exact h3 m j hne

theorem SameAt.getsVal {t t' : Table D} {m : Str} {j : Nat} {v : Val D} (h : SameAt t t' m j)
    (hv : getsVal t m j v) : getsVal t' m j v := by
  cases v with
  | d x => exact h.1.trans hv
  | i x => exact h.2.1.trans hv
  | s x => exact h.2.2.trans hv

theorem addRowN_stored (t : Table D) (col row : Nat) (vs : List (Val D)) (h : Inv t)
    (hrow : row < t.length) (hlen : col + vs.length ≤ t.colNames.length)
    (hty : ∀ k (hk : k < vs.length) (hc : col + k < t.colNames.length),
      getColumnType t t.colNames[col + k] = .ok (Spec.tyOf vs[k])) :
    (addRowN t col row vs).1 = .ok () ∧
    ∀ k (hk : k < vs.length) (hc : col + k < t.colNames.length),
      getsVal (addRowN t col row vs).2 t.colNames[col + k] row vs[k] := by
  induction vs generalizing t col with
  | nil => exact ⟨rfl, fun k hk => absurd hk (by simp)⟩
  | cons v vs ih =>
    have hc : col < t.colNames.length := by simp at hlen; omega
    have hname : t.colNames[col]? = some t.colNames[col] := List.getElem?_eq_getElem hc
    have hty0 : getColumnType t t.colNames[col] = .ok (Spec.tyOf v) := by
      have := hty 0 (by simp) (by omega); simpa using this
    have hok := setVal_ok t h t.colNames[col] row v hty0 hrow
    obtain ⟨h1, _, h3, h40, _⟩ := setVal_spec t t.colNames[col] row v h
    have h4 := h40 hok
    clear h40
    unfold addRowN
    simp only [hname]
    generalize hr : setVal t t.colNames[col] row v = r at *
    obtain ⟨o, t'⟩ := r
    simp only at hok h1 h3 h4
    subst hok
    simp only
    have ht' := h.of_sameShape h1
    have hnames := h1.names
    obtain ⟨g1, g2⟩ := ih t' (col + 1) ht' (by rw [h1.length]; exact hrow)
      (by rw [hnames]; simp at hlen; omega) (by
        intro k hk hc'
        have := hty (k + 1) (by simp; omega) (by rw [hnames] at hc'; omega)
        simp only [hnames, List.getElem_cons_succ] at this ⊢
        simp only [show col + 1 + k = col + (k + 1) by omega]
        simpa [getColumnType, h1.lookup] using this)
    refine ⟨g1, ?_⟩
    intro k hk hck
    cases k with
    | zero =>
      refine SameAt.getsVal (addRowN_other t' (col + 1) row vs ht' _ _ ?_) h4
      intro k hk' he
      rw [hnames] at he
      have hkl : k < t.colNames.length := by
        by_cases hh : k < t.colNames.length
        · exact hh
        · rw [List.getElem?_eq_none (by omega)] at he; cases he
      rw [List.getElem?_eq_getElem hkl] at he
      have := (List.getElem_inj h.nodup).1 (Option.some.inj he)
      omega
    | succ k =>
      have := g2 k (by simp at hk; omega) (by rw [hnames]; omega)
      simp only [hnames] at this
      simp only [List.getElem_cons_succ, show col + (k + 1) = col + 1 + k by omega]
      exact this

theorem addRowVals_stored_aux [Inhabited D] (t : Table D) (h : Inv t) (vs : List (Val D))
    (hlen : vs.length ≤ t.colNames.length)
    (hty : ∀ k (hk : k < vs.length) (hc : k < t.colNames.length),
      getColumnType t t.colNames[k] = .ok (Spec.tyOf vs[k])) :
    (addRowVals t vs).1 = .ok () ∧
    ∀ k (hk : k < vs.length) (hc : k < t.colNames.length),
      Spec.Holds (addRowVals t vs).2 t.colNames[k] t.length vs[k] := by
  obtain ⟨g1, g2⟩ := addRowN_stored (addRow t).2 0 (addRow t).1 vs (inv_addRow t h)
    (by show t.length < t.length + 1; omega) (by simpa [addRow] using hlen) (by
      intro k hk hc
      have := hty k hk (by simpa [addRow] using hc)
      simp only [Nat.zero_add]
      exact this)
  refine ⟨g1, ?_⟩
  intro k hk hc
  have := g2 k hk (by simpa [addRow] using hc)
  simp only [Nat.zero_add] at this
  cases hv : vs[k] with
  | d x => rw [hv] at this; exact this
  | i x => rw [hv] at this; exact this
  | s x => rw [hv] at this; exact this

end Verif.DataTable
