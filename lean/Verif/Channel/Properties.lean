import Verif.Channel.Spec

/-!
# Properties of element repositories and channel queries (C22, C23, C54)
-/

namespace Verif.Channel
open Verif Verif.StringPattern Verif.Channel.Spec

/-! ## C22 -/

theorem findIdx_append (l r : Str) (h : '.' ∉ l) :
    (l ++ '.' :: r).findIdx? (fun x => decide (x = '.')) = some l.length := by
  induction l with
  | nil => simp [List.findIdx?_cons]
  | cons c l ih =>
    have hc : ¬ c = '.' := by intro e; exact h (by simp [e])
    have hl : '.' ∉ l := fun hm => h (List.mem_cons_of_mem _ hm)
    simp [List.findIdx?_cons, hc, ih hl]

theorem findIdx_none (l : Str) (h : '.' ∉ l) : l.findIdx? (fun x => decide (x = '.')) = none := by
  rw [List.findIdx?_eq_none_iff]
  intro x hx
  simp only [decide_eq_false_iff_not]
  rintro rfl
  exact h hx

/-- C22: a path `TYPE.ID.KEY` is taken apart at the first two dots; the key may contain more. -/
theorem parse_path (t i k : Str) (ht : '.' ∉ t) (hi : '.' ∉ i) :
    CHPath.parse (t ++ '.' :: i ++ '.' :: k) = .ok ⟨t, i, k⟩ := by
  have e1 : findDot (t ++ '.' :: i ++ '.' :: k) 0 = t.length := by
    have := findIdx_append t (i ++ '.' :: k) ht
    simp only [findDot, List.drop_zero, List.append_assoc, List.cons_append]
    rw [this]
    simp
  have e2 : findDot (t ++ '.' :: i ++ '.' :: k) (t.length + 1) = t.length + 1 + i.length := by
    have := findIdx_append i k hi
    simp only [findDot, List.append_assoc, List.cons_append]
    rw [show (t ++ '.' :: (i ++ '.' :: k)).drop (t.length + 1) = i ++ '.' :: k by
      simp [List.drop_append], this]
    simp
  simp only [CHPath.parse, e1]
  rw [show ((t.length : Int) + 1).toNat = t.length + 1 by omega, e2,
    show ((t.length : Int) + 1 + i.length + 1).toNat = t.length + 1 + i.length + 1 by omega]
  have s1 : substr (t ++ '.' :: i ++ '.' :: k) 0 t.length = .ok t := by
    simp [substr]
  have s2 : substr (t ++ '.' :: i ++ '.' :: k) (t.length + 1)
      ((t.length : Int) + 1 + i.length - t.length - 1) = .ok i := by
    have h : ((t.length : Int) + 1 + i.length - t.length - 1) = i.length := by omega
    rw [h]
    have h2 : ¬ (t ++ '.' :: i ++ '.' :: k).length < t.length + 1 := by simp
    have h3 : ¬ ((i.length : Int) < 0) := by omega
    simp only [substr, h2, h3, if_false]
    congr 1
    rw [show (t ++ '.' :: i ++ '.' :: k) = (t ++ ['.']) ++ (i ++ '.' :: k) by simp,
      show t.length + 1 = (t ++ ['.']).length by simp, List.drop_left]
    simp
  have s3 : substr (t ++ '.' :: i ++ '.' :: k) (t.length + 1 + i.length + 1) (-1) = .ok k := by
    have h2 : ¬ (t ++ '.' :: i ++ '.' :: k).length < t.length + 1 + i.length + 1 := by
      simp; omega
    have h3 : ((-1 : Int) < 0) := by omega
    simp only [substr, h2, h3, if_false, if_true]
    congr 1
    have : t ++ '.' :: i ++ '.' :: k = (t ++ '.' :: i ++ ['.']) ++ k := by simp
    rw [this, List.drop_append_of_le_length (by simp; omega)]
    rw [List.drop_of_length_le (by simp; omega)]
    rfl
  rw [s1, s2, s3]
  rfl

/-- C22, paths with too few dots: without any dot everything is the whole string, with one dot the
key is the whole string; no exception is thrown. -/
theorem parse_short (t i : Str) (ht : '.' ∉ t) (hi : '.' ∉ i) :
    CHPath.parse t = .ok ⟨t, t, t⟩ ∧
    CHPath.parse (t ++ '.' :: i) = .ok ⟨t, i, t ++ '.' :: i⟩ := by
  constructor
  · have e1 : findDot t 0 = -1 := by simp only [findDot, List.drop_zero, findIdx_none t ht]
    simp only [CHPath.parse, e1]
    have e2 : findDot t (-1 + 1 : Int).toNat = -1 := e1
    rw [e2]
    simp [substr]
  · have e1 : findDot (t ++ '.' :: i) 0 = t.length := by
      simp only [findDot, List.drop_zero, findIdx_append t i ht]
      simp
    have e2 : findDot (t ++ '.' :: i) (t.length + 1) = -1 := by
      simp only [findDot]
      rw [show (t ++ '.' :: i).drop (t.length + 1) = i by simp [List.drop_append],
        findIdx_none i hi]
    simp only [CHPath.parse, e1]
    rw [show ((t.length : Int) + 1).toNat = t.length + 1 by omega, e2]
    have s1 : substr (t ++ '.' :: i) 0 t.length = .ok t := by simp [substr]
    have s2 : substr (t ++ '.' :: i) (t.length + 1) (-1 - t.length - 1) = .ok i := by
      have h2 : ¬ (t ++ '.' :: i).length < t.length + 1 := by simp
      have h3 : (-1 - (t.length : Int) - 1) < 0 := by omega
      simp only [substr, h2, h3, if_false, if_true]
      congr 1
      simp [List.drop_append]
    have s3 : substr (t ++ '.' :: i) (-1 + 1 : Int).toNat (-1) = .ok (t ++ '.' :: i) := by
      simp [substr]
    rw [s1, s2, s3]
    rfl

/-- C22: every string is parsed. -/
theorem parse_total (s : Str) : ∃ p, CHPath.parse s = .ok p := by
  by_cases h : '.' ∈ s
  · obtain ⟨t, r, rfl, ht⟩ := List.eq_append_cons_of_mem h
    by_cases h2 : '.' ∈ r
    · obtain ⟨i, k, rfl, hi⟩ := List.eq_append_cons_of_mem h2
      exact ⟨_, by simpa using parse_path t i k ht hi⟩
    · exact ⟨_, (parse_short t r ht h2).2⟩
  · exact ⟨_, (parse_short s [] h (by simp)).1⟩

example : CHPath.parse "Quad*.QF.B1".toList = .ok ⟨"Quad*".toList, "QF".toList, "B1".toList⟩ := by
  decide +kernel

/-! ## C54 -/

/-- The repository after a history of additions. -/
def history (es : List Elem) : List Elem := es.foldl (fun r e => (add r e).1) []

theorem add_spec (r : List Elem) (e : Elem) (hr : (r.map (·.ptr)).Nodup) :
    ((add r e).1.map (·.ptr)).Nodup ∧
    (∀ p, p ∈ (add r e).1.map (·.ptr) ↔ p ∈ r.map (·.ptr) ∨ p = e.ptr) ∧
    ((add r e).2 = true ↔ e.ptr ∉ r.map (·.ptr)) ∧ (∀ x ∈ r, x ∈ (add r e).1) := by
  unfold add
  by_cases h : r.any (·.ptr == e.ptr) = true
  · rw [if_pos h]
    have hm : e.ptr ∈ r.map (·.ptr) := by
      rw [List.any_eq_true] at h
      obtain ⟨x, hx, he⟩ := h
      exact List.mem_map.2 ⟨x, hx, by simpa using he⟩
    refine ⟨hr, ?_, ?_, fun x hx => hx⟩
    · intro p
      constructor
      · exact Or.inl
      · rintro (h | rfl)
        · exact h
        · exact hm
    · simp only [Bool.false_eq_true, false_iff]
      exact fun hn => hn hm
  · rw [if_neg h]
    have hm : e.ptr ∉ r.map (·.ptr) := by
      intro hc
      obtain ⟨x, hx, he⟩ := List.mem_map.1 hc
      exact h (List.any_eq_true.2 ⟨x, hx, by simpa using he⟩)
    refine ⟨?_, ?_, ?_, fun x hx => List.mem_append.2 (Or.inl hx)⟩
    · rw [List.map_append, List.nodup_append]
      refine ⟨hr, by simp, ?_⟩
      intro a ha b hb hab
      simp at hb
      subst hb
      exact hm (hab ▸ ha)
    · intro p
      simp
    · simp only [true_iff]
      exact hm

/-- C54: after any history of additions the repository holds every added element exactly once, and
`Add` tells whether the element was new. -/
theorem repository_once (es : List Elem) :
    ((history es).map (·.ptr)).Nodup ∧
    (∀ p, p ∈ (history es).map (·.ptr) ↔ p ∈ es.map (·.ptr)) ∧
    (∀ e, (add (history es) e).2 = true ↔ e.ptr ∉ es.map (·.ptr)) := by
  have key : ∀ (es r : List Elem), (r.map (·.ptr)).Nodup →
      ((es.foldl (fun r e => (add r e).1) r).map (·.ptr)).Nodup ∧
      (∀ p, p ∈ (es.foldl (fun r e => (add r e).1) r).map (·.ptr) ↔
        p ∈ r.map (·.ptr) ∨ p ∈ es.map (·.ptr)) := by
    intro es
    induction es with
    | nil => intro r hr; exact ⟨hr, by simp⟩
    | cons e es ih =>
      intro r hr
      obtain ⟨a1, a2, _, _⟩ := add_spec r e hr
      obtain ⟨b1, b2⟩ := ih _ a1
      refine ⟨b1, ?_⟩
      intro p
      rw [List.foldl_cons, b2, a2, List.map_cons, List.mem_cons, or_assoc]
  obtain ⟨h1, h2⟩ := key es [] (by simp)
  have h2' : ∀ p, p ∈ (history es).map (·.ptr) ↔ p ∈ es.map (·.ptr) := by
    intro p
    have := h2 p
    simpa [history] using this
  refine ⟨h1, h2', ?_⟩
  intro e
  rw [(add_spec (history es) e h1).2.2.1, h2']

/-- C54 fails: `Find` and `Count` read the member `neg`, which no constructor sets, for every
non-empty repository. -/
theorem find_violated (e : Elem) (repo out : List Elem) (pat : Str) :
    find (e :: repo) pat out = .ub ∧ count (e :: repo) pat = .ub := by
  constructor
  · simp [find, findWith, matchIDNeg, removeCopyIf, matchID]
  · simp [count, matchIDNeg, countIf, matchID]

theorem removeCopyIf_eq (pat : Str) (l out : List Elem) :
    removeCopyIf (some true) pat l out =
      .ok (out ++ l.filter (fun e => matchStr pat e.qualified)) := by
  induction l generalizing out with
  | nil => simp [removeCopyIf]
  | cons e es ih =>
    cases hm : matchStr pat e.qualified <;> simp [removeCopyIf, matchID, hm, ih]

/-- C54 (partial): if the member had the value that is passed to the constructor, `Find` would
append exactly the matching elements and `Count` count them.  `Find` returns the size of the whole
result vector. -/
theorem find_partial (repo out : List Elem) (pat : Str) :
    findWith (some true) repo pat out =
      .ok (out ++ repo.filter (fun e => matchStr pat e.qualified),
        out.length + (repo.filter (fun e => matchStr pat e.qualified)).length) ∧
    countIf (some false) pat repo = .ok (repo.filter (fun e => matchStr pat e.qualified)).length := by
  constructor
  · simp [findWith, removeCopyIf_eq]
  · induction repo with
    | nil => rfl
    | cons e es ih =>
      simp only [countIf, matchID, ih, Outcome.bind_ok, Outcome.pure_eq]
      cases hm : matchStr pat e.qualified <;> simp [hm]

/-! ## C23 -/

theorem strLt_irrefl (a : Str) : strLt a a = false := by
  induction a with
  | nil => rfl
  | cons c a ih => simp [strLt, ih]

theorem toNat_inj {a b : Char} (h : a.toNat = b.toNat) : a = b := by
  exact Char.toNat_inj.mp h

/-- What lies between two strings with a common prefix has that prefix. -/
theorem prefix_between (p x y v : Str) (h1 : strLt (p ++ x) v = true) (h2 : strLt v (p ++ y) = true) :
    ∃ w, v = p ++ w := by
  induction p generalizing v with
  | nil => exact ⟨v, rfl⟩
  | cons c p ih =>
    cases v with
    | nil => simp [strLt] at h1
    | cons d v =>
      simp only [List.cons_append, strLt] at h1 h2
      by_cases hcd : c = d
      · subst hcd
        simp only [if_true] at h1 h2
        obtain ⟨w, rfl⟩ := ih v h1 h2
        exact ⟨w, rfl⟩
      · rw [if_neg hcd] at h1
        rw [if_neg (Ne.symm hcd)] at h2
        simp only [decide_eq_true_eq] at h1 h2
        omega

theorem split_at_dot (t t' k w : Str) (ht : '.' ∉ t) (ht' : '.' ∉ t')
    (h : t' ++ '.' :: k = t ++ '.' :: w) : t' = t := by
  induction t generalizing t' with
  | nil =>
    cases t' with
    | nil => rfl
    | cons c t' =>
      simp only [List.cons_append, List.nil_append, List.cons.injEq] at h
      exact absurd (by simp [h.1]) ht'
  | cons c t ih =>
    cases t' with
    | nil =>
      simp only [List.cons_append, List.nil_append, List.cons.injEq] at h
      exact absurd (by simp [← h.1]) ht
    | cons d t' =>
      simp only [List.cons_append, List.cons.injEq] at h
      rw [h.1, ih t' (fun hm => ht (List.mem_cons_of_mem _ hm))
        (fun hm => ht' (List.mem_cons_of_mem _ hm)) h.2]

/-- Sorted by id, and no type contains a dot. -/
def Good (tbl : List Ctor) : Prop :=
  tbl.Pairwise (fun c d => strLt c.id d.id = true) ∧ ∀ c ∈ tbl, '.' ∉ c.type

theorem strLt_trans {a b c : Str} (h1 : strLt a b = true) (h2 : strLt b c = true) :
    strLt a c = true := by
  induction a generalizing b c with
  | nil =>
    cases c with
    | nil => cases b <;> simp [strLt] at h2
    | cons => rfl
  | cons x a ih =>
    cases b with
    | nil => simp [strLt] at h1
    | cons y b =>
      cases c with
      | nil => simp [strLt] at h2
      | cons z c =>
        simp only [strLt] at h1 h2 ⊢
        by_cases hxy : x = y
        · subst hxy
          by_cases hyz : x = z
          · subst hyz
            simp only [if_true] at h1 h2 ⊢
            exact ih h1 h2
          · simp only [hyz, if_false] at h2 ⊢
            exact h2
        · by_cases hyz : y = z
          · subst hyz
            simp only [hxy, if_false] at h1 ⊢
            exact h1
          · simp only [hxy, hyz, if_false, decide_eq_true_eq] at h1 h2
            have : x ≠ z := by rintro rfl; omega
            simp only [this, if_false, decide_eq_true_eq]
            omega

theorem register_mem {t t' : List Ctor} {c : Ctor} (h : register t c = .ok t') :
    ∀ d, d ∈ t' ↔ d ∈ t ∨ d = c := by
  induction t generalizing t' with
  | nil =>
    simp only [register, Outcome.ok.injEq] at h
    subst h
    simp
  | cons e t ih =>
    simp only [register] at h
    split at h
    · simp only [Outcome.ok.injEq] at h
      subst h
      intro d
      simp only [List.mem_cons]
      constructor
      · rintro (h | h | h)
        · exact Or.inr h
        · exact Or.inl (Or.inl h)
        · exact Or.inl (Or.inr h)
      · rintro ((h | h) | h)
        · exact Or.inr (Or.inl h)
        · exact Or.inr (Or.inr h)
        · exact Or.inl h
    · split at h
      · cases hr : register t c with
        | ok r =>
          rw [hr] at h
          simp only [Outcome.bind_ok, Outcome.pure_eq, Outcome.ok.injEq] at h
          subst h
          intro d
          rw [List.mem_cons, ih hr, List.mem_cons, or_assoc]
        | throw x => rw [hr] at h; simp at h
        | ub => rw [hr] at h; simp at h
      · cases h

theorem register_sorted {t t' : List Ctor} {c : Ctor}
    (hs : t.Pairwise (fun c d => strLt c.id d.id = true)) (hr : register t c = .ok t') :
    t'.Pairwise (fun c d => strLt c.id d.id = true) := by
  induction t generalizing t' with
  | nil =>
    simp only [register, Outcome.ok.injEq] at hr
    subst hr
    simp
  | cons e t iht =>
    rw [List.pairwise_cons] at hs
    simp only [register] at hr
    split at hr
    · rename_i hlt
      simp only [Outcome.ok.injEq] at hr
      subst hr
      rw [List.pairwise_cons]
      refine ⟨?_, List.pairwise_cons.2 hs⟩
      intro d hd
      rcases List.mem_cons.1 hd with rfl | hd
      · exact hlt
      · exact strLt_trans hlt (hs.1 d hd)
    · split at hr
      · rename_i hlt
        cases hr' : register t c with
        | ok r =>
          rw [hr'] at hr
          simp only [Outcome.bind_ok, Outcome.pure_eq, Outcome.ok.injEq] at hr
          subst hr
          rw [List.pairwise_cons]
          refine ⟨?_, iht hs.2 hr'⟩
          intro d hd
          rcases (register_mem hr' d).1 hd with hd | rfl
          · exact hs.1 d hd
          · exact hlt
        | throw x => rw [hr'] at hr; simp at hr
        | ub => rw [hr'] at hr; simp at hr
      · cases hr

theorem table_good {t : List Ctor} (h : Table t) : Good t := by
  induction h with
  | empty => exact ⟨List.Pairwise.nil, by simp⟩
  | @reg t t' c _ hc hr ih =>
    refine ⟨register_sorted ih.1 hr, ?_⟩
    intro d hd
    rcases (register_mem hr d).1 hd with hd | rfl
    · exact ih.2 d hd
    · exact hc

/-- In a sorted table the constructors of a type are next to each other. -/
theorem findCtors_eq {tbl : List Ctor} (h : Good tbl) (type keypat : Str) :
    findCtors tbl type keypat =
      tbl.filter (fun c => c.type == type && matchStr keypat c.key) := by
  have key : (tbl.dropWhile (fun c => !(c.type == type))).takeWhile (fun c => c.type == type) =
      tbl.filter (fun c => c.type == type) := by
    obtain ⟨hs, hd⟩ := h
    induction tbl with
    | nil => rfl
    | cons c tbl ih =>
      rw [List.pairwise_cons] at hs
      have hd' : ∀ c ∈ tbl, '.' ∉ c.type := fun x hx => hd x (List.mem_cons_of_mem _ hx)
      by_cases hc : c.type = type
      · have : (c.type == type) = true := by simpa using hc
        simp only [List.dropWhile_cons, this, Bool.not_true, Bool.false_eq_true, if_false,
          List.takeWhile_cons, if_true, List.filter_cons, List.cons.injEq, true_and]
        -- the rest: what is of another type is followed by nothing of this type
        have rest : ∀ l : List Ctor, (∀ d ∈ l, strLt c.id d.id = true) →
            l.Pairwise (fun c d => strLt c.id d.id = true) → (∀ d ∈ l, '.' ∉ d.type) →
            l.takeWhile (fun c => c.type == type) = l.filter (fun c => c.type == type) := by
          intro l
          induction l with
          | nil => intros; rfl
          | cons d l ihl =>
            intro l1 l2 l3
            rw [List.pairwise_cons] at l2
            by_cases hdt : d.type = type
            · have hb : (d.type == type) = true := by simpa using hdt
              simp only [List.takeWhile_cons, List.filter_cons, hb, if_true]
              rw [ihl (fun x hx => l1 x (List.mem_cons_of_mem _ hx)) l2.2
                (fun x hx => l3 x (List.mem_cons_of_mem _ hx))]
            · have hb : (d.type == type) = false := by simpa using hdt
              simp only [List.takeWhile_cons, List.filter_cons, hb, Bool.false_eq_true, if_false]
              symm
              rw [List.filter_eq_nil_iff]
              intro e he hcon
              have het : e.type = type := by simpa using hcon
              obtain ⟨w, hw⟩ := prefix_between (type ++ ['.']) c.key e.key d.id
                (by
                  have := l1 d (by simp)
                  simpa [Ctor.id, hc] using this)
                (by
                  have := l2.1 e he
                  simpa [Ctor.id, het] using this)
              refine hdt (split_at_dot type d.type d.key w ?_ (l3 d (by simp)) ?_)
              · rw [← hc]; exact hd c (by simp)
              · simpa [Ctor.id] using hw
        exact rest tbl hs.1 hs.2 hd'
      · have : (c.type == type) = false := by simpa using hc
        simp only [List.dropWhile_cons, this, Bool.not_false, if_true, List.filter_cons,
          Bool.false_eq_true, if_false]
        exact ih hs.2 hd'
  simp only [findCtors]
  rw [key, List.filter_filter]
  congr 1
  funext c
  rw [Bool.and_comm]

theorem construct_eq (rw : Bool) (e : Elem) (cs : List Ctor) (h : rw = true → ∀ c ∈ cs, c.writable = true) :
    construct rw e cs = .ok (cs.map (fun c => (c, e))) := by
  induction cs with
  | nil => rfl
  | cons c cs ih =>
    simp only [construct]
    have hw : (rw && !c.writable) = false := by
      cases rw with
      | false => rfl
      | true => simp [h rfl c (by simp)]
    rw [hw, ih (fun hr x hx => h hr x (List.mem_cons_of_mem _ hx))]
    rfl

/-- C23: a beamline query returns exactly the channels of the matching components, one for each
matching key of their type, in beamline order. -/
theorem beamline_query {tbl : List Ctor} (ht : Table tbl) (rw : Bool) (beamline : List Elem)
    (t i k : Str) (hdt : '.' ∉ t) (hdi : '.' ∉ i) (hw : rw = true → ∀ c ∈ tbl, c.writable = true) :
    beamlineChannels rw tbl beamline (t ++ '.' :: i ++ '.' :: k) =
      .ok (wanted tbl (t ++ '.' :: i) k (beamline.filter (·.isComponent))) := by
  simp only [beamlineChannels, parse_path t i k hdt hdi, Outcome.bind_ok, CHPath.eid]
  induction beamline with
  | nil => rfl
  | cons e es ih =>
    simp only [beamlineLoop]
    rw [findCtors_eq (table_good ht), construct_eq rw e _ (fun hr c hc => hw hr c (List.mem_filter.1 hc).1),
      ih]
    cases hc : e.isComponent <;> cases hm : matchStr (t ++ '.' :: i) e.qualified <;>
      simp [wanted, offered, hc, hm]

/-- The loop of a repository query: it ends at the first element without a matching key. -/
theorem queryLoop_eq {tbl : List Ctor} (ht : Table tbl) (rw : Bool) (k : Str) (es : List Elem)
    (hw : rw = true → ∀ c ∈ tbl, c.writable = true) (hs : ∀ e ∈ es, e.type ≠ [])
    (etype : Str) (ctors : List Ctor)
    (hinv : etype = [] ∨ (ctors = tbl.filter (fun c => c.type == etype && matchStr k c.key) ∧
      ctors ≠ [])) :
    queryLoop rw tbl k etype ctors es =
      .ok ((es.takeWhile (fun e => !(offered tbl k e).isEmpty)).flatMap (offered tbl k)) := by
  induction es generalizing etype ctors with
  | nil => rfl
  | cons e es ih =>
    have hne := hs e (by simp)
    have hs' : ∀ e ∈ es, e.type ≠ [] := fun x hx => hs x (List.mem_cons_of_mem _ hx)
    simp only [queryLoop]
    by_cases hty : etype = e.type
    · rw [if_neg (by simpa using hty)]
      obtain ⟨hct, hnn⟩ : ctors = tbl.filter (fun c => c.type == e.type && matchStr k c.key) ∧
          ctors ≠ [] := by
        rcases hinv with h | h
        · exact absurd (hty ▸ h) hne
        · rw [← hty]; exact h
      have hoff : (offered tbl k e).isEmpty = false := by
        rw [Bool.eq_false_iff]
        intro hc
        rw [List.isEmpty_iff] at hc
        rw [offered, ← hct, List.map_eq_nil_iff] at hc
        exact hnn hc
      rw [construct_eq rw e ctors (fun hr c hc => hw hr c (by
        rw [hct] at hc; exact (List.mem_filter.1 hc).1)), ih hs' etype ctors hinv]
      simp only [Outcome.bind_ok, Outcome.pure_eq, List.takeWhile_cons, hoff, Bool.not_false,
        if_true, List.flatMap_cons]
      rw [hct]
      rfl
    · rw [if_pos hty, findCtors_eq (table_good ht)]
      cases hnn : (tbl.filter (fun c => c.type == e.type && matchStr k c.key)).isEmpty with
      | true =>
        have hoff : (offered tbl k e).isEmpty = true := by
          rw [List.isEmpty_iff] at hnn ⊢
          rw [offered, hnn]
          rfl
        simp [hoff]
      | false =>
        have hoff : (offered tbl k e).isEmpty = false := by
          rw [offered, List.isEmpty_map]
          exact hnn
        simp only [Bool.false_eq_true, if_false]
        rw [construct_eq rw e _ (fun hr c hc => hw hr c (List.mem_filter.1 hc).1),
          ih hs' e.type _ (Or.inr ⟨rfl, by
            intro hc
            rw [hc] at hnn
            cases hnn⟩)]
        simp only [Outcome.bind_ok, Outcome.pure_eq, List.takeWhile_cons, hoff, Bool.not_false,
          if_true, List.flatMap_cons]
        rfl

/-- C23, what the repository query does return (with `MatchID` as intended): the channels of the
matching elements, in order of type, up to the first one that has no matching key. -/
theorem repository_query_exact {tbl : List Ctor} (ht : Table tbl) (sort : List Elem → List Elem)
    (hsort : ∀ l, (sort l).Perm l) (rw : Bool) (repo : List Elem) (t i k : Str) (hdt : '.' ∉ t)
    (hdi : '.' ∉ i) (hw : rw = true → ∀ c ∈ tbl, c.writable = true)
    (hs : ∀ e ∈ repo, e.type ≠ []) :
    queryWith sort (some true) rw tbl repo (t ++ '.' :: i ++ '.' :: k) =
      .ok (((sort (repo.filter (fun e => matchStr (t ++ '.' :: i) e.qualified))).takeWhile
        (fun e => !(offered tbl k e).isEmpty)).flatMap (offered tbl k)) := by
  simp only [queryWith, parse_path t i k hdt hdi, Outcome.bind_ok, CHPath.eid,
    (find_partial repo [] _).1, List.nil_append]
  have hp := hsort (repo.filter (fun e => matchStr (t ++ '.' :: i) e.qualified))
  refine queryLoop_eq ht rw k _ hw ?_ [] [] (Or.inl rfl)
  intro e he
  exact hs e (List.mem_filter.1 (hp.mem_iff.1 he)).1

theorem takeWhile_all {α : Type} (p : α → Bool) (l : List α) (h : ∀ a ∈ l, p a = true) :
    l.takeWhile p = l := by
  induction l with
  | nil => rfl
  | cons a l ih =>
    rw [List.takeWhile_cons, if_pos (h a (by simp)), ih (fun x hx => h x (List.mem_cons_of_mem _ hx))]

/-- C23 (partial): a repository query returns exactly the channels of the matching elements, up to
order, provided every matching element has at least one matching key, type names are not empty, and
`MatchID` behaved as intended.  Missing: elements without a matching key, see
`repository_query_violated`. -/
theorem repository_query_partial {tbl : List Ctor} (ht : Table tbl) (sort : List Elem → List Elem)
    (hsort : ∀ l, (sort l).Perm l) (rw : Bool) (repo : List Elem) (t i k : Str) (hdt : '.' ∉ t)
    (hdi : '.' ∉ i) (hw : rw = true → ∀ c ∈ tbl, c.writable = true)
    (hs : ∀ e ∈ repo, e.type ≠ [] ∧
      (matchStr (t ++ '.' :: i) e.qualified = true → offered tbl k e ≠ [])) :
    ∃ r, queryWith sort (some true) rw tbl repo (t ++ '.' :: i ++ '.' :: k) = .ok r ∧
      r.Perm (wanted tbl (t ++ '.' :: i) k repo) := by
  have hp := hsort (repo.filter (fun e => matchStr (t ++ '.' :: i) e.qualified))
  refine ⟨_, repository_query_exact ht sort hsort rw repo t i k hdt hdi hw
    (fun e he => (hs e he).1), ?_⟩
  rw [takeWhile_all]
  · exact hp.flatMap_right _
  · intro e he
    have := List.mem_filter.1 (hp.mem_iff.1 he)
    simpa [List.isEmpty_iff] using (hs e this.1).2 this.2

/-! Concrete cases. -/

def ctorA : Ctor := ⟨"B".toList, "k".toList, true⟩
def ctorB : Ctor := ⟨"B".toList, "x".toList, false⟩
def ctorD : Ctor := ⟨"B.m".toList, "k".toList, true⟩
def elemA : Elem := ⟨1, "A".toList, "e1".toList, true⟩
def elemB : Elem := ⟨2, "B".toList, "e2".toList, true⟩

example : Table [ctorA, ctorB] :=
  .reg (.reg .empty (c := ctorA) (by decide +kernel) rfl) (c := ctorB) (by decide +kernel)
    (by decide +kernel)

example : beamlineChannels false [ctorA, ctorB] [elemA, elemB] "*.*.*".toList =
    .ok [(ctorA, elemB), (ctorB, elemB)] := by decide +kernel

/-- C23 does not hold: an element of a type without the key hides the channels of all types after
it. -/
theorem repository_query_violated :
    queryWith id (some true) false [ctorA, ctorB] [elemA, elemB] "*.*.k".toList = .ok [] ∧
    wanted [ctorA, ctorB] "*.*".toList "k".toList [elemA, elemB] = [(ctorA, elemB)] ∧
    strLt elemA.type elemB.type = true := by
  decide +kernel

/-- C23 does not hold when a type name contains a dot: the constructors of a type are then not next
to each other in the table. -/
theorem dotted_type_violated : ∃ tbl,
    (register [] ctorA >>= fun t => register t ctorB >>= fun t => register t ctorD) = .ok tbl ∧
    findCtors tbl "B".toList "*".toList = [ctorA] ∧
    tbl.filter (fun c => c.type == "B".toList) = [ctorA, ctorB] :=
  Outcome.exists_ok (by decide +kernel)

/-- C23: a read-write query that meets a read-only key fails its assertion. -/
theorem rw_readonly_violated :
    beamlineChannels true [ctorA, ctorB] [elemB] "B.*.*".toList = .ub := by decide +kernel

example : (history [elemA, elemB, elemA]).length = 2 ∧
    findWith (some true) (history [elemA, elemB, elemA]) "B.*".toList [] = .ok ([elemB], 1) := by
  decide +kernel

example : (∀ e ∈ [elemB], matchStr ("*".toList ++ '.' :: "*".toList) e.qualified = true →
    offered [ctorA, ctorB] "k".toList e ≠ []) ∧ ∀ e ∈ [elemA, elemB], e.type ≠ [] := by decide +kernel

#print axioms parse_path
#print axioms parse_short
#print axioms parse_total
#print axioms repository_once
#print axioms find_violated
#print axioms find_partial
#print axioms beamline_query
#print axioms repository_query_exact
#print axioms repository_query_partial
#print axioms repository_query_violated
#print axioms dotted_type_violated
#print axioms rw_readonly_violated

end Verif.Channel
