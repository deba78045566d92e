import Verif.XTFF.Reading

/-! Frames made by markers (C285). -/

namespace Verif.XTFF

open Verif Verif.Multipole Verif.Multipole.Spec Verif.XTFF.Spec Real
open Verif.MAD (bind_ok_iff obind_ok Frame)

/-- Two interfaces that differ in the calls so far and the frames that are open. -/
abbrev at_ (i : Interface) (acts : List Act) (n : Nat) (fr : List (List Char)) : Interface := { i with mc := .live acts n, frames := fr }

/-- The element appends the same calls wherever it stands. -/
def Local (F : Interface → Outcome Exn (Interface × Globals)) (i i1 : Interface) (g1 : Globals) : Prop :=
  ∃ as, i1 = { i with mc := .live as 0 } ∧ (∀ a ∈ as, NoFrame a) ∧
    ∀ acts n fr, F (at_ i acts n fr) = .ok (at_ i (acts ++ as) n fr, g1)

theorem local_append {x : Comp} {r : Option Aper} {d : Data} {i i1 : Interface} {g g1 : Globals}
    (h : append x r d { i with mc := .live [] 0 } g = .ok (i1, g1)) : Local (fun j => append x r d j g) i i1 g1 := by
  rw [append_ok x r d g rfl] at h
  injection h with h
  injection h with h1 h2
  subst h1 h2
  exact ⟨[.comp x (aperOf i d r) g.z], rfl, by simp [NoFrame], fun acts n fr => append_ok x r d g rfl⟩

theorem local_bind {o : Outcome Exn Comp} {d : Data} {i i1 : Interface} {g g1 : Globals}
    (h : (o.bind fun x => append x none d { i with mc := .live [] 0 } g) = .ok (i1, g1)) :
    Local (fun j => o.bind fun x => append x none d j g) i i1 g1 := by
  obtain ⟨x, rfl, h⟩ := bind_append h
  exact local_append h

theorem local_mark {d : Data} {i i1 : Interface} {g g1 : Globals} (h : mark d { i with mc := .live [] 0 } g = .ok (i1, g1))
    (hM : i.girders = true → ∀ k n, d.label ≠ k :: '_' :: n) : Local (fun j => mark d j g) i i1 g1 := by
  have hp : ∀ j : Interface, j.girders = i.girders → mark d j g = if i.girders = true ∧ d.label = [] then .ub else
      if d.label = ['V', 'P', 'I', 'V'] then
        (call (.xrot d.label) j.mc).bind fun p => append (.marker d.label) none d { j with mc := p } g
      else append (.marker d.label) none d j g := by
    intro j hj
    unfold mark
    dsimp only
    rw [hj]
    cases hg : i.girders with
    | false => simp
    | true =>
      cases hl : d.label with
      | nil => simp
      | cons k rest =>
        have : rest.head? ≠ some '_' := by
          intro hr
          cases rest with
          | nil => simp at hr
          | cons a rest => simp at hr; subst hr; exact hM hg _ _ hl
        simp [this]
  rw [hp { i with mc := .live [] 0 } rfl] at h
  split at h
  · cases h
  rename_i hE
  split at h
  · rename_i hv
    simp only [call, obind_ok] at h
    rw [append_ok _ _ _ _ rfl] at h
    injection h with h
    injection h with h1 h2
    subst h1 h2
    refine ⟨[.xrot d.label, .comp (.marker d.label) (aperOf i d none) g.z], by simp [aperOf], by simp [NoFrame], fun acts n fr => ?_⟩
    dsimp only
    rw [hp (at_ i acts n fr) rfl, if_neg hE, if_pos hv]
    simp only [call, obind_ok]
    rw [append_ok _ _ _ _ rfl]
    simp [aperOf]
  · rename_i hv
    obtain ⟨as, h1, h2, h3⟩ := local_append h
    refine ⟨as, h1, h2, fun acts n fr => ?_⟩
    dsimp only
    rw [hp (at_ i acts n fr) rfl, if_neg hE, if_neg hv]
    exact h3 acts n fr

/-- An element that marks no frame appends the same calls wherever it stands, and leaves the frames. -/
theorem local_construct {d : Data} {i i1 : Interface} {g g1 : Globals} (h : construct d { i with mc := .live [] 0 } g = .ok (i1, g1))
    (hM : keyword i d.kw = "MARK" → i.girders = true → ∀ k n, d.label ≠ k :: '_' :: n) : Local (fun j => construct d j g) i i1 g1 := by
  suffices hs : ∀ K, keyword i d.kw = K → Local (fun j => construct d j g) i i1 g1 from hs _ rfl
  intro K hK
  have hj : ∀ acts n fr, keyword (at_ i acts n fr) d.kw = K := fun _ _ _ => hK
  have h0 : keyword { i with mc := .live [] 0 } d.kw = K := hK
  rw [hK] at hM
  unfold Local
  simp only [construct, hj]
  simp only [construct, h0] at h
  split at h
  case h_1 => exact local_append h
  case h_2 =>
    split at h
    · rename_i hs; simp only [hs, if_true]; exact local_append h
    · rename_i hs; simp only [hs, Bool.false_eq_true, if_false]; exact local_bind h
  case h_3 => exact local_bind h
  case h_4 => exact local_bind h
  case h_5 =>
    split at h
    · rename_i hs; simp only [hs, if_true]; exact local_append h
    · rename_i hs; simp only [hs, Bool.false_eq_true, if_false]; exact local_bind h
  case h_6 => exact local_bind h
  case h_7 => exact local_bind h
  case h_8 =>
    split at h
    · rename_i hs; simp only [hs, if_true]; exact local_bind h
    · rename_i hs
      simp only [hs, if_false]
      rw [bind_ok_iff] at h
      obtain ⟨p, hp, h⟩ := h
      simp only [hp, obind_ok]
      exact local_append h
  case h_9 => exact local_append h
  case h_10 => exact local_append h
  case h_11 => exact local_append h
  case h_12 => exact local_append h
  case h_13 => exact local_append h
  case h_14 => exact local_mark h (hM rfl)
  case h_15 => exact local_append h
  case h_16 =>
    simp only [call, obind_ok] at h
    injection h with h
    injection h with h1 h2
    subst h1 h2
    exact ⟨[.srot (d.real 7) d.label], rfl, by simp [NoFrame], fun acts n fr => rfl⟩
  case h_17 => exact local_append h

theorem construct_any {d : Data} {i i' : Interface} {g g' : Globals} (h : construct d i g = .ok (i', g')) {acts : List Act} {n : Nat}
    (hm : i.mc = .live acts n) (hM : keyword i d.kw = "MARK" → i.girders = true → ∀ k n, d.label ≠ k :: '_' :: n) :
    ∃ as, i' = { i with mc := .live (acts ++ as) n } ∧ ∀ a ∈ as, NoFrame a := by
  have hi : i = at_ i acts n i.frames := by cases i; simp_all
  have key : ∃ r, construct d { i with mc := .live [] 0 } g = .ok r := by
    suffices hs : ∀ K, keyword i d.kw = K → ∃ r, construct d { i with mc := .live [] 0 } g = .ok r from hs _ rfl
    intro K hK
    have h0 : keyword { i with mc := .live [] 0 } d.kw = K := hK
    rw [hK] at hM
    simp only [construct, h0]
    simp only [construct, hK] at h
    have hb : ∀ {o : Outcome Exn Comp}, (o.bind fun x => append x none d i g) = .ok (i', g') →
        ∃ r, (o.bind fun x => append x none d { i with mc := .live [] 0 } g) = .ok r := by
      intro o ho
      obtain ⟨x, rfl, -⟩ := bind_append ho
      rw [obind_ok]
      exact ⟨_, append_ok _ _ _ _ rfl⟩
    split at h
    case h_1 => exact ⟨_, append_ok _ _ _ _ rfl⟩
    case h_2 =>
      split at h
      · rename_i hs; simp only [hs, if_true]; exact ⟨_, append_ok _ _ _ _ rfl⟩
      · rename_i hs; simp only [hs, Bool.false_eq_true, if_false]; exact hb h
    case h_3 => exact hb h
    case h_4 => exact hb h
    case h_5 =>
      split at h
      · rename_i hs; simp only [hs, if_true]; exact ⟨_, append_ok _ _ _ _ rfl⟩
      · rename_i hs; simp only [hs, Bool.false_eq_true, if_false]; exact hb h
    case h_6 => exact hb h
    case h_7 => exact hb h
    case h_8 =>
      split at h
      · rename_i hs; simp only [hs, if_true]; exact hb h
      · rename_i hs
        simp only [hs, if_false]
        rw [bind_ok_iff] at h
        obtain ⟨p, hp, h⟩ := h
        simp only [hp, obind_ok]
        exact ⟨_, append_ok _ _ _ _ rfl⟩
    case h_9 => exact ⟨_, append_ok _ _ _ _ rfl⟩
    case h_10 => exact ⟨_, append_ok _ _ _ _ rfl⟩
    case h_11 => exact ⟨_, append_ok _ _ _ _ rfl⟩
    case h_12 => exact ⟨_, append_ok _ _ _ _ rfl⟩
    case h_13 => exact ⟨_, append_ok _ _ _ _ rfl⟩
    case h_14 =>
      have hplain : ∃ r, (if d.label = ['V', 'P', 'I', 'V'] then
          (call (.xrot d.label) (.live [] 0)).bind fun p => append (.marker d.label) none d { i with mc := p } g
        else append (.marker d.label) none d { i with mc := .live [] 0 } g) = .ok r := by
        split
        · simp only [call, obind_ok]; exact ⟨_, append_ok _ _ _ _ rfl⟩
        · exact ⟨_, append_ok _ _ _ _ rfl⟩
      unfold mark at h ⊢
      dsimp only at h ⊢
      cases hg : i.girders with
      | false => rw [hg] at hplain; simpa using hplain
      | true =>
        rw [hg] at h
        cases hl : d.label with
        | nil => rw [hl] at h; cases h
        | cons k rest =>
          have : rest.head? ≠ some '_' := by
            intro hr
            cases rest with
            | nil => simp at hr
            | cons a rest => simp at hr; subst hr; exact hM rfl hg _ _ hl
          rw [hl, hg] at hplain
          simpa [this] using hplain
    case h_15 => exact ⟨_, append_ok _ _ _ _ rfl⟩
    case h_16 => exact ⟨_, rfl⟩
    case h_17 => exact ⟨_, append_ok _ _ _ _ rfl⟩
  obtain ⟨⟨i1, g1⟩, hr⟩ := key
  obtain ⟨as, -, h2, h3⟩ := local_construct hr hM
  have := h3 acts n i.frames
  dsimp only at this
  rw [← hi, h] at this
  injection this with this
  injection this with h4 h5
  exact ⟨as, h4, h2⟩

/-- Without girders no frame is made, whatever the markers. -/
theorem no_girders {ds : List Data} {i i' : Interface} {g g' : Globals} (h : constructs ds i g = .ok (i', g')) (hg : i.girders = false)
    {acts : List Act} {n : Nat} (hm : i.mc = .live acts n) : ∃ as, i' = { i with mc := .live (acts ++ as) n } ∧ ∀ a ∈ as, NoFrame a := by
  induction ds generalizing i g acts with
  | nil =>
    injection h with h
    injection h with h1 h2
    refine ⟨[], ?_, by simp⟩
    cases i; simp_all
  | cons d ds ih =>
    simp only [constructs, bind_ok_iff] at h
    obtain ⟨⟨i1, g1⟩, h1, h2⟩ := h
    obtain ⟨as, rfl, ha⟩ := construct_any h1 hm (by rw [hg]; simp)
    obtain ⟨bs, hb, hc⟩ := ih h2 hg rfl
    refine ⟨as ++ bs, by rw [hb]; simp, ?_⟩
    intro a h
    rcases List.mem_append.1 h with h | h
    · exact ha a h
    · exact hc a h

theorem frameOf_some {l : List Char} {k : Frame} {n : List Char} (h : frameOf l = some (k, n)) :
    ∃ c, l = c :: '_' :: n ∧ MAD.frameOf c = some k := by
  unfold frameOf at h
  split at h
  all_goals first | cases h; done | (injection h with h; injection h with h1 h2; subst h1 h2; exact ⟨_, rfl, rfl⟩)

theorem keyword_mark {i : Interface} {kw : String} : keyword i kw = "MARK" ↔ kw = "MARK" ∧ "MARK" ∉ i.driftTypes := by
  unfold keyword
  constructor
  · intro h
    dsimp only at h
    by_cases h1 : kw = "HMON" ∨ kw = "VMON"
    · rw [if_pos h1] at h
      split at h <;> simp at h
    · rw [if_neg h1] at h
      split at h
      · simp at h
      · rename_i h2; subst h; exact ⟨rfl, h2⟩
  · rintro ⟨rfl, h⟩
    simp [h]

theorem mark_begins {d : Data} {i : Interface} (hg : i.girders = true) (ht : "MARK" ∉ i.driftTypes) (hk : d.kw = "MARK") {k : Frame} {m : List Char}
    (hl : frameOf d.label = some (k, m)) (g : Globals) (acts : List Act) (n : Nat) (fr : List (List Char)) (hf : fr.head? ≠ some d.label) :
    construct d (at_ i acts n fr) g = .ok (at_ i (acts ++ [.newFrame k m]) (n + 1) (d.label :: fr), g) := by
  have hkw : keyword (at_ i acts n fr) d.kw = "MARK" := keyword_mark.2 ⟨hk, ht⟩
  obtain ⟨c, hc, hc'⟩ := frameOf_some hl
  simp only [construct, hkw, mark, hg, if_true]
  rw [hc] at hf ⊢
  simp only [List.head?_cons, if_true, if_neg hf, newFrame, hc', call, obind_ok, List.drop_one, List.tail_cons]
  rw [at_, hg]

theorem mark_ends {d : Data} {i : Interface} (hg : i.girders = true) (ht : "MARK" ∉ i.driftTypes) (hk : d.kw = "MARK") {k : Frame} {m : List Char}
    (hl : frameOf d.label = some (k, m)) (g : Globals) (acts : List Act) (n : Nat) (fr : List (List Char)) :
    construct d (at_ i acts (n + 1) (d.label :: fr)) g = .ok (at_ i (acts ++ [.endFrame]) n fr, g) := by
  have hkw : keyword (at_ i acts (n + 1) (d.label :: fr)) d.kw = "MARK" := keyword_mark.2 ⟨hk, ht⟩
  obtain ⟨c, hc, hc'⟩ := frameOf_some hl
  simp only [construct, hkw, mark, hg, if_true]
  rw [hc]
  simp only [List.head?_cons, if_true, call, obind_ok, List.tail_cons]
  rw [at_, hg]

theorem named_label {d : Data} {p : Option (List Char)} {rest : Forest} (h : Named p (.elem d rest)) :
    (d.kw = "MARK" → ∀ k n, d.label ≠ k :: '_' :: n) ∧ Named p rest := by
  rcases h with ⟨h1, h2⟩ | ⟨⟨-, -, h1⟩, h2⟩
  · exact ⟨fun h => absurd h h1, h2⟩
  · exact ⟨fun _ => h1, h2⟩

theorem builds_lemma {i i' : Interface} {g g' : Globals} {f : Forest} {A : List Act} (h : Builds i g f A i' g') (hg : i.girders = true)
    (ht : "MARK" ∉ i.driftTypes) : ∀ p, Named p f → (∃ m, i' = { i with mc := m }) ∧ ∀ acts n fr, fr.head? = p →
      constructs f.elems (at_ i acts n fr) g = .ok (at_ i (acts ++ A) n fr, g') := by
  induction h with
  | nil i g => exact fun p _ => ⟨⟨i.mc, rfl⟩, fun acts n fr _ => by simp [constructs, Forest.elems]⟩
  | @elem i g i1 g1 i2 g2 d rest as A h1 h2 h3 ih =>
    intro p hp
    obtain ⟨hl, hr⟩ := named_label hp
    obtain ⟨as', e1, -, e3⟩ := local_construct h1 fun h _ => hl (keyword_mark.1 h).1
    subst e1
    have : as' = as := by injection h2
    subst this
    obtain ⟨⟨m, hm⟩, hc⟩ := ih hg ht p hr
    refine ⟨⟨m, by rw [hm]⟩, fun acts n fr hf => ?_⟩
    have e := e3 acts n fr
    dsimp only at e
    rw [Forest.elems, constructs, e, obind_ok]
    have := hc (acts ++ as') n fr hf
    rw [List.append_assoc] at this
    exact this
  | @frame i g i1 g1 i2 g2 d1 d2 inside rest k n A B hk hb1 hb2 ih1 ih2 =>
    intro p hp
    obtain ⟨k1, k2, hl, -, hne, hin, hrest⟩ := hp
    obtain ⟨⟨m, hm⟩, hc⟩ := ih1 hg ht _ hin
    subst hm
    obtain ⟨⟨m', hm'⟩, hc'⟩ := ih2 hg ht p hrest
    refine ⟨⟨m', by rw [hm']⟩, fun acts q fr hf => ?_⟩
    rw [Forest.elems, List.cons_append, constructs, mark_begins hg ht k1 hk g acts q fr (by rw [hf]; exact hne), obind_ok,
      constructs_append, hc _ _ _ rfl, obind_ok, constructs]
    have e := mark_ends hg ht k2 (hl ▸ hk) g1 (acts ++ [.newFrame k n] ++ A) q fr
    rw [← hl] at e
    rw [e, obind_ok]
    have := hc' (acts ++ [.newFrame k n] ++ A ++ [.endFrame]) q fr hf
    simp only [List.append_assoc, List.cons_append, List.nil_append] at this ⊢
    exact this

/-- With girders, a line in which the markers of frames come in pairs makes frames nested as the markers are, with the elements
inside. -/
theorem nested_frames {i i' : Interface} {g g' : Globals} {f : Forest} {A : List Act} (h : Builds i g f A i' g') (hg : i.girders = true)
    (ht : "MARK" ∉ i.driftTypes) (hn : Named i.frames.head? f) {acts : List Act} {n : Nat} (hm : i.mc = .live acts n) :
    constructs f.elems i g = .ok ({ i with mc := .live (acts ++ A) n }, g') := by
  have hi : i = at_ i acts n i.frames := by cases i; simp_all
  have := (builds_lemma h hg ht _ hn).2 acts n i.frames rfl
  rw [← hi] at this
  exact this

/-- A frame whose second marker is missing makes the whole file fail in an undefined way. -/
theorem unclosed_violated {i i' : Interface} {g g' : Globals} {f : Forest} {A : List Act} (h : Builds i g f A i' g') (hg : i.girders = true)
    (ht : "MARK" ∉ i.driftTypes) {d : Data} (hk : d.kw = "MARK") (hd : (frameOf d.label).isSome) (hf : i.frames.head? ≠ some d.label)
    (hn : Named (some d.label) f) {acts : List Act} {n : Nat} (hm : i.mc = .live acts n) :
    ∃ j, constructs (d :: f.elems) i g = .ok (j, g') ∧ getModel j = .ub := by
  have hi : i = at_ i acts n i.frames := by cases i; simp_all
  obtain ⟨⟨k, m⟩, hkm⟩ := Option.isSome_iff_exists.1 hd
  rw [constructs, hi, mark_begins hg ht hk hkm g acts n i.frames hf, obind_ok, (builds_lemma h hg ht _ hn).2 _ _ _ rfl]
  exact ⟨_, rfl, rfl⟩

/-- Frames that overlap are not closed: the markers A B A B open four frames. -/
theorem overlap_violated {i : Interface} (hg : i.girders = true) (ht : "MARK" ∉ i.driftTypes) {a b : Data} (ha : a.kw = "MARK") (hb : b.kw = "MARK")
    {k k' : Frame} {m m' : List Char} (hka : frameOf a.label = some (k, m)) (hkb : frameOf b.label = some (k', m')) (hab : a.label ≠ b.label)
    (hf : i.frames = []) {acts : List Act} {n : Nat} (hm : i.mc = .live acts n) (g : Globals) :
    ∃ j, constructs [a, b, a, b] i g = .ok (j, g) ∧
      j.mc = .live (acts ++ [.newFrame k m, .newFrame k' m', .newFrame k m, .newFrame k' m']) (n + 4) ∧ getModel j = .ub := by
  have hi : i = at_ i acts n [] := by cases i; simp_all
  rw [hi]
  simp only [constructs]
  rw [mark_begins hg ht ha hka g _ _ _ (by simp), obind_ok, mark_begins hg ht hb hkb g _ _ _ (by simpa using hab), obind_ok,
    mark_begins hg ht ha hka g _ _ _ (by simpa using hab.symm), obind_ok, mark_begins hg ht hb hkb g _ _ _ (by simpa using hab), obind_ok]
  exact ⟨_, rfl, by simp, rfl⟩

/-- A marker whose label happens to have an underscore at its second place, such as `Q_1`, makes the file fail; one without
label is undefined. -/
theorem marker_name_violated {i : Interface} (hg : i.girders = true) (ht : "MARK" ∉ i.driftTypes) {d : Data} (hk : d.kw = "MARK") (g : Globals) :
    (∀ c m, d.label = c :: '_' :: m → frameOf d.label = none → i.frames.head? ≠ some d.label → construct d i g = .throw .frame) ∧
    (d.label = [] → construct d i g = .ub) := by
  have hkw : keyword i d.kw = "MARK" := keyword_mark.2 ⟨hk, ht⟩
  refine ⟨fun c m hl hn hf => ?_, fun hl => ?_⟩
  · have hc : MAD.frameOf c = none := by
      cases hq : MAD.frameOf c with
      | none => rfl
      | some q =>
        rw [hl] at hn
        unfold MAD.frameOf at hq
        split at hq
        all_goals first | cases hq; done | simp [frameOf] at hn
    simp only [construct, hkw, mark, hg, if_true]
    rw [hl] at hf ⊢
    simp only [List.head?_cons, if_true, if_neg hf, newFrame, hc]
    rfl
  · simp only [construct, hkw, mark, hg, if_true, hl]

/-- A girder with a drift inside another, and a drift behind. -/
example : ∃ (i i' : Interface) (g g' : Globals) (f : Forest) (A : List Act), i.girders = true ∧ "MARK" ∉ i.driftTypes ∧ i.mc = .live [] 0 ∧
    Named i.frames.head? f ∧ Builds i g f A i' g' ∧ A = [.newFrame .girder ['A'], .newFrame .mover ['B'], .comp (.drift [] 1) none 0, .endFrame,
      .endFrame, .comp (.drift [] 1) none 1] := by
  let a : Data := ⟨"MARK", ['G', '_', 'A'], [], fun _ => 0⟩
  let b : Data := ⟨"MARK", ['M', '_', 'B'], [], fun _ => 0⟩
  let d : Data := ⟨"DRIF", [], [], fun n => if n = 0 then 1 else 0⟩
  let i : Interface := { mk 0 with girders := true, apertures := false, mc := .live [] 0 }
  have hd : ∀ (z : ℝ), construct d i ⟨1, 0, z, 0⟩ = .ok ({ i with mc := .live [.comp (.drift [] 1) none z] 0 }, ⟨1, 0, z + 1, 0⟩) := by
    intro z
    have hkw : keyword i d.kw = "DRIF" := by simp [keyword, i, d, mk]
    simp only [construct, hkw]
    rw [append_ok _ _ _ _ rfl]
    simp [aperOf, i, d, Comp.len]
  refine ⟨i, _, ⟨1, 0, 0, 0⟩, _, .frame a a (.frame b b (.elem d .nil) .nil) (.elem d .nil), _, rfl, by simp [i, mk], rfl, ?_,
    .frame (k := .girder) (n := ['A']) rfl (.frame (k := .mover) (n := ['B']) rfl (.elem (hd 0) rfl (.nil _ _)) (.nil _ _))
      (.elem (hd (0 + 1)) rfl (.nil _ _)), ?_⟩
  · simp [Named, a, b, d, i, mk, frameOf]
  · simp

example : frameOf ['G', '_', 'A'] = some (.girder, ['A']) ∧ frameOf ['Q', '_', '1'] = none := ⟨rfl, rfl⟩

end Verif.XTFF
