import Mathlib.Data.List.Nodup
import Mathlib.Tactic.NormNum
import Verif.Hierarchy.Spec

/-! # Properties of frames that are wrapped and copied -/

namespace Verif.Hierarchy

open Verif Spec

/-! ## C360, C361: wrapping a frame -/

theorem replaceFirst_map (old new : Nat) : ∀ l : List Nat, l.Nodup → replaceFirst old new l = l.map fun a => if a = old then new else a := by
  intro l
  induction l with
  | nil => intro _; rfl
  | cons a l ih =>
    intro h
    rw [List.nodup_cons] at h
    rw [replaceFirst, List.map_cons]
    split
    · rename_i e
      subst e
      congr 1
      symm
      calc l.map (fun b => if b = a then new else b) = l.map id := List.map_congr_left fun b hb => if_neg (fun e : b = a => h.1 (e ▸ hb))
        _ = l := List.map_id l
    · rw [ih h.2]

/-- **C360.** Wrapping a frame of a sequence puts the wrapper into its place and leaves all other frames alone. -/
theorem wrap_frames (h : Heap) (s f m : Nat) (subs : List Nat) (fs ff : Fr) (hs : h s = some fs) (hk : fs.kind = .seq subs) (hf : h f = some ff) (hsup : ff.sup = some s) (hin : f ∈ subs)
    (hnd : subs.Nodup) (hm : h m = none) (hfs : f ≠ s) : ∃ h', wrap h m f = .ok h' ∧
    h' s = some ⟨.seq (subs.map fun a => if a = f then m else a), fs.sup, fs.pos, fs.geo⟩ ∧ h' m = some ⟨.modifier f, some s, 0, ff.geo⟩ ∧ h' f = some ⟨ff.kind, some m, ff.pos, ff.geo⟩ ∧
    ∀ i, i ≠ s → i ≠ m → i ≠ f → h' i = h i := by
  have hms : m ≠ s := fun e => by rw [e, hs] at hm; exact absurd hm (by simp)
  have hmf : m ≠ f := fun e => by rw [e, hf] at hm; exact absurd hm (by simp)
  unfold wrap
  rw [hf]
  simp only [hsup]
  unfold replaceSub
  have e1 : ((h.set m ⟨.modifier f, none, 0, ff.geo⟩).set f ⟨ff.kind, some m, ff.pos, ff.geo⟩) s = some fs := by
    simp [Heap.set, hfs.symm, hms.symm, hs]
  rw [e1]
  simp only [hk, if_pos hin]
  have e2 : (((h.set m ⟨.modifier f, none, 0, ff.geo⟩).set f ⟨ff.kind, some m, ff.pos, ff.geo⟩).set s ⟨.seq (replaceFirst f m subs), fs.sup, fs.pos, fs.geo⟩) m =
      some ⟨.modifier f, none, 0, ff.geo⟩ := by
    simp [Heap.set, hms, hmf]
  rw [e2]
  refine ⟨_, rfl, ?_, ?_, ?_, ?_⟩
  · simp [Heap.set, hms.symm, replaceFirst_map f m subs hnd]
  · simp [Heap.set]
  · simp [Heap.set, hmf.symm, hfs]
  · intro i h1 h2 h3
    simp [Heap.set, h1, h2, h3]

/-- **C360.** Taking the wrapper away again gives the frames as they were. -/
theorem wrap_remove (h : Heap) (s f m : Nat) (subs : List Nat) (fs ff : Fr) (hs : h s = some fs) (hk : fs.kind = .seq subs) (hf : h f = some ff) (hsup : ff.sup = some s) (hin : f ∈ subs)
    (hnd : subs.Nodup) (hm : h m = none) (hfs : f ≠ s) (hms : m ∉ subs) : ∃ h' h'', wrap h m f = .ok h' ∧ remove h' m = .ok h'' ∧ ∀ i, i ≠ m → h'' i = h i := by
  obtain ⟨h', e, e1, e2, e3, e4⟩ := wrap_frames h s f m subs fs ff hs hk hf hsup hin hnd hm hfs
  have hmf : m ≠ f := fun e => by rw [e, hf] at hm; exact absurd hm (by simp)
  have hne : m ≠ s := fun e => by rw [e, hs] at hm; exact absurd hm (by simp)
  have hin' : m ∈ subs.map fun a => if a = f then m else a := List.mem_map.mpr ⟨f, hin, if_pos rfl⟩
  have hback : replaceFirst m f (subs.map fun a => if a = f then m else a) = subs := by
    have hnd' : (subs.map fun a => if a = f then m else a).Nodup := by
      refine List.Nodup.map_on (fun a ha b hb hab => ?_) hnd
      by_cases h1 : a = f <;> by_cases h2 : b = f
      · rw [h1, h2]
      · rw [if_pos h1, if_neg h2] at hab
        exact absurd (hab ▸ hb) hms
      · rw [if_neg h1, if_pos h2] at hab
        exact absurd (hab ▸ ha) hms
      · rwa [if_neg h1, if_neg h2] at hab
    rw [replaceFirst_map m f _ hnd', List.map_map]
    calc subs.map _ = subs.map id := List.map_congr_left fun a ha => by
          simp only [Function.comp_apply, id]
          by_cases h1 : a = f
          · rw [if_pos h1, if_pos rfl, h1]
          · rw [if_neg h1, if_neg (fun e : a = m => hms (e ▸ ha))]
      _ = subs := List.map_id _
  refine ⟨h', ?_⟩
  unfold remove
  rw [e2]
  simp only
  unfold replaceSub
  rw [e1]
  simp only [if_pos hin', hback]
  have e5 : (h'.set s ⟨.seq subs, fs.sup, fs.pos, fs.geo⟩) f = some ⟨ff.kind, some m, ff.pos, ff.geo⟩ := by
    simp [Heap.set, hfs, e3]
  rw [e5]
  refine ⟨_, e, rfl, ?_⟩
  intro i hi
  by_cases h1 : i = f
  · subst h1
    simp only [Heap.set, if_true, hf]
    congr 1
    rw [← hsup]
  · by_cases h2 : i = s
    · subst h2
      simp only [Heap.set, if_neg h1, if_true, hs]
      congr 1
      rw [← hk]
    · simp only [Heap.set, if_neg h1, if_neg h2]
      exact e4 i h2 hi h1

/-- **C361.** After consolidation the wrapped frame is at the position it had in the sequence. -/
theorem wrap_position (h : Heap) (s f m : Nat) (subs : List Nat) (fs ff : Fr) (hs : h s = some fs) (hk : fs.kind = .seq subs) (hf : h f = some ff) (hsup : ff.sup = some s) (hin : f ∈ subs)
    (hnd : subs.Nodup) (hm : h m = none) (hfs : f ≠ s) (p : ℚ) (n : Nat) : ∃ h' h'', wrap h m f = .ok h' ∧ settle h' m p = .ok h'' ∧ position h'' (some s) (n + 2) f = .ok p := by
  obtain ⟨h', e, e1, e2, e3, e4⟩ := wrap_frames h s f m subs fs ff hs hk hf hsup hin hnd hm hfs
  have hmf : m ≠ f := fun e => by rw [e, hf] at hm; exact absurd hm (by simp)
  have hne : m ≠ s := fun e => by rw [e, hs] at hm; exact absurd hm (by simp)
  refine ⟨h', ?_⟩
  unfold settle
  rw [e2]
  simp only
  have e5 : (h'.set m ⟨.modifier f, some s, p, ff.geo⟩) f = some ⟨ff.kind, some m, ff.pos, ff.geo⟩ := by
    simp [Heap.set, hmf.symm, e3]
  rw [e5]
  refine ⟨_, e, rfl, ?_⟩
  rw [position]
  have e6 : ((h'.set m ⟨.modifier f, some s, p, ff.geo⟩).set f ⟨ff.kind, some m, 0, ff.geo⟩) f = some ⟨ff.kind, some m, 0, ff.geo⟩ := by simp [Heap.set]
  have e7 : ((h'.set m ⟨.modifier f, some s, p, ff.geo⟩).set f ⟨ff.kind, some m, 0, ff.geo⟩) m = some ⟨.modifier f, some s, p, ff.geo⟩ := by simp [Heap.set, hmf]
  rw [e6]
  simp only
  rw [if_neg (by simp [hne.symm]), position, e7]
  simp [Outcome.bind]

/-- A sequence 0 of the components 1 and 2, of length 4 and 6. -/
def sample : Heap := fun i =>
  if i = 0 then some ⟨.seq [1, 2], none, 0, some 10⟩ else if i = 1 then some ⟨.comp, some 0, 2, some 4⟩ else if i = 2 then some ⟨.comp, some 0, 7, some 6⟩ else none

/-- The sample meets the hypotheses. -/
example : ∃ h' h'', wrap sample 3 2 = .ok h' ∧ remove h' 3 = .ok h'' ∧ ∀ i, i ≠ 3 → h'' i = sample i :=
  wrap_remove sample 0 2 3 [1, 2] _ _ rfl rfl rfl rfl (by simp) (by simp) rfl (by decide) (by simp)

/-- **C361.** The position in a frame above is the sum of the local positions of the frames between. -/
theorem position_sum (h : Heap) (sframe : Option Nat) : ∀ (l : List (Nat × ℚ)) (a : Nat × ℚ) (n : Nat), Spec.Chain h sframe (a :: l) → l.length ≤ n →
    position h sframe (n + 1) a.1 = .ok ((a :: l).map (·.2)).sum
  | [], a, n, hc, _ => by
    obtain ⟨f, h1, h2, h3⟩ := hc
    rw [position, h1]
    simp [h3, h2]
  | b :: l, a, n, hc, hn => by
    obtain ⟨⟨f, h1, h2, h3, h4⟩, hc'⟩ := hc
    obtain ⟨k, rfl⟩ : ∃ k, n = k + 1 := ⟨n - 1, by simp at hn; omega⟩
    have ih := position_sum h sframe l b k hc' (by simp at hn; omega)
    rw [position, h1]
    simp only [h3, h4, if_false, ih, h2]
    simp [Outcome.bind]

/-- A component at 4 in a sequence at 3. -/
example : Spec.Chain (fun i => if i = 0 then some ⟨.seq [1], none, 0, none⟩ else if i = 1 then some ⟨.seq [2], some 0, 3, none⟩
    else some ⟨.comp, some 1, 4, none⟩) (some 0) [(2, 4), (1, 3)] := ⟨⟨_, rfl, rfl, rfl, by decide⟩, ⟨_, rfl, rfl, rfl⟩⟩

/-- **C361, violated.** A wrapper that is taken away after consolidation leaves its frame at position zero. -/
theorem removed_violated : position sample (some 0) 5 2 = .ok 7 ∧
    (((wrap sample 3 2).bind fun h => settle h 3 7).bind fun h => (remove h 3).bind fun h => position h (some 0) 5 2) = .ok 0 := by decide +kernel

/-- **C361, violated.** A second wrapper about the same frame has no place in the hierarchy: the frame is lost for the sequence, and removing the wrapper (or deleting it)
uses a null pointer. -/
theorem twice_violated : (((wrap sample 3 2).bind fun h => wrap h 4 2).bind fun h => position h (some 0) 5 2) = .ub ∧
    (((wrap sample 3 2).bind fun h => wrap h 4 2).bind fun h => (remove h 4).bind fun h => .ok (h 0)) = .ub ∧
    (((wrap sample 3 2).bind fun h => wrap h 4 2).bind fun h => .ok (h 0)) = .ok (some ⟨.seq [1, 3], none, 0, some 10⟩) := by decide +kernel

/-- **C361, violated.** A wrapper about the frame at the top cannot be removed or deleted. -/
theorem top_violated (h : Heap) (f m : Nat) (ff : Fr) (hf : h f = some ff) (hsup : ff.sup = none) (hmf : m ≠ f) : ∃ h', wrap h m f = .ok h' ∧ remove h' m = .ub := by
  unfold wrap
  rw [hf]
  simp only [hsup]
  refine ⟨_, rfl, ?_⟩
  unfold remove
  simp [Heap.set, hmf]

example : ∃ h', wrap sample 3 0 = .ok h' ∧ remove h' 3 = .ub := top_violated sample 0 3 _ rfl rfl (by decide)

/-! ## C362, C363: copies -/

variable {G : Type}

mutual
theorem copy_unmoved : ∀ t : Tree G, unmoved t = true → ∃ t', copy t = .ok t' ∧ leaves t' = leaves t
  | .comp c l _ _, _ => ⟨_, rfl, rfl⟩
  | .patch l _ t, _ => ⟨_, rfl, rfl⟩
  | .seq l _ _ s, h => by
    obtain ⟨s', e, e1⟩ := copyList_unmoved s (by rw [unmoved] at h; exact h)
    refine ⟨_, by rw [copy, e]; rfl, ?_⟩
    rw [leaves, leaves, e1]
  | .modifier _ _ _ s, h => by
    obtain ⟨s', e, e1⟩ := copy_unmoved s (by rw [unmoved] at h; exact h)
    exact ⟨s', by rw [copy, e], by rw [leaves, e1]⟩
  | .mover _ _ _ _, h => by rw [unmoved] at h; exact absurd h (by simp)
theorem copyList_unmoved : ∀ l : List (Tree G), unmovedList l = true → ∃ l', copyList l = .ok l' ∧ leavesList l' = leavesList l
  | [], _ => ⟨[], rfl, rfl⟩
  | t :: l, h => by
    rw [unmovedList, Bool.and_eq_true] at h
    obtain ⟨t', e, e1⟩ := copy_unmoved t h.1
    obtain ⟨l', e2, e3⟩ := copyList_unmoved l h.2
    refine ⟨t'.setPos t.pos :: l', by rw [copyList, e, Outcome.bind, e2]; rfl, ?_⟩
    rw [leavesList, leavesList, e3, ← e1]
    congr 1
    cases t' <;> rfl
end

/-- **C362.** The copy of a hierarchy without movers has the same components and patches in the same order, with their own local transformations. -/
theorem copy_leaves (t : Tree G) (h : unmoved t = true) : ∃ t', copy t = .ok t' ∧ leaves t' = leaves t := copy_unmoved t h

theorem locals_setPos (q : ℚ) (t : Tree G) : locals (t.setPos q) = locals t := by cases t <;> simp [Tree.setPos, locals]

mutual
theorem copy_plain : ∀ t : Tree G, plain t = true → ∃ t', copy t = .ok t' ∧ locals t' = locals t
  | .comp c l _ _, _ => ⟨_, rfl, rfl⟩
  | .patch l _ t, _ => ⟨_, rfl, rfl⟩
  | .seq l _ _ s, h => by
    obtain ⟨s', e, e1⟩ := copyList_plain s (by rw [plain] at h; exact h)
    refine ⟨_, by rw [copy, e]; rfl, ?_⟩
    rw [locals, locals, e1.1]
  | .modifier _ _ _ _, h => by rw [plain] at h; exact absurd h (by simp)
  | .mover _ _ _ _, h => by rw [plain] at h; exact absurd h (by simp)
theorem copyList_plain : ∀ l : List (Tree G), plainList l = true → ∃ l', copyList l = .ok l' ∧ localsList l' = localsList l ∧ l'.map Tree.pos = l.map Tree.pos
  | [], _ => ⟨[], rfl, rfl, rfl⟩
  | t :: l, h => by
    rw [plainList, Bool.and_eq_true] at h
    obtain ⟨t', e, e1⟩ := copy_plain t h.1
    obtain ⟨l', e2, e3, e4⟩ := copyList_plain l h.2
    refine ⟨t'.setPos t.pos :: l', by rw [copyList, e, Outcome.bind, e2]; rfl, ?_, ?_⟩
    · rw [localsList, localsList, e3, ← e1, locals_setPos]
    · rw [List.map_cons, List.map_cons, e4]
      congr 1
      cases t' <;> rfl
end

/-- **C362.** The copy of a sequence without movers and wrappers keeps all local transformations, and the places of its frames. -/
theorem copy_locals (l : Option G) (p : ℚ) (g : Geo) (subs : List (Tree G)) (h : plainList subs = true) : ∃ p' g' subs', copy (.seq l p g subs) = .ok (.seq l p' g' subs') ∧
    localsList subs' = localsList subs ∧ subs'.map Tree.pos = subs.map Tree.pos := by
  obtain ⟨l', e, e1, e2⟩ := copyList_plain subs h
  exact ⟨_, _, l', by rw [copy, e]; rfl, e1, e2⟩

/-- Cases: a sequence in a sequence, with transformations that are numbers here. -/
example : (copy (.seq (some 1) 0 (.own 10) [.comp 5 (some 2) (-3) (.own 4), .seq none 2 (.own 6) [.patch none (-3) (some 7), .comp 6 none 0 (.own 6)]] : Tree Nat)) =
    .ok (.seq (some 1) 0 .unset [.comp 5 (some 2) (-3) .null, .seq none 2 .unset [.patch none (-3) (some 7), .comp 6 none 0 .null]]) := rfl

/-- **C363, violated.** The copy of the frame of a component has length zero, whatever the length of the component. -/
theorem copy_length_violated (c : Nat) (l : Option G) (p len : ℚ) : ∃ t', copy (.comp c l p (.own len)) = .ok t' ∧ (Tree.comp c l p (.own len)).length = .ok len ∧ t'.length = .ok 0 :=
  ⟨_, rfl, rfl, rfl⟩

/-- **C363, violated.** The copy of a sequence has no length: the members of its geometry are never set. -/
theorem copy_sequence_violated (l : Option G) (p : ℚ) (g : Geo) (subs : List (Tree G)) (t' : Tree G) (h : copy (.seq l p g subs) = .ok t') : t'.length = .ub := by
  rw [copy] at h
  cases hs : copyList subs with
  | ok s' =>
    rw [hs] at h
    injection h with h
    rw [← h]
    rfl
  | throw e => exact e.elim
  | ub =>
    rw [hs] at h
    exact absurd h (by simp [Outcome.bind])

/-- **C363, violated.** The transformation of a wrapper is not in the copy. -/
theorem copy_modifier_violated (a b : G) (p q : ℚ) (g : Geo) (c : Nat) : copy (.modifier (some a) p g (.comp c none q g)) = copy (.modifier (some b) p g (.comp c none q g)) := rfl

/-- **C363, violated.** A sequence with a mover in it cannot be copied. -/
theorem copy_mover_violated (l l' : Option G) (p p' : ℚ) (g g' : Geo) (before after subs : List (Tree G)) (h : unmovedList before = true) :
    copy (.seq l p g (before ++ .mover l' p' g' subs :: after)) = .ub := by
  have : ∀ before : List (Tree G), unmovedList before = true → copyList (before ++ .mover l' p' g' subs :: after) = .ub := by
    intro before
    induction before with
    | nil => intro _; rfl
    | cons t b ih =>
      intro h
      rw [unmovedList, Bool.and_eq_true] at h
      obtain ⟨t', e, -⟩ := copy_unmoved t h.1
      rw [List.cons_append, copyList, e, Outcome.bind, ih h.2]
      rfl
  rw [copy, this before h]
  rfl

end Verif.Hierarchy
