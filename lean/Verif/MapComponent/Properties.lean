import Mathlib.Algebra.Group.TypeTags.Basic
import Mathlib.Algebra.Group.Action.Defs
import Mathlib.Algebra.Order.Ring.Rat
import Mathlib.Tactic.Ring
import Verif.MapComponent.Spec

/-!
# Properties C371-C372: components that are given by a map
-/

namespace Verif.MapComponent

open Verif

variable {G P : Type} [Group G]

theorem invert_ok {m m' : PMap G} (h : m.invert = .ok m') : m'.val = m.val⁻¹ := by
  cases m with
  | user g => simp only [PMap.invert, Outcome.ok.injEq] at h; subst h; rfl
  | linear g => cases h

/-- What a rotation does to the store. -/
theorem rotate_ok {s s' : St G} {i : Nat} (h : rotate s i = .ok s') :
    ∃ a m m', s.comps[i]? = some a ∧ s.maps[a]? = some m ∧ m'.val = m.val⁻¹ ∧ s' = ⟨s.maps.set a m', s.comps⟩ := by
  unfold rotate at h
  cases h1 : s.comps[i]? with
  | none => rw [h1] at h; cases h
  | some a =>
    rw [h1] at h
    simp only at h
    cases h2 : s.maps[a]? with
    | none => rw [h2] at h; cases h
    | some m =>
      rw [h2] at h
      simp only at h
      cases h3 : m.invert with
      | ok m' =>
        rw [h3] at h
        simp only [Outcome.bind, Outcome.ok.injEq] at h
        exact ⟨a, m, m', rfl, h2, invert_ok h3, h.symm⟩
      | throw e => exact e.elim
      | ub => rw [h3] at h; cases h

theorem copy_ok {s s' : St G} {i : Nat} (h : copy s i = .ok s') : ∃ a, s.comps[i]? = some a ∧ s' = ⟨s.maps, s.comps ++ [a]⟩ := by
  unfold copy at h
  cases h1 : s.comps[i]? with
  | none => rw [h1] at h; cases h
  | some a =>
    rw [h1] at h
    simp only [Outcome.ok.injEq] at h
    exact ⟨a, rfl, h.symm⟩

/-- A property kept by every step is kept by a run. -/
theorem run_keeps (I : St G → Spec.Own G → Prop) (ok : Op G → Prop)
    (hstep : ∀ s o p s', I s o → ok p → step s p = .ok s' → I s' (Spec.step o p)) :
    ∀ (ops : List (Op G)) (s s' : St G) (o : Spec.Own G), I s o → (∀ p ∈ ops, ok p) → run s ops = .ok s' → I s' (ops.foldl Spec.step o)
  | [], s, s', o, hi, _, h => by
    simp only [run, Outcome.ok.injEq] at h
    subst h
    exact hi
  | p :: l, s, s', o, hi, hp, h => by
    rw [run] at h
    cases h1 : step s p with
    | ok s1 =>
      rw [h1] at h
      exact run_keeps I ok hstep l s1 s' _ (hstep s o p s1 hi (hp p (by simp)) h1) (fun q hq => hp q (by simp [hq])) h
    | throw e => exact e.elim
    | ub => rw [h1] at h; cases h

/-- Two components have the same map if they are copies of each other. -/
structure Fam (s : St G) (o : Spec.Own G) : Prop where
  len : s.comps.length = o.family.length
  addr : ∀ (i a : Nat), s.comps[i]? = some a → a < s.maps.length
  num : ∀ (i f : Nat), o.family[i]? = some f → f < o.family.length
  same : ∀ (i j a b f g : Nat), s.comps[i]? = some a → s.comps[j]? = some b → o.family[i]? = some f → o.family[j]? = some g → (a = b ↔ f = g)

theorem getElem?_snoc {α : Type} {l : List α} {x y : α} {i : Nat} (h : (l ++ [x])[i]? = some y) :
    (i < l.length ∧ l[i]? = some y) ∨ (i = l.length ∧ y = x) := by
  rw [List.getElem?_append] at h
  split at h
  · exact Or.inl ⟨‹_›, h⟩
  · right
    have : i - l.length = 0 := by
      by_contra hn
      rw [List.getElem?_eq_none (by simp; omega)] at h
      cases h
    rw [this] at h
    simp only [List.getElem?_cons_zero, Option.some.injEq] at h
    exact ⟨by omega, h.symm⟩

theorem fam_step (s : St G) (o : Spec.Own G) (p : Op G) (s' : St G) (hi : Fam s o) (h : step s p = .ok s') : Fam s' (Spec.step o p) := by
  obtain ⟨len, addr, num, same⟩ := hi
  cases p with
  | make m =>
    simp only [step, make, Outcome.ok.injEq] at h
    subst h
    refine ⟨by simp [Spec.step, len], fun i a ha => ?_, fun i f hf => ?_, fun i j a b f g ha hb hf hg => ?_⟩
    · rcases getElem?_snoc ha with ⟨-, h1⟩ | ⟨-, h1⟩
      · have := addr i a h1; simp; omega
      · simp [h1]
    · rcases getElem?_snoc hf with ⟨-, h1⟩ | ⟨-, h1⟩
      · have := num i f h1; simp [Spec.step]; omega
      · simp [Spec.step, h1]
    · rcases getElem?_snoc ha with ⟨la, h1⟩ | ⟨la, h1⟩ <;> rcases getElem?_snoc hb with ⟨lb, h2⟩ | ⟨lb, h2⟩ <;>
        rcases getElem?_snoc hf with ⟨lf, h3⟩ | ⟨lf, h3⟩ <;> rcases getElem?_snoc hg with ⟨lg, h4⟩ | ⟨lg, h4⟩ <;> try omega
      · exact same i j a b f g h1 h2 h3 h4
      · have := addr i a h1; have := num i f h3; omega
      · have := addr j b h2; have := num j g h4; omega
  | copy c =>
    obtain ⟨x, hx, rfl⟩ := copy_ok (show copy s c = .ok s' from h)
    have hc : c < s.comps.length := (List.getElem?_eq_some_iff.1 hx).1
    obtain ⟨y, hy⟩ : ∃ y, o.family[c]? = some y := ⟨_, List.getElem?_eq_getElem (by omega)⟩
    have e : Spec.step o (.copy c) = ⟨o.vals ++ o.vals[c]?.toList, o.family ++ [y]⟩ := by simp [Spec.step, hy]
    rw [e]
    refine ⟨by simp [len], fun i a ha => ?_, fun i f hf => ?_, fun i j a b f g ha hb hf hg => ?_⟩
    · rcases getElem?_snoc ha with ⟨-, h1⟩ | ⟨-, h1⟩
      · exact addr i a h1
      · rw [h1]; exact addr c x hx
    · rcases getElem?_snoc hf with ⟨-, h1⟩ | ⟨-, h1⟩
      · have := num i f h1; simp; omega
      · have := num c y hy; simp; omega
    · rcases getElem?_snoc ha with ⟨la, h1⟩ | ⟨la, h1⟩ <;> rcases getElem?_snoc hb with ⟨lb, h2⟩ | ⟨lb, h2⟩ <;>
        rcases getElem?_snoc hf with ⟨lf, h3⟩ | ⟨lf, h3⟩ <;> rcases getElem?_snoc hg with ⟨lg, h4⟩ | ⟨lg, h4⟩ <;> try omega
      · exact same i j a b f g h1 h2 h3 h4
      · rw [h2, h4]; exact same i c a x f y h1 hx h3 hy
      · rw [h1, h3]; exact same c j x b y g hx h2 hy h4
  | rotate c =>
    obtain ⟨a, m, m', -, -, -, rfl⟩ := rotate_ok (show rotate s c = .ok s' from h)
    exact ⟨len, fun i b hb => by simpa using addr i b hb, num, same⟩

/-! ## C371: copies and rotations -/

/-- Components behave each on its own as long as none is copied, or none is rotated. -/
theorem own_partial (ops : List (Op G)) (hq : Spec.noCopy ops ∨ Spec.noRotation ops) (s : St G) (h : run ⟨[], []⟩ ops = .ok s) (i : Nat) :
    (mapOf s i).map PMap.val = (Spec.run ops).vals[i]? := by
  rcases hq with hq | hq
  · have k := run_keeps (fun s o => s.comps = List.range s.maps.length ∧ s.maps.map PMap.val = o.vals) (fun p => ∀ i, p ≠ .copy i)
      (by
        rintro s o p s' ⟨h1, h2⟩ hp h
        cases p with
        | make m =>
          simp only [step, make, Outcome.ok.injEq] at h
          subst h
          exact ⟨by simp [h1, List.range_succ], by simp [Spec.step, h2]⟩
        | copy c => exact absurd rfl (hp c)
        | rotate c =>
          obtain ⟨a, m, m', g1, g2, g3, rfl⟩ := rotate_ok (show rotate s c = .ok s' from h)
          refine ⟨by simp [h1], ?_⟩
          have hca : a = c := by
            rw [h1] at g1
            have := (List.getElem?_eq_some_iff.1 g1).2
            simp at this
            omega
          subst hca
          simp only [Spec.step, ← h2]
          apply List.ext_getElem?
          intro n
          rw [List.getElem?_map, List.getElem?_set, List.getElem?_modify, List.getElem?_map]
          by_cases hn : a = n
          · subst hn
            have hl := (List.getElem?_eq_some_iff.1 g2).1
            have hv := (List.getElem?_eq_some_iff.1 g2).2
            simp [hl, g3, hv]
          · simp [hn])
      ops ⟨[], []⟩ s ⟨[], []⟩ ⟨rfl, rfl⟩ (fun p hp => hq p hp) h
    obtain ⟨k1, k2⟩ := k
    unfold mapOf Spec.run
    rw [← k2, k1, List.getElem?_map]
    by_cases hi : i < s.maps.length
    · rw [List.getElem?_range hi]; rfl
    · rw [List.getElem?_eq_none (by simpa using hi), List.getElem?_eq_none (by simpa using hi)]; rfl
  · have k := run_keeps (fun s o => (∀ i, (mapOf s i).map PMap.val = o.vals[i]?) ∧ s.comps.length = o.vals.length ∧
        ∀ (i a : Nat), s.comps[i]? = some a → a < s.maps.length) (fun p => ∀ i, p ≠ .rotate i)
      (by
        rintro s o p s' ⟨h1, h2, h3⟩ hp h
        cases p with
        | make m =>
          simp only [step, make, Outcome.ok.injEq] at h
          subst h
          refine ⟨fun i => ?_, by simp [Spec.step, h2], fun i a ha => ?_⟩
          · have hh := h1 i
            simp only [mapOf, Spec.step] at hh ⊢
            rcases Nat.lt_trichotomy i s.comps.length with hi | hi | hi
            · rw [List.getElem?_append_left hi, List.getElem?_append_left (by omega), ← hh, List.getElem?_eq_getElem hi]
              simp only [Option.bind_some]
              rw [List.getElem?_append_left (h3 i _ (List.getElem?_eq_getElem hi))]
            · subst hi
              simp [h2]
            · rw [List.getElem?_eq_none (by simp; omega), List.getElem?_eq_none (by simp; omega)]; rfl
          · rcases getElem?_snoc ha with ⟨-, g⟩ | ⟨-, g⟩
            · have := h3 i a g; simp; omega
            · simp [g]
        | copy c =>
          obtain ⟨x, hx, rfl⟩ := copy_ok (show copy s c = .ok s' from h)
          have hc : c < s.comps.length := (List.getElem?_eq_some_iff.1 hx).1
          obtain ⟨v, hv⟩ : ∃ v, o.vals[c]? = some v := ⟨_, List.getElem?_eq_getElem (by omega)⟩
          refine ⟨fun i => ?_, by simp [Spec.step, h2, hv], fun i a ha => ?_⟩
          · have hh := h1 i
            have hcc := h1 c
            simp only [mapOf, Spec.step, hv, Option.toList_some] at hh hcc ⊢
            rcases Nat.lt_trichotomy i s.comps.length with hi | hi | hi
            · rw [List.getElem?_append_left hi, List.getElem?_append_left (by omega), ← hh]
            · subst hi
              rw [hx] at hcc
              simp only [Option.bind_some] at hcc
              simp [h2, hcc]
            · rw [List.getElem?_eq_none (by simp; omega), List.getElem?_eq_none (by simp; omega)]; rfl
          · rcases getElem?_snoc ha with ⟨-, g⟩ | ⟨-, g⟩
            · exact h3 i a g
            · rw [g]; exact h3 c x hx
        | rotate c => exact absurd rfl (hp c))
      ops ⟨[], []⟩ s ⟨[], []⟩ ⟨by simp [mapOf], rfl, by simp⟩ (fun p hp => hq p hp) h
    exact k.1 i

example : ∃ s, run (G := Multiplicative ℚ) ⟨[], []⟩ [.make (.user (.ofAdd 2)), .make (.linear (.ofAdd 3)), .rotate 0] = .ok s := ⟨_, rfl⟩

/-- In general a rotation inverts what the component and everything copied from or to it does, and nothing else. -/
theorem rotate_family (ops : List (Op G)) (s : St G) (h : run ⟨[], []⟩ ops = .ok s) (i : Nat) (s' : St G) (h' : rotate s i = .ok s')
    (j : Nat) : (mapOf s' j).map PMap.val =
      if (Spec.run ops).family[j]? = (Spec.run ops).family[i]? then (mapOf s j).map (·.val⁻¹) else (mapOf s j).map PMap.val := by
  have hf : Fam s (Spec.run ops) := run_keeps Fam (fun _ => True) (fun s o p s' hi _ h => fam_step s o p s' hi h) ops ⟨[], []⟩ s ⟨[], []⟩
    ⟨rfl, by simp, by simp, by simp⟩ (fun _ _ => trivial) h
  obtain ⟨a, m, m', g1, g2, g3, rfl⟩ := rotate_ok h'
  have hil := (List.getElem?_eq_some_iff.1 g1).1
  have hal := (List.getElem?_eq_some_iff.1 g2).1
  have len := hf.len
  unfold mapOf
  by_cases hj : j < s.comps.length
  · have hb := List.getElem?_eq_getElem hj
    have hfj := List.getElem?_eq_getElem (l := (Spec.run ops).family) (i := j) (by omega)
    have hfi := List.getElem?_eq_getElem (l := (Spec.run ops).family) (i := i) (by omega)
    have hs := hf.same j i _ _ _ _ hb g1 hfj hfi
    rw [hfj, hfi, hb]
    simp only [Option.bind_some, Option.some.injEq, List.getElem?_set, hal, if_true]
    by_cases he : s.comps[j] = a
    · rw [if_pos he.symm, if_pos (hs.1 he), he, g2]
      simp [g3]
    · rw [if_neg (fun h => he h.symm), if_neg (fun h => he (hs.2 h))]
  · have n1 : (Spec.run ops).family[j]? = none := List.getElem?_eq_none (by omega)
    have n2 : s.comps[j]? = none := List.getElem?_eq_none (by omega)
    rw [n1, if_neg (by rw [List.getElem?_eq_getElem (by omega)]; simp)]
    simp only [n2]
    rfl

/-- So a copy that is rotated takes what it was copied from along. -/
theorem copy_rotated_violated : ∃ (ops : List (Op (Multiplicative ℚ))) (s : St (Multiplicative ℚ)), run ⟨[], []⟩ ops = .ok s ∧
    (mapOf s 0).map PMap.val ≠ (Spec.run ops).vals[0]? := by
  refine ⟨[.make (.user (.ofAdd 2)), .copy 0, .rotate 1], _, rfl, ?_⟩
  simp [mapOf, Spec.run, Spec.step, PMap.val]
  decide +kernel

/-! ## C372: tracking -/

omit [Group G] in
/-- A component changes each particle by its map, in a step of no length. -/
theorem track_each [SMul G P] (s : St G) (i : Nat) (m : PMap G) (hm : mapOf s i = some m) (ds : Int) (bunch : List P) :
    (ds = 0 → trackStep s i ds bunch = .ok (bunch.map (m.val • ·))) ∧ (ds ≠ 0 → trackStep s i ds bunch = .ub) := by
  unfold trackStep
  exact ⟨fun h => by rw [if_pos h, hm], fun h => if_neg h⟩

/-- After a rotation the component undoes what it did before. -/
theorem rotated_undoes [MulAction G P] (s s' : St G) (i : Nat) (h : rotate s i = .ok s') (bunch : List P) :
    ∃ b1, trackStep s i 0 bunch = .ok b1 ∧ trackStep s' i 0 b1 = .ok bunch := by
  obtain ⟨a, m, m', g1, g2, g3, rfl⟩ := rotate_ok h
  have hal := (List.getElem?_eq_some_iff.1 g2).1
  have e1 : mapOf s i = some m := by simp [mapOf, g1, g2]
  have e2 : mapOf (⟨s.maps.set a m', s.comps⟩ : St G) i = some m' := by simp [mapOf, g1, hal]
  refine ⟨_, (track_each s i m e1 0 bunch).1 rfl, ?_⟩
  rw [(track_each _ i m' e2 0 _).1 rfl, List.map_map]
  congr 1
  have : ((fun x : P => m'.val • x) ∘ fun x => m.val • x) = id := by
    funext x
    simp [g3]
  rw [this, List.map_id]

/-- The drifts of position and slope. -/
instance drifts : MulAction (Multiplicative ℚ) (ℚ × ℚ) where
  smul g x := (x.1 + g.toAdd * x.2, x.2)
  one_smul x := by show (x.1 + 0 * x.2, x.2) = x; simp
  mul_smul g h x := by
    show (x.1 + (g.toAdd + h.toAdd) * x.2, x.2) = (x.1 + h.toAdd * x.2 + g.toAdd * x.2, x.2)
    ext <;> simp
    ring

/-- A drift is a drift from either side, but as a component with a map it goes backwards once rotated. -/
theorem rotated_drift_violated : ∃ (s s' : St (Multiplicative ℚ)) (b : List (ℚ × ℚ)), run ⟨[], []⟩ [.make (.user (.ofAdd 2))] = .ok s ∧
    rotate s 0 = .ok s' ∧ trackStep s 0 0 b = .ok [(6, 3)] ∧ trackStep s' 0 0 b = .ok [(-6, 3)] := by
  refine ⟨_, _, [(0, 3)], rfl, rfl, ?_, ?_⟩
  · show Outcome.ok [((0 : ℚ) + 2 * 3, (3 : ℚ))] = _
    norm_num
  · show Outcome.ok [((0 : ℚ) + -2 * 3, (3 : ℚ))] = _
    norm_num

/-- A component with a linear map cannot be rotated. -/
theorem linear_rotate (s : St G) (i : Nat) (g : G) (hm : mapOf s i = some (.linear g)) : rotate s i = .ub := by
  unfold mapOf at hm
  unfold rotate
  cases h1 : s.comps[i]? with
  | none => rfl
  | some a =>
    rw [h1, Option.bind_some] at hm
    simp only [hm]
    rfl

example : mapOf (G := Multiplicative ℚ) ⟨[.linear (.ofAdd 2)], [0]⟩ 0 = some (.linear (.ofAdd 2)) := rfl

end Verif.MapComponent
