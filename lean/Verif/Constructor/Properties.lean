import Mathlib.Tactic.Ring
import Mathlib.Tactic.Linarith
import Mathlib.Tactic.NormNum
import Mathlib.Algebra.BigOperators.Group.List.Basic
import Mathlib.Algebra.Order.Ring.Rat
import Mathlib.Algebra.Field.Rat
import Verif.Constructor.Spec

/-!
# Properties of model construction (C53, C57)
-/

set_option linter.unusedSectionVars false

namespace Verif.Constructor
open Verif Verif.Constructor.Spec

section
variable {K : Type} [Field K] [LinearOrder K]

/-! ## Calls as single steps -/

/-- Calls with the drift of `AppendComponent` as a call of its own. -/
inductive Micro (K : Type) where
  | newFrame (id : Nat)
  | endFrame
  | leaf (f : CFrame K)
  | appendFrame (id : Nat) (sub : List (Tree K))
  | add (e : Nat)

/-- One such call. -/
def mstep (s : State K) : Micro K → Outcome Unit (State K)
  | .newFrame id => newFrame id s
  | .endFrame => endFrame s
  | .leaf f => appendComponentFrame f s
  | .appendFrame id sub => appendFrame id sub s
  | .add e => addModelElement e s

/-- Several such calls. -/
def mrun (s : State K) : List (Micro K) → Outcome Unit (State K)
  | [] => .ok s
  | o :: os => mstep s o >>= fun s => mrun s os

/-- The single steps of a call. -/
def micro (eps : K) : Op K → List (Micro K)
  | .newFrame id => [.newFrame id]
  | .endFrame => [.endFrame]
  | .append f d drift => (appended eps (.append f d drift)).map .leaf
  | .appendFrame id sub => [.appendFrame id sub]
  | .add e => [.add e]

theorem mrun_append (s : State K) (a b : List (Micro K)) :
    mrun s (a ++ b) = mrun s a >>= fun s => mrun s b := by
  induction a generalizing s with
  | nil => rfl
  | cons o a ih =>
    show (mstep s o >>= fun s => mrun s (a ++ b)) = (mstep s o >>= fun s => mrun s a) >>= _
    cases mstep s o with
    | ok s1 => exact ih s1
    | throw e => rfl
    | ub => rfl

theorem step_micro (eps : K) (s : State K) (o : Op K) : step eps s o = mrun s (micro eps o) := by
  cases o with
  | append f d drift =>
    simp only [step, appendComponent, micro, appended, Range.fequal, sub_zero, decide_eq_true_eq]
    by_cases h : |d| ≤ eps
    · rw [if_pos h, if_pos h]
      simp only [List.map_cons, List.map_nil, mrun, mstep]
      cases appendComponentFrame f s <;> rfl
    · rw [if_neg h, if_neg h]
      simp only [List.map_cons, List.map_nil, mrun, mstep]
      cases appendComponentFrame (⟨drift.1, some drift.2, d⟩ : CFrame K) s with
      | ok s1 =>
        simp only [Outcome.bind_ok]
        cases appendComponentFrame f s1 <;> rfl
      | throw e => rfl
      | ub => rfl
  | newFrame id => simp only [step, micro, mrun, mstep]; cases newFrame id s <;> rfl
  | endFrame => simp only [step, micro, mrun, mstep]; cases endFrame s <;> rfl
  | appendFrame id sub => simp only [step, micro, mrun, mstep]; cases appendFrame id sub s <;> rfl
  | add e => simp only [step, micro, mrun, mstep]; cases addModelElement e s <;> rfl

theorem run_micro (eps : K) (s : State K) (os : List (Op K)) :
    run eps s os = mrun s (os.flatMap (micro eps)) := by
  induction os generalizing s with
  | nil => rfl
  | cons o os ih =>
    rw [List.flatMap_cons, mrun_append, ← step_micro]
    show (step eps s o >>= fun s => run eps s os) = _
    cases step eps s o with
    | ok s1 => exact ih s1
    | throw e => rfl
    | ub => rfl

/-! ## Brackets -/

/-- Brackets for single steps. -/
def mopened : Nat → List (Micro K) → Option Nat
  | n, [] => some n
  | n, .newFrame _ :: os => mopened (n + 1) os
  | 0, .endFrame :: _ => none
  | n + 1, .endFrame :: os => mopened n os
  | n, .leaf _ :: os => mopened n os
  | n, .appendFrame .. :: os => mopened n os
  | n, .add _ :: os => mopened n os

theorem mopened_leaves (n : Nat) (l : List (CFrame K)) (os : List (Micro K)) :
    mopened n (l.map .leaf ++ os) = mopened n os := by
  induction l with
  | nil => rfl
  | cons f l ih =>
    rw [List.map_cons, List.cons_append]
    cases n <;> exact ih

theorem opened_micro (eps : K) (os : List (Op K)) (n : Nat) :
    mopened n (os.flatMap (micro eps)) = opened n os := by
  induction os generalizing n with
  | nil => cases n <;> rfl
  | cons o os ih =>
    rw [List.flatMap_cons]
    cases o with
    | newFrame id => cases n <;> exact ih _
    | endFrame =>
      cases n with
      | zero => rfl
      | succ n => exact ih n
    | append f d drift =>
      simp only [micro]
      rw [mopened_leaves, ih]
      cases n <;> rfl
    | appendFrame id sub => cases n <;> exact ih _
    | add e => cases n <;> exact ih _

theorem appendTop_cons (t : Tree K) (len : K) (o : Open K) (os : List (Open K)) :
    appendTop t len (o :: os) = some ({ o with sub := o.sub ++ [t], len := o.len + len } :: os) := rfl

theorem mrun_brackets (os : List (Micro K)) : ∀ (s : State K) (n : Nat), s.alive = true →
    s.stack.length = n + 1 →
    match mopened n os with
    | some k => ∃ s', mrun s os = .ok s' ∧ s'.alive = true ∧ s'.stack.length = k + 1
    | none => mrun s os = .ub := by
  induction os with
  | nil =>
    intro s n ha hn
    rw [mopened.eq_1]
    exact ⟨s, rfl, ha, hn⟩
  | cons o os ih =>
    intro s n ha hn
    obtain ⟨o1, st, hst⟩ : ∃ o1 st, s.stack = o1 :: st := by
      cases h : s.stack with
      | nil => rw [h] at hn; simp at hn
      | cons a b => exact ⟨a, b, rfl⟩
    have hlen : st.length = n := by rw [hst] at hn; simpa using hn
    cases o with
    | newFrame id =>
      have e : mopened n (Micro.newFrame id :: os) = mopened (n + 1) os := by cases n <;> rfl
      have h1 : mstep s (.newFrame id) = .ok { s with
          repo := addElem (.seq id) s.repo
          stack := ⟨id, [], 0⟩ :: s.stack } := by
        simp [mstep, newFrame, ha]
      rw [e]
      simp only [mrun, h1, Outcome.bind_ok]
      exact ih _ (n + 1) ha (by simp [hn])
    | endFrame =>
      cases n with
      | zero =>
        have : st = [] := List.length_eq_zero_iff.1 hlen
        have h1 : mstep s .endFrame = .ub := by simp [mstep, endFrame, hst, this, appendTop]
        show mrun s (Micro.endFrame :: os) = .ub
        simp only [mrun, h1]
        rfl
      | succ n =>
        obtain ⟨o2, st2, hst2⟩ : ∃ o2 st2, st = o2 :: st2 := by
          cases h : st with
          | nil => rw [h] at hlen; simp at hlen
          | cons a b => exact ⟨a, b, rfl⟩
        have h1 : mstep s .endFrame = .ok { s with
            stack := { o2 with sub := o2.sub ++ [.seq o1.id o1.sub], len := o2.len + o1.len } :: st2 } := by
          simp [mstep, endFrame, hst, hst2, appendTop]
        have e : mopened (n + 1) (Micro.endFrame :: os) = mopened n os := rfl
        rw [e]
        simp only [mrun, h1, Outcome.bind_ok]
        refine ih _ n ha ?_
        rw [hst2] at hlen
        simpa using hlen
    | leaf f =>
      have e : mopened n (Micro.leaf f :: os) = mopened n os := by cases n <;> rfl
      rw [e]
      simp only [mrun, mstep, appendComponentFrame, ha, if_true, hst, appendTop_cons, Outcome.bind_ok]
      exact ih _ n rfl (by simp [hlen])
    | appendFrame id sub =>
      have e : mopened n (Micro.appendFrame id sub :: os) = mopened n os := by cases n <;> rfl
      rw [e]
      simp only [mrun, mstep, appendFrame, ha, if_true, hst, appendTop_cons, Outcome.bind_ok]
      exact ih _ n rfl (by simp [hlen])
    | add e =>
      have e : mopened n (Micro.add e :: os) = mopened n os := by cases n <;> rfl
      rw [e]
      simp only [mrun, mstep, addModelElement, ha, if_true, Outcome.bind_ok]
      exact ih _ n rfl hn

/-- C53: the calls are legal exactly when no frame is ended that was not begun; the depth reported is the
number of frames still open. -/
theorem run_legal (eps : K) (g : Nat) (os : List (Op K)) :
    match opened 0 os with
    | some k => ∃ s, run eps (newModel g) os = .ok s ∧ depth s = k
    | none => run eps (newModel g) os = .ub := by
  have h := mrun_brackets (os.flatMap (micro eps)) (newModel g : State K) 0 rfl rfl
  rw [opened_micro] at h
  rw [run_micro]
  cases ho : opened 0 os with
  | none => rw [ho] at h; exact h
  | some k =>
    rw [ho] at h
    obtain ⟨s, h1, _, h3⟩ := h
    refine ⟨s, h1, ?_⟩
    rw [depth, h3]
    push_cast
    omega

/-- C53: `GetModel` succeeds exactly after a well-bracketed sequence of calls; an unfinished frame violates
its assertion. -/
theorem getModel_legal (eps : K) (g : Nat) (os : List (Op K)) :
    (∃ r, (run eps (newModel g) os >>= getModel) = .ok r) ↔ opened 0 os = some 0 := by
  have h := mrun_brackets (os.flatMap (micro eps)) (newModel g : State K) 0 rfl rfl
  rw [opened_micro] at h
  rw [run_micro]
  cases ho : opened 0 os with
  | none =>
    rw [ho] at h
    have h : mrun (newModel g) (os.flatMap (micro eps)) = .ub := h
    simp [h]
  | some k =>
    rw [ho] at h
    obtain ⟨s, h1, h2, h3⟩ := h
    rw [h1, Outcome.bind_ok]
    cases hst : s.stack with
    | nil => rw [hst] at h3; simp at h3
    | cons o st =>
      rw [hst] at h3
      have h4 : st.length = k := by simpa using h3
      simp only [getModel, hst, h2, true_and, Option.some.injEq]
      cases st with
      | nil => simpa using h4.symm
      | cons a b =>
        have : k ≠ 0 := by rw [← h4]; simp
        simp [this]

/-! ## Order and content -/

theorem leavesAll_append (a b : List (Tree K)) : leavesAll (a ++ b) = leavesAll a ++ leavesAll b := by
  induction a with
  | nil => simp [leavesAll]
  | cons t a ih => simp [leavesAll, ih]

/-- Component frames of one single step. -/
def mappended : Micro K → List (CFrame K)
  | .leaf f => [f]
  | .appendFrame _ sub => leavesAll sub
  | _ => []

theorem appended_micro (eps : K) (o : Op K) : (micro eps o).flatMap mappended = appended eps o := by
  cases o with
  | append f d drift =>
    simp only [micro]
    generalize appended eps (Op.append f d drift) = l
    induction l with
    | nil => rfl
    | cons a l ih => simp only [List.map_cons, List.flatMap_cons, ih]; rfl
  | newFrame id => rfl
  | endFrame => rfl
  | appendFrame id sub => simp [micro, mappended, appended]
  | add e => rfl

theorem appendedAll_micro (eps : K) (os : List (Op K)) :
    (os.flatMap (micro eps)).flatMap mappended = os.flatMap (appended eps) := by
  induction os with
  | nil => rfl
  | cons o os ih => rw [List.flatMap_cons, List.flatMap_append, appended_micro, ih, List.flatMap_cons]

theorem addElem_spec (x : Elem) (r : List Elem) : (∀ e, e ∈ addElem x r ↔ e ∈ r ∨ e = x) ∧
    (r.Nodup → (addElem x r).Nodup) := by
  simp only [addElem]
  split
  · rename_i hx
    exact ⟨fun e => ⟨Or.inl, fun h => h.elim id (fun h => h ▸ hx)⟩, id⟩
  · rename_i hx
    refine ⟨fun e => by simp, fun h => ?_⟩
    rw [List.nodup_append]
    refine ⟨h, by simp, ?_⟩
    intro a ha b hb hab
    rw [List.mem_singleton] at hb
    exact hx (hb ▸ hab ▸ ha)

mutual
theorem extract_spec : ∀ (t : Tree K) (r : List Elem) (l : List (CFrame K)),
    (extract t (r, l)).2 = l ++ (leaves t).filter (fun f => f.comp.isSome) ∧
    (∀ e, e ∈ (extract t (r, l)).1 ↔ e ∈ r ∨ e ∈ members t) ∧
    (r.Nodup → (extract t (r, l)).1.Nodup)
  | .leaf f, r, l => by
    have hadd := addElem_spec
    cases hc : f.comp with
    | none =>
      simp only [extract, hc, leaves, members]
      refine ⟨by simp [hc], fun e => ?_, (hadd _ _).2⟩
      rw [(hadd _ _).1]
      simp
    | some c =>
      simp only [extract, hc, leaves, members]
      refine ⟨by simp [hc], fun e => ?_, fun h => (hadd _ _).2 ((hadd _ _).2 h)⟩
      rw [(hadd _ _).1, (hadd _ _).1]
      simp [or_assoc]
  | .seq id sub, r, l => by
    have hadd := addElem_spec (.seq id) r
    obtain ⟨h1, h2, h3⟩ := extractAll_spec sub (addElem (.seq id) r) l
    simp only [extract, leaves, members]
    refine ⟨h1, fun e => ?_, fun h => h3 (hadd.2 h)⟩
    rw [h2, hadd.1]
    simp [or_assoc]

theorem extractAll_spec : ∀ (ts : List (Tree K)) (r : List Elem) (l : List (CFrame K)),
    (extractAll ts (r, l)).2 = l ++ (leavesAll ts).filter (fun f => f.comp.isSome) ∧
    (∀ e, e ∈ (extractAll ts (r, l)).1 ↔ e ∈ r ∨ e ∈ membersAll ts) ∧
    (r.Nodup → (extractAll ts (r, l)).1.Nodup)
  | [], r, l => by simp [extractAll, leavesAll, membersAll]
  | t :: ts, r, l => by
    obtain ⟨h1, h2, h3⟩ := extract_spec t r l
    obtain ⟨g1, g2, g3⟩ := extractAll_spec ts (extract t (r, l)).1 (extract t (r, l)).2
    simp only [extractAll, leavesAll, membersAll]
    refine ⟨?_, fun e => ?_, fun h => g3 (h3 h)⟩
    · rw [g1, h1]
      simp
    · rw [g2, h2]
      simp [or_assoc]
end

/-- What a legal single step does. -/
theorem mstep_ok (s s' : State K) (o : Micro K) (h : mstep s o = .ok s') :
    match o with
    | .newFrame id => s' = { s with
        repo := addElem (.seq id) s.repo
        stack := ⟨id, [], 0⟩ :: s.stack }
    | .endFrame => ∃ o1 o2 st, s.stack = o1 :: o2 :: st ∧ s' = { s with
        stack := { o2 with sub := o2.sub ++ [.seq o1.id o1.sub], len := o2.len + o1.len } :: st }
    | .leaf f => ∃ o1 st, s.stack = o1 :: st ∧ s' = { s with
        stack := { o1 with sub := o1.sub ++ [.leaf f], len := o1.len + f.len } :: st
        lattice := s.lattice ++ [f]
        repo := (match f.comp with
          | some c => addElem (.comp c) (addElem (.frame f.id) s.repo)
          | none => addElem (.frame f.id) s.repo)
        frameIdx := fun i => if i = f.id then s.lattice.length else s.frameIdx i
        compIdx := fun c => if f.comp = some c then s.lattice.length else s.compIdx c }
    | .appendFrame id sub => ∃ o1 st, s.stack = o1 :: st ∧ s' = { s with
        stack := { o1 with sub := o1.sub ++ [.seq id sub], len := o1.len + lengths sub } :: st
        lattice := (extract (.seq id sub) (s.repo, s.lattice)).2
        repo := (extract (.seq id sub) (s.repo, s.lattice)).1 }
    | .add e => s' = { s with repo := addElem (.other e) s.repo } := by
  cases o with
  | newFrame id =>
    simp only [mstep, newFrame] at h
    split at h
    · injection h with h; exact h.symm
    · cases h
  | endFrame =>
    simp only [mstep, endFrame] at h
    split at h
    · cases h
    · rename_i o1 st hst
      cases st with
      | nil => simp [appendTop] at h
      | cons o2 st =>
        simp only [appendTop_cons] at h
        injection h with h
        exact ⟨o1, o2, st, hst, h.symm⟩
  | leaf f =>
    simp only [mstep, appendComponentFrame] at h
    split at h
    · cases hst : s.stack with
      | nil => rw [hst] at h; simp [appendTop] at h
      | cons o1 st =>
        rw [hst] at h
        simp only [appendTop_cons] at h
        injection h with h
        exact ⟨o1, st, rfl, h.symm⟩
    · cases h
  | appendFrame id sub =>
    simp only [mstep, appendFrame] at h
    split at h
    · cases hst : s.stack with
      | nil => rw [hst] at h; simp [appendTop] at h
      | cons o1 st =>
        rw [hst] at h
        simp only [appendTop_cons] at h
        injection h with h
        exact ⟨o1, st, rfl, h.symm⟩
    · cases h
  | add e =>
    simp only [mstep, addModelElement] at h
    split at h
    · injection h with h; exact h.symm
    · cases h

/-- Component frames of the frames under construction, from upstream to downstream. -/
def flat (st : List (Open K)) : List (CFrame K) := st.reverse.flatMap (fun o => leavesAll o.sub)

theorem flat_cons (o : Open K) (st : List (Open K)) : flat (o :: st) = flat st ++ leavesAll o.sub := by
  simp [flat]

theorem mrun_flat (os : List (Micro K)) : ∀ (s s' : State K), mrun s os = .ok s' →
    flat s'.stack = flat s.stack ++ os.flatMap mappended := by
  induction os with
  | nil =>
    intro s s' h
    injection h with h
    simp [h]
  | cons o os ih =>
    intro s s' h
    simp only [mrun] at h
    cases hs : mstep s o with
    | throw e => rw [hs] at h; cases h
    | ub => rw [hs] at h; cases h
    | ok s1 =>
      rw [hs, Outcome.bind_ok] at h
      rw [ih _ _ h, List.flatMap_cons]
      have hm := mstep_ok s s1 o hs
      have : flat s1.stack = flat s.stack ++ mappended o := by
        cases o with
        | newFrame id => rw [hm]; simp [flat_cons, leavesAll, mappended]
        | endFrame =>
          obtain ⟨o1, o2, st, h1, h2⟩ := hm
          rw [h2, h1]
          simp [flat_cons, leavesAll_append, leavesAll, leaves, mappended]
        | leaf f =>
          obtain ⟨o1, st, h1, h2⟩ := hm
          rw [h2, h1]
          simp [flat_cons, leavesAll_append, leavesAll, leaves, mappended]
        | appendFrame id sub =>
          obtain ⟨o1, st, h1, h2⟩ := hm
          rw [h2, h1]
          simp [flat_cons, leavesAll_append, leavesAll, leaves, mappended]
        | add e => rw [hm]; simp [mappended]
      rw [this, List.append_assoc]

/-- Calls whose ready-made sequences contain no empty component frames. -/
def NoEmpty : Op K → Prop
  | .appendFrame _ sub => ∀ f ∈ leavesAll sub, f.comp ≠ none
  | _ => True

theorem mrun_lattice (os : List (Micro K))
    (hne : ∀ id sub, Micro.appendFrame id sub ∈ os → ∀ f ∈ leavesAll sub, f.comp ≠ none) :
    ∀ (s s' : State K), mrun s os = .ok s' → s'.lattice = s.lattice ++ os.flatMap mappended := by
  induction os with
  | nil =>
    intro s s' h
    injection h with h
    simp [h]
  | cons o os ih =>
    intro s s' h
    simp only [mrun] at h
    cases hs : mstep s o with
    | throw e => rw [hs] at h; cases h
    | ub => rw [hs] at h; cases h
    | ok s1 =>
      rw [hs, Outcome.bind_ok] at h
      rw [ih (fun id sub hm => hne id sub (List.mem_cons_of_mem _ hm)) _ _ h, List.flatMap_cons]
      have hm := mstep_ok s s1 o hs
      have : s1.lattice = s.lattice ++ mappended o := by
        cases o with
        | newFrame id => rw [hm]; simp [mappended]
        | endFrame =>
          obtain ⟨o1, o2, st, h1, h2⟩ := hm
          rw [h2]
          simp [mappended]
        | leaf f =>
          obtain ⟨o1, st, h1, h2⟩ := hm
          rw [h2]
          rfl
        | appendFrame id sub =>
          obtain ⟨o1, st, h1, h2⟩ := hm
          rw [h2]
          dsimp only
          rw [(extract_spec _ _ _).1]
          simp only [leaves, mappended]
          rw [List.filter_eq_self.2]
          intro f hf
          have := hne id sub (by simp) f hf
          cases hc : f.comp with
          | none => exact absurd hc this
          | some c => rfl
        | add e => rw [hm]; simp [mappended]
      rw [this, List.append_assoc]

theorem getModel_ok (s : State K) (m : Model K) (s' : State K) (h : getModel s = .ok (m, s')) :
    s.stack = [m.globalFrame] ∧ m.lattice = s.lattice ∧ m.repo = s.repo ∧ m.frameIdx = s.frameIdx ∧
    m.compIdx = s.compIdx := by
  simp only [getModel] at h
  split at h
  · cases h
  · rename_i o st hst
    split at h
    · rename_i hc
      have : st = [] := by simpa using hc.2
      injection h with h
      simp only [Prod.mk.injEq] at h
      obtain ⟨rfl, _⟩ := h
      exact ⟨by rw [hst, this], rfl, rfl, rfl, rfl⟩
    · cases h

theorem built_run (eps : K) (g : Nat) (os : List (Op K)) (m : Model K) (s' : State K)
    (h : (run eps (newModel g) os >>= getModel) = .ok (m, s')) :
    ∃ s, run eps (newModel g) os = .ok s ∧ getModel s = .ok (m, s') := by
  cases hr : run eps (newModel g) os with
  | throw e => rw [hr] at h; cases h
  | ub => rw [hr] at h; cases h
  | ok s => rw [hr, Outcome.bind_ok] at h; exact ⟨s, rfl, h⟩

/-- C53: the frame hierarchy flattened is the list of component frames in the order of the calls. -/
theorem tree_order (eps : K) (g : Nat) (os : List (Op K)) (m : Model K) (s' : State K)
    (h : (run eps (newModel g) os >>= getModel) = .ok (m, s')) :
    leavesAll m.globalFrame.sub = os.flatMap (appended eps) := by
  obtain ⟨s, h1, h2⟩ := built_run eps g os m s' h
  rw [run_micro] at h1
  have := mrun_flat _ _ _ h1
  rw [(getModel_ok s m s' h2).1, appendedAll_micro] at this
  simpa [flat, newModel, leavesAll] using this

/-- C53: the lattice is the list of component frames in the order of the calls, and thus the flattened
frame hierarchy, if no ready-made sequence contains an empty component frame.  Missing: empty frames, for
which it is false (`empty_frame_violated`). -/
theorem lattice_order_partial (eps : K) (g : Nat) (os : List (Op K)) (hne : ∀ o ∈ os, NoEmpty o)
    (m : Model K) (s' : State K) (h : (run eps (newModel g) os >>= getModel) = .ok (m, s')) :
    m.lattice = os.flatMap (appended eps) ∧ m.lattice = leavesAll m.globalFrame.sub := by
  rw [tree_order eps g os m s' h, and_self]
  obtain ⟨s, h1, h2⟩ := built_run eps g os m s' h
  rw [run_micro] at h1
  have hl := mrun_lattice _ (by
    intro id sub hm
    rw [List.mem_flatMap] at hm
    obtain ⟨o, ho, hm⟩ := hm
    cases o with
    | append f d drift => simp [micro] at hm
    | newFrame id => simp [micro] at hm
    | endFrame => simp [micro] at hm
    | appendFrame id' sub' =>
      simp only [micro, List.mem_singleton, Micro.appendFrame.injEq] at hm
      obtain ⟨rfl, rfl⟩ := hm
      exact hne _ ho
    | add e => simp [micro] at hm) _ _ h1
  rw [(getModel_ok s m s' h2).2.1, hl, appendedAll_micro]
  rfl

/-! ## The hierarchy -/

theorem run_append (eps : K) (s : State K) (a b : List (Op K)) :
    run eps s (a ++ b) = run eps s a >>= fun s => run eps s b := by
  rw [run_micro, run_micro, List.flatMap_append, mrun_append]
  cases mrun s (a.flatMap (micro eps)) with
  | ok s1 => simp only [Outcome.bind_ok, run_micro]
  | throw e => rfl
  | ub => rfl

mutual
theorem calls_spec (eps : K) (he : |(0 : K)| ≤ eps) : ∀ (t : Tree K) (s : State K) (o : Open K)
    (st : List (Open K)), s.alive = true → s.stack = o :: st → ∃ s', run eps s (calls t) = .ok s' ∧
    s'.alive = true ∧ s'.stack = { o with sub := o.sub ++ [t], len := o.len + length t } :: st
  | .leaf f, s, o, st, ha, hs => by
    simp only [calls, run, step, appendComponent, Range.fequal, sub_zero, he, decide_true, if_true,
      appendComponentFrame, ha, hs, appendTop_cons, Outcome.bind_ok]
    exact ⟨_, rfl, rfl, rfl⟩
  | .seq id sub, s, o, st, ha, hs => by
    obtain ⟨s1, h1, h2, h3⟩ := callsAll_spec eps he sub
      { s with repo := addElem (.seq id) s.repo, stack := ⟨id, [], 0⟩ :: s.stack } ⟨id, [], 0⟩ s.stack ha rfl
    simp only [calls, List.cons_append, run, step, newFrame, ha, if_true, Outcome.bind_ok]
    rw [ha] at h1
    rw [run_append, h1, Outcome.bind_ok]
    simp only [run, step, endFrame, h3, hs, appendTop_cons, Outcome.bind_ok, List.nil_append, zero_add]
    exact ⟨_, rfl, h2, rfl⟩

theorem callsAll_spec (eps : K) (he : |(0 : K)| ≤ eps) : ∀ (ts : List (Tree K)) (s : State K) (o : Open K)
    (st : List (Open K)), s.alive = true → s.stack = o :: st → ∃ s', run eps s (callsAll ts) = .ok s' ∧
    s'.alive = true ∧ s'.stack = { o with sub := o.sub ++ ts, len := o.len + lengths ts } :: st
  | [], s, o, st, ha, hs => ⟨s, rfl, ha, by rw [hs]; simp [lengths]⟩
  | t :: ts, s, o, st, ha, hs => by
    obtain ⟨s1, h1, h2, h3⟩ := calls_spec eps he t s o st ha hs
    obtain ⟨s2, g1, g2, g3⟩ := callsAll_spec eps he ts s1 _ st h2 h3
    refine ⟨s2, ?_, g2, ?_⟩
    · rw [callsAll, run_append, h1, Outcome.bind_ok, g1]
    · rw [g3]
      simp [lengths, add_assoc]
end

/-- C53: describing a hierarchy of frames by calls gives a model with exactly this hierarchy under its
global frame. -/
theorem hierarchy (eps : K) (he : |(0 : K)| ≤ eps) (g : Nat) (ts : List (Tree K)) :
    ∃ m s', (run eps (newModel g) (callsAll ts) >>= getModel) = .ok (m, s') ∧
      m.globalFrame.id = g ∧ m.globalFrame.sub = ts := by
  obtain ⟨s, h1, h2, h3⟩ := callsAll_spec eps he ts (newModel g) ⟨g, [], 0⟩ [] rfl rfl
  rw [h1, Outcome.bind_ok]
  simp only [getModel, h3, h2, List.isEmpty_nil, and_self, if_true]
  exact ⟨_, _, rfl, rfl, by simp⟩

example : callsAll [.seq 1 [.leaf ⟨2, some 3, (1 : ℚ)⟩, .seq 4 []], .leaf ⟨5, none, 1⟩] =
    [.newFrame 1, .append ⟨2, some 3, 1⟩ 0 (0, 0), .newFrame 4, .endFrame, .endFrame,
      .append ⟨5, none, 1⟩ 0 (0, 0)] := rfl

/-! ## Length -/

/-- The sum of the lengths of component frames. -/
def total (l : List (CFrame K)) : K := (l.map (fun f => f.len)).sum

mutual
theorem length_leaves : ∀ t : Tree K, length t = total (leaves t)
  | .leaf f => by simp [length, leaves, total]
  | .seq id sub => by simp only [length, leaves]; exact lengths_leaves sub

theorem lengths_leaves : ∀ ts : List (Tree K), lengths ts = total (leavesAll ts)
  | [] => by simp [lengths, leavesAll, total]
  | t :: ts => by
    simp only [lengths, leavesAll, length_leaves t, lengths_leaves ts, total, List.map_append,
      List.sum_append]
end

theorem lengths_append (a b : List (Tree K)) : lengths (a ++ b) = lengths a + lengths b := by
  induction a with
  | nil => simp [lengths]
  | cons t a ih => simp [lengths, ih, add_assoc]

theorem mrun_len (os : List (Micro K)) : ∀ (s s' : State K), (∀ o ∈ s.stack, o.len = lengths o.sub) →
    mrun s os = .ok s' → ∀ o ∈ s'.stack, o.len = lengths o.sub := by
  induction os with
  | nil =>
    intro s s' hs h
    injection h with h
    rw [← h]; exact hs
  | cons o os ih =>
    intro s s' hinv h
    simp only [mrun] at h
    cases hs : mstep s o with
    | throw e => rw [hs] at h; cases h
    | ub => rw [hs] at h; cases h
    | ok s1 =>
      rw [hs, Outcome.bind_ok] at h
      refine ih s1 s' ?_ h
      have hm := mstep_ok s s1 o hs
      cases o with
      | newFrame id =>
        rw [hm]
        intro o ho
        rw [List.mem_cons] at ho
        rcases ho with rfl | ho
        · simp [lengths]
        · exact hinv o ho
      | endFrame =>
        obtain ⟨o1, o2, st, h1, h2⟩ := hm
        rw [h2]
        rw [h1] at hinv
        intro o ho
        rw [List.mem_cons] at ho
        rcases ho with rfl | ho
        · simp only [lengths_append, lengths, length, add_zero]
          rw [hinv o1 (by simp), hinv o2 (by simp)]
        · exact hinv o (by simp [ho])
      | leaf f =>
        obtain ⟨o1, st, h1, h2⟩ := hm
        rw [h2]
        rw [h1] at hinv
        intro o ho
        rw [List.mem_cons] at ho
        rcases ho with rfl | ho
        · simp only [lengths_append, lengths, length, add_zero]
          rw [hinv o1 (by simp)]
        · exact hinv o (by simp [ho])
      | appendFrame id sub =>
        obtain ⟨o1, st, h1, h2⟩ := hm
        rw [h2]
        rw [h1] at hinv
        intro o ho
        rw [List.mem_cons] at ho
        rcases ho with rfl | ho
        · simp only [lengths_append, lengths, length, add_zero]
          rw [hinv o1 (by simp)]
        · exact hinv o (by simp [ho])
      | add e => rw [hm]; exact hinv

/-- C53: the length of the global frame is the sum of the lengths of all component frames appended. -/
theorem global_length (eps : K) (g : Nat) (os : List (Op K)) (m : Model K) (s' : State K)
    (h : (run eps (newModel g) os >>= getModel) = .ok (m, s')) :
    m.globalFrame.len = total (os.flatMap (appended eps)) := by
  rw [← tree_order eps g os m s' h, ← lengths_leaves]
  obtain ⟨s, h1, h2⟩ := built_run eps g os m s' h
  rw [run_micro] at h1
  have := mrun_len _ _ _ (by simp [newModel, lengths]) h1
  exact this m.globalFrame (by rw [(getModel_ok s m s' h2).1]; simp)

/-! ## Indices -/

/-- Component frames appended singly. -/
def msingle : Micro K → List (CFrame K)
  | .leaf f => [f]
  | _ => []

theorem single_micro (eps : K) (o : Op K) : (micro eps o).flatMap msingle = single eps o := by
  cases o with
  | append f d drift =>
    show List.flatMap msingle ((appended eps (Op.append f d drift)).map .leaf) =
      appended eps (Op.append f d drift)
    generalize appended eps (Op.append f d drift) = l
    induction l with
    | nil => rfl
    | cons a l ih => simp only [List.map_cons, List.flatMap_cons, ih]; rfl
  | newFrame id => rfl
  | endFrame => rfl
  | appendFrame id sub => rfl
  | add e => rfl

theorem singleAll_micro (eps : K) (os : List (Op K)) :
    (os.flatMap (micro eps)).flatMap msingle = os.flatMap (single eps) := by
  induction os with
  | nil => rfl
  | cons o os ih => rw [List.flatMap_cons, List.flatMap_append, single_micro, ih, List.flatMap_cons]

/-- Indices stored in the frames and components of `S`. -/
def Indexed (s : State K) (S : List (CFrame K)) : Prop :=
  (∀ f ∈ S, f ∈ s.lattice) ∧ ∀ (i : Nat) (f : CFrame K), s.lattice[i]? = some f → f ∈ S →
    s.frameIdx f.id = i ∧ ∀ c, f.comp = some c → s.compIdx c = i

theorem indexed_append (s s1 : State K) (S l : List (CFrame K)) (h : Indexed s S)
    (hl : s1.lattice = s.lattice ++ l) (hd : ∀ f ∈ l, f ∉ s.lattice)
    (hf : s1.frameIdx = s.frameIdx) (hc : s1.compIdx = s.compIdx) : Indexed s1 S := by
  refine ⟨fun f hfS => by rw [hl]; exact List.mem_append_left _ (h.1 f hfS), ?_⟩
  intro i f hi hfS
  rw [hf, hc]
  refine h.2 i f ?_ hfS
  rw [hl] at hi
  by_cases hlt : i < s.lattice.length
  · rwa [List.getElem?_append_left hlt] at hi
  · rw [List.getElem?_append_right (by omega)] at hi
    exact absurd (h.1 f hfS) (hd f (List.mem_of_getElem? hi))

theorem mrun_index (os : List (Micro K)) : ∀ (s s' : State K) (S : List (CFrame K)),
    ((s.lattice ++ os.flatMap mappended).map (fun f => f.id)).Nodup →
    ((s.lattice ++ os.flatMap mappended).filterMap (fun f => f.comp)).Nodup →
    Indexed s S → mrun s os = .ok s' → Indexed s' (S ++ os.flatMap msingle) := by
  induction os with
  | nil =>
    intro s s' S _ _ hi h
    injection h with h
    rw [← h]
    simpa using hi
  | cons o os ih =>
    intro s s' S hn hk hi h
    simp only [mrun] at h
    cases hs : mstep s o with
    | throw e => rw [hs] at h; cases h
    | ub => rw [hs] at h; cases h
    | ok s1 =>
      rw [hs, Outcome.bind_ok] at h
      have hm := mstep_ok s s1 o hs
      rw [List.flatMap_cons] at hn hk
      rw [List.flatMap_cons]
      cases o with
      | newFrame id => exact ih s1 s' S (by rw [hm]; exact hn) (by rw [hm]; exact hk) (by rw [hm]; exact hi) h
      | endFrame =>
        obtain ⟨o1, o2, st, h1, h2⟩ := hm
        exact ih s1 s' S (by rw [h2]; exact hn) (by rw [h2]; exact hk) (by rw [h2]; exact hi) h
      | add e => exact ih s1 s' S (by rw [hm]; exact hn) (by rw [hm]; exact hk) (by rw [hm]; exact hi) h
      | leaf f =>
        obtain ⟨o1, st, h1, h2⟩ := hm
        have hl : s1.lattice = s.lattice ++ [f] := by rw [h2]
        rw [show S ++ (msingle (Micro.leaf f) ++ os.flatMap msingle) = (S ++ [f]) ++ os.flatMap msingle by
          simp [msingle]]
        have hassoc : s1.lattice ++ os.flatMap mappended =
            s.lattice ++ (mappended (Micro.leaf f) ++ os.flatMap mappended) := by
          rw [hl]; simp [mappended]
        refine ih s1 s' (S ++ [f]) (by rw [hassoc]; exact hn) (by rw [hassoc]; exact hk) ?_ h
        have hnotid : ∀ g ∈ s.lattice, g.id ≠ f.id := by
          intro g hg heq
          rw [List.map_append, List.nodup_append] at hn
          exact hn.2.2 g.id (List.mem_map_of_mem hg) f.id (by simp [mappended]) heq
        have hnotc : ∀ g ∈ s.lattice, ∀ c, g.comp = some c → f.comp ≠ some c := by
          intro g hg c hgc hfc
          rw [List.filterMap_append, List.nodup_append] at hk
          exact hk.2.2 c (List.mem_filterMap.2 ⟨g, hg, hgc⟩) c
            (List.mem_filterMap.2 ⟨f, by simp [mappended], hfc⟩) rfl
        refine ⟨?_, ?_⟩
        · intro g hg
          rw [hl]
          rw [List.mem_append] at hg ⊢
          rcases hg with hg | hg
          · exact Or.inl (hi.1 g hg)
          · exact Or.inr hg
        · intro i g hgi hgS
          rw [hl] at hgi
          by_cases hlt : i < s.lattice.length
          · rw [List.getElem?_append_left hlt] at hgi
            have hgl := List.mem_of_getElem? hgi
            have hne := hnotid g hgl
            have hgS' : g ∈ S := by
              rw [List.mem_append, List.mem_singleton] at hgS
              rcases hgS with hgS | rfl
              · exact hgS
              · exact absurd rfl hne
            obtain ⟨q1, q2⟩ := hi.2 i g hgi hgS'
            rw [h2]
            refine ⟨?_, fun c hc => ?_⟩
            · dsimp only
              rw [if_neg hne]
              exact q1
            · dsimp only
              rw [if_neg (hnotc g hgl c hc)]
              exact q2 c hc
          · rw [List.getElem?_append_right (by omega)] at hgi
            have h0 : i - s.lattice.length = 0 := by
              by_contra hne
              rw [List.getElem?_eq_none (by simp; omega)] at hgi
              cases hgi
            rw [h0] at hgi
            simp only [List.getElem?_cons_zero, Option.some.injEq] at hgi
            subst hgi
            rw [h2]
            refine ⟨?_, fun c hc => ?_⟩
            · dsimp only
              rw [if_pos rfl]
              omega
            · dsimp only
              rw [if_pos hc]
              omega
      | appendFrame id sub =>
        obtain ⟨o1, st, h1, h2⟩ := hm
        have hl : s1.lattice = s.lattice ++ (leavesAll sub).filter (fun f => f.comp.isSome) := by
          rw [h2]
          dsimp only
          rw [(extract_spec _ _ _).1]
          rfl
        have hsub : (s1.lattice ++ os.flatMap mappended).Sublist
            (s.lattice ++ (mappended (Micro.appendFrame id sub) ++ os.flatMap mappended)) := by
          rw [hl, List.append_assoc]
          exact (List.Sublist.refl _).append (List.filter_sublist.append (List.Sublist.refl _))
        refine ih s1 s' S (List.Nodup.sublist (hsub.map _) hn) (List.Nodup.sublist (hsub.filterMap _) hk) ?_ h
        refine indexed_append s s1 S _ hi hl ?_ (by rw [h2]) (by rw [h2])
        intro f hf hfl
        rw [List.map_append, List.nodup_append] at hn
        refine hn.2.2 f.id (List.mem_map_of_mem hfl) f.id (List.mem_map_of_mem ?_) rfl
        exact List.mem_append_left _ (List.mem_of_mem_filter hf)

/-- C53, C57: if no frame and no component is used twice, every component frame that was appended singly,
and its component, know the position of the frame in the lattice.  Missing: frames of ready-made sequences
(`appendFrame_index_violated`) and components used twice (`shared_component_violated`). -/
theorem index_partial (eps : K) (g : Nat) (os : List (Op K)) (m : Model K) (s' : State K)
    (hn : ((os.flatMap (appended eps)).map (fun f => f.id)).Nodup)
    (hk : ((os.flatMap (appended eps)).filterMap (fun f => f.comp)).Nodup)
    (h : (run eps (newModel g) os >>= getModel) = .ok (m, s')) (i : Nat) (f : CFrame K)
    (hi : m.lattice[i]? = some f) (hf : f ∈ os.flatMap (single eps)) :
    m.frameIdx f.id = i ∧ ∀ c, f.comp = some c → m.compIdx c = i := by
  obtain ⟨s, h1, h2⟩ := built_run eps g os m s' h
  obtain ⟨_, g2, _, g4, g5⟩ := getModel_ok s m s' h2
  rw [run_micro] at h1
  have hx := mrun_index _ (newModel g) s [] (by
      rw [appendedAll_micro]; simpa [newModel] using hn) (by
      rw [appendedAll_micro]; simpa [newModel] using hk) ⟨by simp, by simp⟩ h1
  rw [singleAll_micro] at hx
  rw [g4, g5]
  exact hx.2 i f (by rw [← g2]; exact hi) (by simpa using hf)

/-! ## The repository -/

/-- Elements of one single step. -/
def melements : Micro K → List Elem
  | .newFrame id => [.seq id]
  | .endFrame => []
  | .leaf f => members (.leaf f)
  | .appendFrame id sub => members (.seq id sub)
  | .add e => [.other e]

theorem elements_micro (eps : K) (o : Op K) : (micro eps o).flatMap melements = elements eps o := by
  cases o with
  | append f d drift =>
    simp only [micro, elements]
    generalize appended eps (Op.append f d drift) = l
    induction l with
    | nil => rfl
    | cons a l ih => simp only [List.map_cons, List.flatMap_cons, ih, membersAll]; rfl
  | newFrame id => rfl
  | endFrame => rfl
  | appendFrame id sub => simp [micro, melements, elements]
  | add e => rfl

theorem mrun_repo (os : List (Micro K)) : ∀ (s s' : State K), mrun s os = .ok s' →
    (∀ e, e ∈ s'.repo ↔ e ∈ s.repo ∨ e ∈ os.flatMap melements) ∧ (s.repo.Nodup → s'.repo.Nodup) := by
  induction os with
  | nil =>
    intro s s' h
    injection h with h
    rw [h]
    exact ⟨fun e => by simp, id⟩
  | cons o os ih =>
    intro s s' h
    simp only [mrun] at h
    cases hs : mstep s o with
    | throw e => rw [hs] at h; cases h
    | ub => rw [hs] at h; cases h
    | ok s1 =>
      rw [hs, Outcome.bind_ok] at h
      have hm := mstep_ok s s1 o hs
      have hstep : (∀ e, e ∈ s1.repo ↔ e ∈ s.repo ∨ e ∈ melements o) ∧ (s.repo.Nodup → s1.repo.Nodup) := by
        cases o with
        | newFrame id =>
          rw [hm]
          refine ⟨fun e => ?_, (addElem_spec _ _).2⟩
          rw [(addElem_spec _ _).1]
          simp [melements]
        | endFrame =>
          obtain ⟨o1, o2, st, h1, h2⟩ := hm
          rw [h2]
          exact ⟨fun e => by simp [melements], id⟩
        | leaf f =>
          obtain ⟨o1, st, h1, h2⟩ := hm
          rw [h2]
          dsimp only
          cases hc : f.comp with
          | none =>
            refine ⟨fun e => ?_, (addElem_spec _ _).2⟩
            dsimp only
            rw [(addElem_spec _ _).1]
            simp [melements, members, hc]
          | some c =>
            refine ⟨fun e => ?_, fun h => (addElem_spec _ _).2 ((addElem_spec _ _).2 h)⟩
            dsimp only
            rw [(addElem_spec _ _).1, (addElem_spec _ _).1]
            simp [melements, members, hc, or_assoc]
        | appendFrame id sub =>
          obtain ⟨o1, st, h1, h2⟩ := hm
          rw [h2]
          exact (extract_spec _ _ _).2
        | add e =>
          rw [hm]
          refine ⟨fun e => ?_, (addElem_spec _ _).2⟩
          rw [(addElem_spec _ _).1]
          simp [melements]
      obtain ⟨i1, i2⟩ := ih _ _ h
      refine ⟨fun e => ?_, fun h => i2 (hstep.2 h)⟩
      rw [i1, hstep.1, List.flatMap_cons, List.mem_append, or_assoc]

/-- C53: the repository of the model contains exactly the frames, components and elements brought in by
the calls, each once. -/
theorem repository (eps : K) (g : Nat) (os : List (Op K)) (m : Model K) (s' : State K)
    (h : (run eps (newModel g) os >>= getModel) = .ok (m, s')) :
    (∀ e, e ∈ m.repo ↔ ∃ o ∈ os, e ∈ elements eps o) ∧ m.repo.Nodup := by
  obtain ⟨s, h1, h2⟩ := built_run eps g os m s' h
  obtain ⟨_, _, g3, _⟩ := getModel_ok s m s' h2
  rw [run_micro] at h1
  obtain ⟨i1, i2⟩ := mrun_repo _ _ _ h1
  rw [g3]
  refine ⟨fun e => ?_, i2 (by simp [newModel])⟩
  rw [i1]
  have : (os.flatMap (micro eps)).flatMap melements = os.flatMap (elements eps) := by
    clear h h1 i1 i2
    induction os with
    | nil => rfl
    | cons o os ih => rw [List.flatMap_cons, List.flatMap_append, elements_micro, ih, List.flatMap_cons]
  rw [this]
  simp [newModel]

end

/-! ## Examples and violations -/

/-- A line of two magnets with a drift between them on a girder, and a ready-made sequence. -/
def line : List (Op ℚ) :=
  [.newFrame 50, .append ⟨1, some 101, 2⟩ 0 (0, 0), .append ⟨2, some 102, 3⟩ (1 / 2) (11, 111), .endFrame,
    .add 900, .appendFrame 60 [.leaf ⟨3, some 103, 1⟩, .seq 61 [.leaf ⟨4, some 104, 1⟩]],
    .append ⟨5, some 105, 4⟩ 0 (0, 0)]

/-- The hypotheses of the theorems above for `line`. -/
example : ((run (1 / 1000) (newModel 99) line >>= getModel).bind fun r =>
      .ok (r.1.lattice.map (fun f => f.id), r.1.globalFrame.len, r.1.repo.length,
        [1, 11, 2, 5].map r.1.frameIdx, [101, 111, 102, 105].map r.1.compIdx)) =
    .ok ([1, 11, 2, 3, 4, 5], 23 / 2, 16, [0, 1, 2, 5], [0, 1, 2, 5]) ∧
    opened 0 line = some 0 ∧ (∀ o ∈ line, NoEmpty o) ∧
    ((line.flatMap (appended (1 / 1000))).map (fun f => f.id)).Nodup ∧
    ((line.flatMap (appended (1 / 1000))).filterMap (fun f => f.comp)).Nodup := by
  refine ⟨by decide +kernel, by decide +kernel, ?_, by decide +kernel, by decide +kernel⟩
  simp [line, NoEmpty, leavesAll, leaves]

/-- C53 is violated for ready-made sequences: their frames keep the index 0 (the last frame of `line`'s
sequence is at position 4). -/
theorem appendFrame_index_violated :
    ((run (1 / 1000) (newModel 99) line >>= getModel).bind fun r =>
      .ok ((r.1.lattice[4]?.map fun f => f.id), r.1.frameIdx 4, r.1.compIdx 104)) =
    .ok (some 4, 0, 0) := by decide +kernel

/-- C53 is violated for a component used in two frames: it knows the position of the last one only. -/
theorem shared_component_violated :
    ((run (1 / 1000) (newModel 99)
        [.append ⟨1, some 101, (2 : ℚ)⟩ 0 (0, 0), .append ⟨2, some 101, 2⟩ 0 (0, 0)] >>= getModel).bind fun r =>
      .ok (r.1.lattice, r.1.frameIdx 1, r.1.compIdx 101)) =
    .ok ([⟨1, some 101, 2⟩, ⟨2, some 101, 2⟩], 0, 1) := by decide +kernel

/-- C53 is violated for empty component frames in a ready-made sequence: they are left out of the
lattice, though they get into it when appended singly. -/
theorem empty_frame_violated :
    ((run (1 / 1000) (newModel 99)
        [.append ⟨1, none, (2 : ℚ)⟩ 0 (0, 0), .appendFrame 60 [.leaf ⟨2, none, 1⟩, .leaf ⟨3, some 103, 1⟩]] >>=
        getModel).bind fun r => .ok (r.1.lattice.map (fun f => f.id), r.1.globalFrame.len)) =
    .ok ([1, 3], 4) := by decide +kernel

/-- Unbalanced calls: an extra `EndFrame` is undefined, a missing one violates the assertion of
`GetModel`. -/
example : run (1 / 1000 : ℚ) (newModel 99) [.newFrame 1, .endFrame, .endFrame] = .ub :=
  run_legal (1 / 1000 : ℚ) 99 [.newFrame 1, .endFrame, .endFrame]

example : ¬ ∃ r, (run (1 / 1000 : ℚ) (newModel 99) [.newFrame 1] >>= getModel) = .ok r :=
  fun h => by simpa [opened] using (getModel_legal _ _ _).1 h

end Verif.Constructor
