import Mathlib.Algebra.Order.Ring.Rat
import Mathlib.Algebra.Order.BigOperators.Group.List
import Mathlib.Tactic.Ring
import Mathlib.Tactic.Linarith
import Mathlib.Tactic.NormNum
import Verif.StepManager.Spec

/-!
# Properties of the process step manager (C28, C29, C30)
-/

set_option linter.unusedSectionVars false

namespace Verif.StepManager
open Verif Verif.StepManager.Spec

/-! ## C28 -/

section
variable {α : Type}

theorem insertPrio_perm (prio : α → Int) (p : α) (t : List α) :
    (insertPrio prio p t).Perm (t ++ [p]) := by
  induction t with
  | nil => exact List.Perm.refl _
  | cons q t ih =>
    simp only [insertPrio]
    split
    · exact List.Perm.cons q ih
    · exact (List.perm_append_singleton p (q :: t)).symm

theorem insertPrio_filter_ne (prio : α → Int) (p : α) (t : List α) (f : α → Bool) (hf : f p = false) :
    (insertPrio prio p t).filter f = t.filter f := by
  induction t with
  | nil => simp [insertPrio, hf]
  | cons q t ih =>
    simp only [insertPrio]
    split
    · simp only [List.filter_cons, ih]
    · simp only [List.filter_cons, hf, Bool.false_eq_true, if_false]

theorem insertPrio_stable (prio : α → Int) (p : α) (t : List α) (hp : 0 ≤ prio p)
    (hs : (t.filter (fun q => 0 ≤ prio q)).Pairwise (fun p q => prio p ≤ prio q)) :
    (insertPrio prio p t).filter (fun q => prio q = prio p) =
      t.filter (fun q => prio q = prio p) ++ [p] := by
  induction t with
  | nil => simp [insertPrio]
  | cons q t ih =>
    simp only [insertPrio]
    by_cases h0 : 0 ≤ prio q
    · rw [List.filter_cons_of_pos (by simpa using h0), List.pairwise_cons] at hs
      split
      · have := ih hs.2
        by_cases hq : prio q = prio p
        · simp [hq, this]
        · simp [hq, this]
      · rename_i hgt
        have hnone : t.filter (fun r => decide (prio r = prio p)) = [] := by
          rw [List.filter_eq_nil_iff]
          intro r hr
          simp only [decide_eq_true_eq]
          intro hrp
          have := hs.1 r (List.mem_filter.2 ⟨hr, by simpa [hrp] using hp⟩)
          omega
        have hq : ¬ prio q = prio p := by omega
        simp [hq, hnone]
    · rw [List.filter_cons_of_neg (by simpa using h0)] at hs
      have hle : prio q ≤ prio p := by omega
      have hq : ¬ prio q = prio p := by omega
      rw [if_pos hle]
      simp [hq, ih hs]

theorem insertPrio_sorted (prio : α → Int) (p : α) (t : List α) (hp : 0 ≤ prio p)
    (hs : (t.filter (fun q => 0 ≤ prio q)).Pairwise (fun p q => prio p ≤ prio q)) :
    ((insertPrio prio p t).filter (fun q => 0 ≤ prio q)).Pairwise (fun p q => prio p ≤ prio q) := by
  induction t with
  | nil => simp [insertPrio, hp]
  | cons q t ih =>
    simp only [insertPrio]
    by_cases h0 : 0 ≤ prio q
    · have hs' := hs
      rw [List.filter_cons_of_pos (by simpa using h0), List.pairwise_cons] at hs
      split
      · rename_i hle
        rw [List.filter_cons_of_pos (by simpa using h0), List.pairwise_cons]
        refine ⟨?_, ih hs.2⟩
        intro r hr
        rw [List.mem_filter] at hr
        have hmem := (insertPrio_perm prio p t).mem_iff.1 hr.1
        rw [List.mem_append, List.mem_singleton] at hmem
        rcases hmem with hmem | rfl
        · exact hs.1 r (List.mem_filter.2 ⟨hmem, hr.2⟩)
        · exact hle
      · rename_i hgt
        rw [List.filter_cons_of_pos (by simpa using hp), List.pairwise_cons]
        refine ⟨?_, hs'⟩
        intro r hr
        rw [List.filter_cons_of_pos (by simpa using h0), List.mem_cons] at hr
        rcases hr with rfl | hr
        · omega
        · have := hs.1 r hr
          omega
    · rw [List.filter_cons_of_neg (by simpa using h0)] at hs
      have hle : prio q ≤ prio p := by omega
      rw [if_pos hle, List.filter_cons_of_neg (by simpa using h0)]
      exact ih hs

theorem addProcess_ordered (prio : α → Int) (reg t : List α) (p : α) (h : Ordered prio reg t) :
    Ordered prio (reg ++ [p]) (addProcess prio t p) := by
  obtain ⟨h1, h2, h3⟩ := h
  simp only [addProcess]
  split
  · rename_i hneg
    have hn : ¬ 0 ≤ prio p := by omega
    refine ⟨h1.append_right _, ?_, ?_⟩
    · rw [List.filter_append, List.filter_cons_of_neg (by simpa using hneg)]
      simpa using h2
    · intro k hk
      rw [List.filter_append, List.filter_append, h3 k hk]
  · rename_i hneg
    have hp : 0 ≤ prio p := by omega
    refine ⟨(insertPrio_perm prio p t).trans (h1.append_right _), insertPrio_sorted prio p t hp h2, ?_⟩
    intro k hk
    by_cases hkp : prio p = k
    · subst hkp
      rw [insertPrio_stable prio p t hp h2, h3 _ hk, List.filter_append]
      simp
    · rw [insertPrio_filter_ne prio p t _ (by simpa using hkp), h3 k hk, List.filter_append]
      simp [hkp]

theorem erase_filter [DecidableEq α] (f : α → Bool) (p : α) (l : List α) :
    (l.erase p).filter f = if f p then (l.filter f).erase p else l.filter f := by
  induction l with
  | nil => simp
  | cons q l ih =>
    by_cases hqp : q = p
    · subst hqp
      by_cases hf : f q = true
      · simp [hf]
      · simp [hf]
    · rw [List.erase_cons_tail (by simpa using hqp), List.filter_cons, List.filter_cons, ih]
      by_cases hf : f p = true
      · by_cases hq : f q = true
        · simp only [hf, hq, if_true]
          rw [List.erase_cons_tail (by simpa using hqp)]
        · simp [hf, hq]
      · simp [hf]

theorem findErase_mem [DecidableEq α] (p : α) (t : List α) (h : p ∈ t) :
    ∃ l r, t = l ++ p :: r ∧ p ∉ l ∧ findErase p t = some (l ++ r, r) := by
  induction t with
  | nil => simp at h
  | cons q t ih =>
    simp only [findErase]
    by_cases hqp : q = p
    · exact ⟨[], t, by simp [hqp], by simp, by simp [hqp]⟩
    · obtain ⟨l, r, h1, h2, h3⟩ := ih (by
        rcases List.mem_cons.1 h with h | h
        · exact absurd h.symm hqp
        · exact h)
      refine ⟨q :: l, r, by simp [h1], ?_, ?_⟩
      · rw [List.mem_cons, not_or]
        exact ⟨fun hc => hqp hc.symm, h2⟩
      · simp [hqp, h3]

theorem findErase_not_mem [DecidableEq α] (p : α) (t : List α) (h : p ∉ t) : findErase p t = none := by
  induction t with
  | nil => rfl
  | cons q t ih =>
    rw [List.mem_cons, not_or] at h
    have hqp : ¬ q = p := fun hc => h.1 hc.symm
    simp [findErase, hqp, ih h.2]

theorem remove_erase [DecidableEq α] (p : α) (t : List α) (h : p ∈ t) :
    ∃ b, removeProcess t p = .ok (t.erase p, b) := by
  obtain ⟨l, r, h1, h2, h3⟩ := findErase_mem p t h
  refine ⟨!r.isEmpty, ?_⟩
  simp only [removeProcess, h3]
  rw [h1, List.erase_append_right _ h2, List.erase_cons_head]

theorem remove_ordered [DecidableEq α] (prio : α → Int) (reg t : List α) (p : α)
    (h : Ordered prio reg t) : Ordered prio (reg.erase p) (t.erase p) := by
  obtain ⟨h1, h2, h3⟩ := h
  refine ⟨h1.erase p, ?_, ?_⟩
  · rw [erase_filter]
    split
    · exact h2.sublist List.erase_sublist
    · exact h2
  · intro k hk
    rw [erase_filter, erase_filter, h3 k hk]

/-- C28: after any calls that add processes, remove registered ones or clear the table, the processes
are in the right order. -/
theorem table_ordered [DecidableEq α] (prio : α → Int) (os : List (TableOp α)) (h : NoAbsent os) :
    ∃ t, tableRun prio [] os = .ok t ∧ Ordered prio (registered os) t := by
  have key : ∀ (done os : List (TableOp α)) (t : List α), NoAbsent (done ++ os) →
      Ordered prio (registered done) t →
      ∃ t', tableRun prio t os = .ok t' ∧ Ordered prio (registered (done ++ os)) t' := by
    intro done os
    induction os generalizing done with
    | nil => intro t _ ht; exact ⟨t, rfl, by simpa using ht⟩
    | cons o os ih =>
      intro t hn ht
      have hreg : registered (done ++ [o]) = (match o with
          | .add p => registered done ++ [p]
          | .remove p => (registered done).erase p
          | .clear => []) := by
        cases o <;> simp [registered, List.foldl_append]
      obtain ⟨t1, e1, o1⟩ : ∃ t1, tableStep prio t o = .ok t1 ∧
          Ordered prio (registered (done ++ [o])) t1 := by
        rw [hreg]
        cases o with
        | add p => exact ⟨_, rfl, addProcess_ordered prio _ t p ht⟩
        | remove p =>
          have hp : p ∈ registered done := hn done p os rfl
          obtain ⟨b, hb⟩ := remove_erase p t (ht.perm.mem_iff.2 hp)
          refine ⟨t.erase p, ?_, remove_ordered prio _ t p ht⟩
          simp only [tableStep, hb, Outcome.bind_ok, Outcome.pure_eq]
        | clear => exact ⟨[], rfl, ⟨List.Perm.refl _, by simp, by simp⟩⟩
      have := ih (done ++ [o]) t1 (by simpa using hn) o1
      obtain ⟨t', e2, o2⟩ := this
      refine ⟨t', ?_, by simpa using o2⟩
      simp only [tableRun, e1, Outcome.bind_ok]
      exact e2
  have := key [] os [] (by simpa using h) ⟨List.Perm.refl _, by simp, by simp [registered]⟩
  simpa using this

/-- The table of an example with priorities = last digit of the name: ties, a negative priority and a
removal. -/
example : tableRun (fun p : Nat => if p = 100 then -1 else (p % 10 : Int)) []
    [.add 12, .add 100, .add 11, .add 22, .add 10, .remove 12, .add 32] = .ok [10, 11, 100, 22, 32] := by
  decide +kernel

example : NoAbsent [TableOp.add 12, .add 100, .remove 12] := by
  intro pre p post h
  rcases pre with _ | ⟨a, _ | ⟨b, _ | ⟨c, pre⟩⟩⟩
  · simp at h
  · simp at h
  · simp only [List.cons_append, List.nil_append, List.cons.injEq, TableOp.remove.injEq] at h
    obtain ⟨rfl, rfl, rfl, rfl⟩ := h
    decide
  · simp at h

/-! ## C29 -/

/-- C29 (partial): a registered process is removed, and only this one.  Missing: the returned value is
right only if the process was not the last one, and unregistered processes, see the two theorems
below. -/
theorem remove_partial [DecidableEq α] (t : List α) (p : α) (h : p ∈ t) :
    ∃ l r b, t = l ++ p :: r ∧ p ∉ l ∧ removeProcess t p = .ok (l ++ r, b) ∧
      (b = true ↔ r ≠ []) := by
  obtain ⟨l, r, h1, h2, h3⟩ := findErase_mem p t h
  refine ⟨l, r, !r.isEmpty, h1, h2, by simp [removeProcess, h3], ?_⟩
  cases r <;> simp

/-- C29 does not hold: for the last process of the table "not present" is returned, although it was
removed. -/
theorem remove_last_violated [DecidableEq α] (t : List α) (p : α) (h : p ∉ t) :
    removeProcess (t ++ [p]) p = .ok (t, false) := by
  obtain ⟨l, r, b, h1, h2, h3, h4⟩ := remove_partial (t ++ [p]) p (by simp)
  have hr : r = [] := by
    by_contra hr
    have : p ∈ t := by
      have h5 : (t ++ [p]).dropLast = (l ++ p :: r).dropLast := by rw [h1]
      rw [List.dropLast_concat, List.dropLast_append_of_ne_nil (by simp)] at h5
      rw [h5, List.dropLast_cons_of_ne_nil hr]
      simp
    exact h this
  subst hr
  have hl : t = l := by
    have := List.append_inj' h1 (by simp)
    exact this.1
  have hb : b = false := by
    cases b with
    | false => rfl
    | true => exact absurd rfl (h4.1 rfl)
  rw [h3, hb, hl]
  simp

/-- C29 does not hold: removing a process that is not registered erases the end iterator. -/
theorem remove_absent_violated [DecidableEq α] (t : List α) (p : α) (h : p ∉ t) :
    removeProcess t p = .ub := by
  simp [removeProcess, findErase_not_mem p t h]

example : removeProcess [1, 2, 3] 2 = .ok ([1, 3], true) ∧ removeProcess [1, 2, 3] 3 = .ok ([1, 2], false) ∧
    removeProcess [1, 2, 3] 4 = .ub := by decide

end

/-! ## C30 -/

section
variable {σ B C K : Type} [Field K] [LinearOrder K] [IsStrictOrderedRing K]

theorem calcStep_spec (V : Virtual σ B C K) (smax : K) (ps : List σ) :
    calcStep V smax ps ≤ smax ∧ (∀ p ∈ ps, V.active p = true → calcStep V smax ps ≤ V.maxStep p) ∧
    (calcStep V smax ps = smax ∨ ∃ p ∈ ps, V.active p = true ∧ calcStep V smax ps = V.maxStep p) := by
  induction ps generalizing smax with
  | nil => simp [calcStep]
  | cons p ps ih =>
    have hc : calcStep V smax (p :: ps) =
        calcStep V (if V.active p then min smax (V.maxStep p) else smax) ps := rfl
    rw [hc]
    obtain ⟨h1, h2, h3⟩ := ih (if V.active p then min smax (V.maxStep p) else smax)
    by_cases hp : V.active p = true
    · rw [if_pos hp] at h1 h2 h3 ⊢
      refine ⟨h1.trans (min_le_left _ _), ?_, ?_⟩
      · intro q hq hqa
        rcases List.mem_cons.1 hq with rfl | hq
        · exact h1.trans (min_le_right _ _)
        · exact h2 q hq hqa
      · rcases h3 with h3 | ⟨q, hq, hqa, he⟩
        · rcases min_choice smax (V.maxStep p) with hm | hm
          · left; rw [h3, hm]
          · right; exact ⟨p, by simp, hp, by rw [h3, hm]⟩
        · right; exact ⟨q, List.mem_cons_of_mem _ hq, hqa, he⟩
    · rw [if_neg hp] at h1 h2 h3 ⊢
      refine ⟨h1, ?_, ?_⟩
      · intro q hq hqa
        rcases List.mem_cons.1 hq with rfl | hq
        · exact absurd hqa hp
        · exact h2 q hq hqa
      · rcases h3 with h3 | ⟨q, hq, hqa, he⟩
        · exact Or.inl h3
        · right; exact ⟨q, List.mem_cons_of_mem _ hq, hqa, he⟩

theorem doProcs_visit (V : Virtual σ B C K) (ds : K) (b : B) (ps : List σ) :
    Visit V ds b ps (doProcs V ds b ps).1 (doProcs V ds b ps).2 := by
  induction ps generalizing b with
  | nil => exact Visit.nil b
  | cons p ps ih =>
    by_cases hp : V.active p = true
    · simp only [doProcs, hp, if_true]
      exact Visit.act b _ p ps _ hp (ih _)
    · have hp' : V.active p = false := by simpa using hp
      simp only [doProcs, hp', Bool.false_eq_true, if_false]
      exact Visit.idle b _ p ps _ hp' (ih _)

/-- The lengths of steps. -/
def lengths (l : List (Step σ K)) : List K := l.map Step.ds

theorem loop_spec (V : Virtual σ B C K) (eps sc : K) (n : Nat) (s : K) (b b' : B)
    (ps ps' : List σ) (l : List (Step σ K)) (h : loop V eps sc n s b ps = some (b', ps', l)) :
    l ≠ [] ∧ s + (lengths l).sum ≤ sc ∧ sc - (s + (lengths l).sum) ≤ eps ∧
    (∀ st ∈ l, ∀ p ∈ st.procs, V.active p = true → st.ds ≤ V.maxStep p) ∧
    Visits V b ps l b' ps' := by
  induction n generalizing s b ps l with
  | zero => simp [loop] at h
  | succ n ih =>
    simp only [loop] at h
    obtain ⟨c1, c2, c3⟩ := calcStep_spec V (sc - s) ps
    have hv := doProcs_visit V (calcStep V (sc - s) ps) b ps
    split at h
    · rename_i hf
      simp only [Option.some.injEq, Prod.mk.injEq] at h
      obtain ⟨rfl, rfl, rfl⟩ := h
      simp only [fequal, decide_eq_true_eq] at hf
      have := (abs_le.1 hf).2
      refine ⟨by simp, ?_, ?_, ?_, Visits.cons _ _ _ _ _ _ _ _ hv (Visits.nil _ _)⟩
      · simp only [lengths, List.map_cons, List.map_nil, List.sum_cons, List.sum_nil, add_zero]
        linarith
      · simpa [lengths] using this
      · intro st hst p hp hpa
        rw [List.mem_singleton] at hst
        subst hst
        exact c2 p hp hpa
    · split at h
      · rename_i b2 ps2 l2 hl
        simp only [Option.some.injEq, Prod.mk.injEq] at h
        obtain ⟨rfl, rfl, rfl⟩ := h
        obtain ⟨i1, i2, i3, i4, i5⟩ := ih _ _ _ _ hl
        have he : s + (lengths (⟨ps, calcStep V (sc - s) ps⟩ :: l2)).sum =
            s + calcStep V (sc - s) ps + (lengths l2).sum := by
          simp only [lengths, List.map_cons, List.sum_cons]
          ring
        refine ⟨by simp, by rw [he]; exact i2, by rw [he]; exact i3, ?_,
          Visits.cons _ _ _ _ _ _ _ _ hv i5⟩
        intro st hst p hp hpa
        rcases List.mem_cons.1 hst with rfl | hst
        · exact c2 p hp hpa
        · exact i4 st hst p hp hpa
      · cases h

/-- C30: when tracking of a component ends, at least one step was taken, the steps add up to the
length of the component up to the tolerance and never exceed it, no step was longer than the limit
of any process active when it was chosen, and all processes saw the steps in order. -/
theorem track_steps (V : Virtual σ B C K) (eps : K) (n : Nat) (m m' : Manager σ B K) (c : C)
    (l : List (Step σ K)) (h : track V eps n m c = some (m', l)) :
    l ≠ [] ∧ (lengths l).sum ≤ V.length c ∧ V.length c - (lengths l).sum ≤ eps ∧
    (∀ st ∈ l, ∀ p ∈ st.procs, V.active p = true → st.ds ≤ V.maxStep p) ∧
    Visits V m.bunch (m.procs.map (V.setComponent c m.bunch)) l m'.bunch m'.procs := by
  simp only [track] at h
  split at h
  · rename_i b ps l2 hl
    simp only [Option.some.injEq, Prod.mk.injEq] at h
    obtain ⟨rfl, rfl⟩ := h
    obtain ⟨h1, h2, h3, h4, h5⟩ := loop_spec V eps _ n 0 _ _ _ _ _ hl
    rw [zero_add] at h2 h3
    exact ⟨h1, h2, h3, h4, h5⟩
  · cases h

/-- C30: with no tolerance the steps add up exactly. -/
theorem track_exact (V : Virtual σ B C K) (n : Nat) (m m' : Manager σ B K) (c : C)
    (l : List (Step σ K)) (h : track V 0 n m c = some (m', l)) :
    (lengths l).sum = V.length c := by
  obtain ⟨_, h2, h3, _, _⟩ := track_steps V 0 n m m' c l h
  linarith

theorem visit_get (V : Virtual σ B C K) (ds : K) (b b' : B) (ps ps' : List σ)
    (h : Visit V ds b ps b' ps') (i : Nat) (p : σ) (hp : ps[i]? = some p) :
    if V.active p then ∃ bi, ps'[i]? = some (V.doProcess ds bi p).2 else ps'[i]? = some p := by
  induction h generalizing i with
  | nil b => simp at hp
  | act b b2 q ps ps2 hq t ih =>
    cases i with
    | zero =>
      simp only [List.getElem?_cons_zero, Option.some.injEq] at hp
      subst hp
      rw [if_pos hq]
      exact ⟨b, rfl⟩
    | succ i =>
      simp only [List.getElem?_cons_succ] at hp ⊢
      exact ih i hp
  | idle b b2 q ps ps2 hq t ih =>
    cases i with
    | zero =>
      simp only [List.getElem?_cons_zero, Option.some.injEq] at hp
      subst hp
      rw [if_neg (by simp [hq])]
      rfl
    | succ i =>
      simp only [List.getElem?_cons_succ] at hp ⊢
      exact ih i hp

theorem visits_path (V : Virtual σ B C K) (f : σ → K)
    (hf : ∀ ds b p, f (V.doProcess ds b p).2 = f p + ds) (b b' : B) (ps ps' : List σ)
    (l : List (Step σ K)) (h : Visits V b ps l b' ps') (i : Nat) (p : σ) (hp : ps[i]? = some p)
    (hact : ∀ st ∈ l, ∀ q, st.procs[i]? = some q → V.active q = true) :
    ∃ p', ps'[i]? = some p' ∧ f p' = f p + (lengths l).sum := by
  induction h generalizing p with
  | nil b ps => exact ⟨p, hp, by simp [lengths]⟩
  | cons b b1 b2 ps ps1 ps2 ds l hv _ ih =>
    have ha := hact ⟨ps, ds⟩ (by simp) p hp
    have hg := visit_get V ds b b1 ps ps1 hv i p hp
    rw [if_pos ha] at hg
    obtain ⟨bi, hg⟩ := hg
    obtain ⟨p', h1, h2⟩ := ih _ hg (fun st hst => hact st (List.mem_cons_of_mem _ hst))
    refine ⟨p', h1, ?_⟩
    rw [h2, hf]
    simp only [lengths, List.map_cons, List.sum_cons]
    ring

/-- C30: a process that is active during the whole component sees steps that add up to the length of
the component: whatever it accumulates (`f`) grows by the length up to the tolerance. -/
theorem track_seen (V : Virtual σ B C K) (eps : K) (n : Nat) (m m' : Manager σ B K) (c : C)
    (l : List (Step σ K)) (h : track V eps n m c = some (m', l)) (f : σ → K)
    (hf : ∀ ds b p, f (V.doProcess ds b p).2 = f p + ds) (i : Nat) (p : σ)
    (hp : m.procs[i]? = some p)
    (hact : ∀ st ∈ l, ∀ q, st.procs[i]? = some q → V.active q = true) :
    ∃ p', m'.procs[i]? = some p' ∧
      f p' ≤ f (V.setComponent c m.bunch p) + V.length c ∧
      f (V.setComponent c m.bunch p) + V.length c - eps ≤ f p' := by
  obtain ⟨_, h2, h3, _, h5⟩ := track_steps V eps n m m' c l h
  obtain ⟨p', e1, e2⟩ := visits_path V f hf _ _ _ _ l h5 i (V.setComponent c m.bunch p)
    (by rw [List.getElem?_map, hp]; rfl) hact
  exact ⟨p', e1, by rw [e2]; linarith, by rw [e2]; linarith⟩

/-- C30, the integrated length: it is the sum of the lengths of the components tracked since
`Initialise`. -/
theorem integrated_length (V : Virtual σ B C K) (eps : K) (n : Nat) (m : Manager σ B K) (b : B)
    (cs : List C) (m' : Manager σ B K) (h : trackAll V eps n (initialise V m b) cs = some m') :
    m'.total = (cs.map V.length).sum := by
  have key : ∀ (cs : List C) (m m' : Manager σ B K), trackAll V eps n m cs = some m' →
      m'.total = m.total + (cs.map V.length).sum := by
    intro cs
    induction cs with
    | nil =>
      intro m m' h
      simp only [trackAll, Option.some.injEq] at h
      subst h
      simp
    | cons c cs ih =>
      intro m m' h
      simp only [trackAll] at h
      split at h
      · rename_i m1 l1 h1
        rw [ih _ _ h]
        simp only [track] at h1
        split at h1
        · simp only [Option.some.injEq, Prod.mk.injEq] at h1
          rw [← h1.1]
          simp only [List.map_cons, List.sum_cons]
          ring
        · cases h1
      · cases h
  rw [key cs _ m' h]
  simp [initialise]

/-- C30: tracking ends: when active processes always allow a step of at least `δ > 0`, a component of
length at most `n δ` takes at most `n + 1` steps. -/
theorem loop_ends (V : Virtual σ B C K) (eps sc δ : K) (heps : 0 ≤ eps) (hδ : 0 < δ)
    (hlim : ∀ p, V.active p = true → δ ≤ V.maxStep p) (n : Nat) (s : K) (b : B) (ps : List σ)
    (hn : sc - s ≤ n * δ) : ∃ r, loop V eps sc (n + 1) s b ps = some r := by
  induction n generalizing s b ps with
  | zero =>
    simp only [loop]
    have hle : sc - s ≤ 0 := by simpa using hn
    have hc : calcStep V (sc - s) ps = sc - s := by
      obtain ⟨_, _, c3⟩ := calcStep_spec V (sc - s) ps
      obtain ⟨c1, _, _⟩ := calcStep_spec V (sc - s) ps
      rcases c3 with c3 | ⟨p, _, hpa, c3⟩
      · exact c3
      · have := hlim p hpa
        linarith
    have hf : fequal eps sc (s + calcStep V (sc - s) ps) = true := by
      simp only [fequal, hc, decide_eq_true_eq]
      rw [show sc - (s + (sc - s)) = 0 by ring, abs_zero]
      exact heps
    rw [hf]
    exact ⟨_, rfl⟩
  | succ n ih =>
    rw [loop]
    by_cases hf : fequal eps sc (s + calcStep V (sc - s) ps) = true
    · rw [if_pos hf]
      exact ⟨_, rfl⟩
    · rw [if_neg hf]
      have hge : δ ≤ calcStep V (sc - s) ps := by
        obtain ⟨_, _, c3⟩ := calcStep_spec V (sc - s) ps
        rcases c3 with c3 | ⟨p, _, hpa, c3⟩
        · exfalso
          apply hf
          simp only [fequal, c3, decide_eq_true_eq]
          rw [show sc - (s + (sc - s)) = 0 by ring, abs_zero]
          exact heps
        · rw [c3]
          exact hlim p hpa
      obtain ⟨r, hr⟩ := ih (s + calcStep V (sc - s) ps) (doProcs V (calcStep V (sc - s) ps) b ps).1
        (doProcs V (calcStep V (sc - s) ps) b ps).2 (by push_cast at hn; linarith)
      obtain ⟨b2, ps2, l2⟩ := r
      rw [hr]
      exact ⟨_, rfl⟩

/-- C30: limits have to be positive: with a process whose limit is and stays zero, tracking never
ends. -/
theorem zero_limit_hangs (V : Virtual σ B C K) (eps sc : K) (heps : 0 ≤ eps) (hsc : eps < sc) (p : σ)
    (hact : V.active p = true) (hz : V.maxStep p = 0) (hstay : ∀ ds b, (V.doProcess ds b p).2 = p)
    (n : Nat) (b : B) : loop V eps sc n 0 b [p] = none := by
  induction n generalizing b with
  | zero => rfl
  | succ n ih =>
    have hc : calcStep V (sc - 0) [p] = 0 := by
      simp only [calcStep, List.foldl_cons, List.foldl_nil, hact, if_true, hz]
      apply min_eq_right
      linarith
    have hf : fequal eps sc (0 + calcStep V (sc - 0) [p]) = false := by
      simp only [fequal, hc, decide_eq_false_iff_not, not_le]
      rw [add_zero, sub_zero, abs_of_pos (by linarith)]
      exact hsc
    have hd : (doProcs V (calcStep V (sc - 0) [p]) b [p]).2 = [p] := by
      simp [doProcs, hact, hstay]
    rw [loop]
    simp only [hf, Bool.false_eq_true, if_false]
    rw [hd, hc, add_zero, ih]

end

/-- Processes with fixed limits that sum up their steps: state (limit, sum). -/
def fixedLimits : Virtual (ℚ × ℚ) (List ℚ) ℚ ℚ where
  initialise _ p := p
  setComponent _ _ p := (p.1, 0)
  active p := decide (0 < p.1)
  maxStep p := p.1
  doProcess ds b p := (b ++ [ds], (p.1, p.2 + ds))
  length c := c

example : ((track fixedLimits 0 10 ⟨0, [(2, 0), (3/2, 7), (0, 9)], []⟩ 4).map
    (fun r => (r.1.procs, lengths r.2, r.1.total))) =
    some ([(2, 4), (3/2, 4), (0, 0)], [3/2, 3/2, 1], 4) := by decide +kernel

example : ∀ p, fixedLimits.active p = true → (0 : ℚ) < fixedLimits.maxStep p := by
  intro p hp
  simpa [fixedLimits] using hp

#print axioms table_ordered
#print axioms remove_partial
#print axioms remove_last_violated
#print axioms remove_absent_violated
#print axioms track_steps
#print axioms track_exact
#print axioms track_seen
#print axioms integrated_length
#print axioms loop_ends
#print axioms zero_limit_hangs

end Verif.StepManager
