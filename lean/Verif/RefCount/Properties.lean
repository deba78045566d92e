import Verif.RefCount.Model

/-!
# Reference counts of rotations (C59)
-/

namespace Verif.RefCount
open Verif

/-- A handle that exists and has not been destroyed. -/
def Live (s : State) (h : Nat) : Prop := ∃ r, s.handles[h]? = some (some r)

/-- The program only uses live handles. -/
def Op.Legal (s : State) : Op → Prop
  | .create => True
  | .copy h => Live s h
  | .destroy h => Live s h
  | .assign h g => Live s h ∧ Live s g
  | .apply h g _ => Live s h ∧ Live s g

/-- A program whose every operation only uses handles that are live at that time. -/
def LegalRun (s : State) : List Op → Prop
  | [] => True
  | op :: ops => op.Legal s ∧ ∀ s1, step s op = .ok s1 → LegalRun s1 ops

/-- Number of live handles on a representation. -/
def users (s : State) (r : Nat) : Nat := s.handles.count (some r)

/-- What the heap should contain for a representation with `n` users: nothing if there are none. -/
def cell : Nat → Option Nat
  | 0 => none
  | n + 1 => some (n + 1)

/-- The counters are exact: a representation exists if and only if some handle uses it, and its counter is
the number of those handles. -/
structure Exact (s : State) : Prop where
  count : ∀ r, s.heap r = cell (users s r)
  fresh : ∀ r, s.next ≤ r → users s r = 0

theorem cell_pos {n : Nat} (h : n ≠ 0) : cell n = some n := by
  cases n with
  | zero => exact absurd rfl h
  | succ n => rfl

theorem count_set {l : List (Option Nat)} {h r : Nat} (hr : l[h]? = some (some r))
    (v : Option Nat) (q : Nat) :
    (l.set h v).count (some q) + (if r = q then 1 else 0) =
      l.count (some q) + (if v = some q then 1 else 0) := by
  induction l generalizing h with
  | nil => simp at hr
  | cons a l ih =>
    cases h with
    | zero =>
      simp only [List.getElem?_cons_zero, Option.some.injEq] at hr
      subst hr
      simp only [List.set_cons_zero, List.count_cons, beq_iff_eq, Option.some.injEq]
      omega
    | succ h =>
      simp only [List.getElem?_cons_succ] at hr
      have := ih hr
      simp only [List.set_cons_succ, List.count_cons]
      omega

theorem count_pos {l : List (Option Nat)} {h r : Nat} (hr : l[h]? = some (some r)) :
    0 < l.count (some r) := List.count_pos_iff.2 (List.mem_of_getElem? hr)

theorem users_append (hd : Nat → Option Nat) (n : Nat) (l : List (Option Nat)) (r q : Nat) :
    users ⟨hd, n, l ++ [some r]⟩ q = l.count (some q) + if r = q then 1 else 0 := by
  simp [users, List.count_append, List.count_singleton]

theorem newHandle_exact {s : State} {r : Nat} (hs : Exact s) (hu : users s r ≠ 0) :
    ∃ s1, s.newHandle r = .ok s1 ∧ Exact s1 := by
  have hc := hs.count r
  rw [cell_pos hu] at hc
  refine ⟨⟨fun i => if i = r then some (users s r + 1) else s.heap i, s.next,
    s.handles ++ [some r]⟩, by simp [State.newHandle, State.incr, hc, State.set], ⟨?_, ?_⟩⟩
  · intro q
    rw [users_append]
    by_cases hq : q = r
    · subst hq; simp [cell, users]
    · simp [hq, Ne.symm hq, hs.count q, users]
  · intro q hq
    have := hs.fresh q hq
    have hne : r ≠ q := by rintro rfl; exact hu this
    rw [users_append, if_neg hne]
    exact this

theorem create_exact {s : State} (hs : Exact s) :
    ∃ s1, s.alloc.1.newHandle s.alloc.2 = .ok s1 ∧ Exact s1 := by
  refine ⟨⟨fun i => if i = s.next then some 1 else s.heap i, s.next + 1,
    s.handles ++ [some s.next]⟩, ?_, ⟨?_, ?_⟩⟩
  · simp only [State.alloc, State.newHandle, State.incr, State.set, if_true, Outcome.bind_ok]
    congr 2
    funext i
    by_cases hi : i = s.next <;> simp [hi]
  · intro q
    rw [users_append]
    have hf := hs.fresh s.next (Nat.le_refl _)
    by_cases hq : q = s.next
    · subst hq; simp only [users] at hf; simp [hf, cell]
    · simp [hq, Ne.symm hq, hs.count q, users]
  · intro q hq
    simp only at hq
    rw [users_append, if_neg (by omega)]
    exact hs.fresh q (by omega)

theorem repOf_eq {s : State} {h r : Nat} (hr : s.handles[h]? = some (some r)) :
    s.repOf h = .ok r := by simp [State.repOf, hr]

theorem decr_eq {s : State} (hs : Exact s) {h r : Nat} (hr : s.handles[h]? = some (some r)) :
    s.decr r = .ok (s.set r (cell (users s r - 1))) := by
  have hp : 0 < users s r := count_pos hr
  have hc := hs.count r
  obtain ⟨n, hn⟩ : ∃ n, users s r = n + 1 := ⟨users s r - 1, by omega⟩
  unfold State.decr
  rw [hc, hn]
  simp only [Nat.add_sub_cancel, cell]
  cases n <;> simp

/-- One operation of a legal program succeeds and keeps the counters exact. -/
theorem step_exact {s : State} (hs : Exact s) (op : Op) (hl : op.Legal s) :
    ∃ s1, step s op = .ok s1 ∧ Exact s1 := by
  cases op with
  | create =>
    exact create_exact hs
  | copy h =>
    obtain ⟨r, hr⟩ := hl
    obtain ⟨s1, h1, h2⟩ := newHandle_exact hs (r := r) (by have := count_pos hr; unfold users; omega)
    exact ⟨s1, by simp only [step, repOf_eq hr, Outcome.bind_ok, h1], h2⟩
  | destroy h =>
    obtain ⟨r, hr⟩ := hl
    refine ⟨⟨fun i => if i = r then cell (users s r - 1) else s.heap i, s.next,
      s.handles.set h none⟩, by simp [step, repOf_eq hr, decr_eq hs hr, State.set], ⟨?_, ?_⟩⟩
    · intro q
      have h1 := count_set hr none q
      simp only [reduceCtorEq, if_false, Nat.add_zero] at h1
      by_cases hq : q = r
      · subst hq
        simp only [if_true] at h1 ⊢
        congr 1
        simp only [users]; omega
      · simp only [if_neg hq]
        rw [if_neg (Ne.symm hq)] at h1
        rw [hs.count q]
        congr 1
        simp only [users]; omega
    · intro q hq
      have h1 := count_set hr none q
      have := hs.fresh q hq
      simp only [users, reduceCtorEq, if_false] at this h1 ⊢
      omega
  | assign h g =>
    obtain ⟨⟨r, hr⟩, ⟨q, hq⟩⟩ := hl
    by_cases hrq : r = q
    · subst hrq
      exact ⟨s, by simp [step, repOf_eq hr, repOf_eq hq], hs⟩
    · have hcq := hs.count q
      have hpq : 0 < users s q := count_pos hq
      rw [cell_pos (by omega)] at hcq
      refine ⟨⟨fun i => if i = q then some (users s q + 1) else
        if i = r then cell (users s r - 1) else s.heap i, s.next, s.handles.set h (some q)⟩, by
        simp [step, repOf_eq hr, repOf_eq hq, decr_eq hs hr, hrq,
          State.incr, State.set, Ne.symm hrq, hcq], ⟨?_, ?_⟩⟩
      · intro t
        have h1 := count_set hr (some q) t
        simp only [Option.some.injEq] at h1
        by_cases ht : t = q
        · subst ht
          rw [if_neg hrq] at h1
          simp only [if_true] at h1 ⊢
          rw [show users s t + 1 = (s.handles.set h (some t)).count (some t) by
            simp only [users]; omega]
          exact (cell_pos (by simp only [users] at hpq; omega)).symm
        · simp only [if_neg ht]
          rw [if_neg (Ne.symm ht)] at h1
          by_cases htr : t = r
          · subst htr
            simp only [if_true] at h1 ⊢
            congr 1
            simp only [users]; omega
          · simp only [if_neg htr]
            rw [if_neg (Ne.symm htr)] at h1
            rw [hs.count t]
            congr 1
            simp only [users]; omega
      · intro t ht
        have h1 := count_set hr (some q) t
        have hf := hs.fresh t ht
        have hne : q ≠ t := by rintro rfl; omega
        simp only [users, Option.some.injEq, if_neg hne] at h1 hf ⊢
        omega
  | apply h g res =>
    obtain ⟨⟨r, hr⟩, ⟨q, hq⟩⟩ := hl
    have hpr : users s r ≠ 0 := by have := count_pos hr; unfold users; omega
    have hpq : users s q ≠ 0 := by have := count_pos hq; unfold users; omega
    have hcr := hs.count r
    have hcq := hs.count q
    rw [cell_pos hpr] at hcr
    rw [cell_pos hpq] at hcq
    cases res with
    | fresh =>
      obtain ⟨s1, h1, h2⟩ := create_exact hs
      exact ⟨s1, by simp only [step, repOf_eq hr, repOf_eq hq, Outcome.bind_ok, hcr, hcq]; exact h1, h2⟩
    | first =>
      obtain ⟨s1, h1, h2⟩ := newHandle_exact hs hpr
      exact ⟨s1, by simp only [step, repOf_eq hr, repOf_eq hq, Outcome.bind_ok, hcr, hcq]; exact h1, h2⟩
    | second =>
      obtain ⟨s1, h1, h2⟩ := newHandle_exact hs hpq
      exact ⟨s1, by simp only [step, repOf_eq hr, repOf_eq hq, Outcome.bind_ok, hcr, hcq]; exact h1, h2⟩

theorem init_exact : Exact State.init := ⟨fun _ => rfl, fun _ _ => rfl⟩

/-- C59: in every program that only uses live handles no operation touches a deleted
representation, and at every moment exactly the representations in use exist. -/
theorem refcount_safe (ops : List Op) (hl : LegalRun State.init ops) :
    ∃ s, run State.init ops = .ok s ∧ Exact s := by
  have : ∀ s, Exact s → LegalRun s ops → ∃ s', run s ops = .ok s' ∧ Exact s' := by
    clear hl
    induction ops with
    | nil => intro s hs _; exact ⟨s, rfl, hs⟩
    | cons op ops ih =>
      intro s hs hl
      obtain ⟨s1, h1, h2⟩ := step_exact hs op hl.1
      obtain ⟨s2, h3, h4⟩ := ih s1 h2 (hl.2 s1 h1)
      exact ⟨s2, by simp only [run, h1, Outcome.bind_ok, h3], h4⟩
  exact this _ init_exact hl

/-- C59: nothing leaks: when all handles have been destroyed, no representation is left. -/
theorem refcount_no_leak (ops : List Op) (hl : LegalRun State.init ops) (s : State)
    (hr : run State.init ops = .ok s) (hd : ∀ h ∈ s.handles, h = none) : ∀ r, s.heap r = none := by
  obtain ⟨s', h1, h2⟩ := refcount_safe ops hl
  rw [hr] at h1
  injection h1 with h1
  subst h1
  intro r
  have h0 : users s r = 0 := List.count_eq_zero.2 fun hm => by have := hd _ hm; cases this
  rw [h2.count r, h0]
  rfl

/-- C59: a live handle always has a representation to work on. -/
theorem refcount_live (ops : List Op) (hl : LegalRun State.init ops) (s : State)
    (hr : run State.init ops = .ok s) (h r : Nat) (hh : s.handles[h]? = some (some r)) :
    ∃ c, 0 < c ∧ s.heap r = some c := by
  obtain ⟨s', h1, h2⟩ := refcount_safe ops hl
  rw [hr] at h1
  injection h1 with h1
  subst h1
  have hp : 0 < users s r := count_pos hh
  exact ⟨users s r, hp, by rw [h2.count r, cell_pos (by omega)]⟩

/-- A program with sharing: two rotations, a product that returns its first factor, an assignment that
deletes the second representation, a self-assignment, and the destruction of everything. -/
def exOps : List Op := [.create, .create, .apply 0 1 .first, .assign 1 2, .assign 1 1, .destroy 0,
  .destroy 1, .destroy 2]

example : ∃ s, run State.init exOps = .ok s ∧ s.handles = [none, none, none] ∧ s.next = 2 ∧
    s.heap 0 = none ∧ s.heap 1 = none := ⟨_, rfl, rfl, rfl, rfl, rfl⟩

example : LegalRun State.init exOps := by
  refine ⟨trivial, fun _ h => ?_⟩; cases h
  refine ⟨trivial, fun _ h => ?_⟩; cases h
  refine ⟨⟨⟨0, rfl⟩, ⟨1, rfl⟩⟩, fun _ h => ?_⟩; cases h
  refine ⟨⟨⟨1, rfl⟩, ⟨0, rfl⟩⟩, fun _ h => ?_⟩; cases h
  refine ⟨⟨⟨0, rfl⟩, ⟨0, rfl⟩⟩, fun _ h => ?_⟩; cases h
  refine ⟨⟨0, rfl⟩, fun _ h => ?_⟩; cases h
  refine ⟨⟨0, rfl⟩, fun _ h => ?_⟩; cases h
  refine ⟨⟨0, rfl⟩, fun _ h => ?_⟩; cases h
  trivial

#print axioms refcount_safe
#print axioms refcount_no_leak
#print axioms refcount_live

end Verif.RefCount
