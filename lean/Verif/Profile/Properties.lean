import Mathlib.Tactic.Linarith
import Mathlib.Tactic.Ring
import Verif.Profile.Spec

/-! # Properties of profiles (C369, C370) -/

namespace Verif.Profile

open Spec

theorem look_ins (k j : String) (v : Time) : ∀ l : Table, look k l = none → look j (ins k v l) = if j = k then some v else look j l := by
  intro l
  induction l with
  | nil =>
    intro _
    simp only [ins, look]
    by_cases h : j = k
    · rw [if_pos h, if_pos h.symm]
    · rw [if_neg h, if_neg fun e => h e.symm]
  | cons a l ih =>
    intro h
    rw [look] at h
    split at h
    · exact absurd h (by simp)
    · rename_i ha
      rw [ins]
      split
      · rw [look]
        by_cases hj : j = k
        · rw [if_pos hj, if_pos hj.symm]
        · rw [if_neg hj, if_neg fun e => hj e.symm]
      · rw [look, look, ih h]
        by_cases hj : j = k
        · rw [if_pos hj, if_pos hj, if_neg (by rw [hj]; exact ha)]
        · rw [if_neg hj, if_neg hj]

theorem look_upd (k j : String) (f : Time → Time) (l : Table) : look j (upd k f l) = if j = k then (look j l).map f else look j l := by
  induction l with
  | nil => simp [upd, look]
  | cons a l ih =>
    have e : upd k f (a :: l) = (if a.1 = k then (a.1, f a.2) else a) :: upd k f l := rfl
    rw [e, look, look, ih]
    by_cases hj : j = k
    · subst hj
      by_cases ha : a.1 = j
      · simp [ha]
      · simp [ha]
    · by_cases ha : a.1 = k
      · have : k ≠ j := fun e => hj e.symm
        simp [ha, hj, this]
      · simp [ha, hj]

theorem look_del (k j : String) (h : j ≠ k) (l : Table) : look j (del k l) = look j l := by
  induction l with
  | nil => rfl
  | cons a l ih =>
    unfold del at ih ⊢
    rw [List.filter_cons]
    by_cases ha : a.1 = k
    · rw [if_neg (by simp [ha]), ih, look, if_neg (by rw [ha]; exact h.symm)]
    · rw [if_pos (by simp [ha]), look, look, ih]

/-- What both tables have for a process. -/
def view (k : String) (s : State) : Option Time × Option Time := (look k s.data, look k s.start)

/-- Calls for other processes do not change the entries of a process. -/
theorem view_other (k : String) (s : State) (o : Op) (h : about k o = false) : view k (step s o) = view k s := by
  cases o with
  | add j =>
    have hj : k ≠ j := fun e => by simp [about, e] at h
    simp only [step, add]
    cases hd : look j s.data with
    | some v => rfl
    | none =>
      simp only [view]
      rw [look_ins j k _ _ hd, if_neg hj]
      cases hs : look j s.start with
      | some v => rfl
      | none => simp only [look_ins j k _ _ hs, if_neg hj]
  | remove j =>
    have hj : k ≠ j := fun e => by simp [about, e] at h
    simp only [step, remove, view, look_del j k hj]
  | start j t =>
    have hj : k ≠ j := fun e => by simp [about, e] at h
    simp only [step, startTimer, view, look_upd, if_neg hj]
  | stop j t =>
    have hj : k ≠ j := fun e => by simp [about, e] at h
    simp only [step, endTimer]
    cases look j s.start with
    | none => rfl
    | some b => simp only [view, look_upd, if_neg hj]
  | clear => exact absurd h (by simp [about])

/-- The entries of a process after a call for it depend on those before only. -/
theorem view_same (k : String) (s s' : State) (o : Op) (h : view k s = view k s') (ho : o ≠ .clear) : view k (step s o) = view k (step s' o) := by
  by_cases ha : about k o = true
  · simp only [view, Prod.mk.injEq] at h
    cases o with
    | add j =>
      obtain rfl : j = k := by simpa [about] using ha
      simp only [step, add]
      cases hd : look j s.data with
      | some v =>
        rw [← h.1, hd]
        simp only [view, Prod.mk.injEq]
        exact h
      | none =>
        have hd' := h.1 ▸ hd
        rw [hd']
        simp only [view]
        rw [look_ins j j _ _ hd, look_ins j j _ _ hd']
        cases hs : look j s.start with
        | some v =>
          have hs' := h.2 ▸ hs
          rw [hs']
          simp only [hs, hs', if_true]
        | none =>
          have hs' := h.2 ▸ hs
          rw [hs']
          simp only [look_ins j j _ _ hs, look_ins j j _ _ hs', if_true]
    | remove j =>
      obtain rfl : j = k := by simpa [about] using ha
      have hn : ∀ l : Table, look j (del j l) = none := by
        intro l
        induction l with
        | nil => rfl
        | cons a l ih =>
          unfold del at ih ⊢
          rw [List.filter_cons]
          by_cases ha : a.1 = j
          · rw [if_neg (by simp [ha]), ih]
          · rw [if_pos (by simp [ha]), look, if_neg ha, ih]
      simp only [step, remove, view, hn, h.2]
    | start j t =>
      obtain rfl : j = k := by simpa [about] using ha
      simp only [step, startTimer, view, look_upd, if_true, h.1, h.2]
    | stop j t =>
      obtain rfl : j = k := by simpa [about] using ha
      simp only [step, endTimer]
      rw [h.2]
      cases hs : look j s'.start with
      | none =>
        simp only [view, h.1, h.2]
      | some b => simp only [view, look_upd, if_true, h.1, h.2]
    | clear => exact absurd rfl ho
  · rw [view_other k s o (by simpa using ha), view_other k s' o (by simpa using ha), h]

theorem view_fold (k : String) : ∀ (l : List Op) (s s' : State), Op.clear ∉ l → view k s = view k s' → view k (l.foldl step s) = view k ((l.filter (about k)).foldl step s') := by
  intro l
  induction l with
  | nil => intro s s' _ h; exact h
  | cons o l ih =>
    intro s s' hc h
    have ho : o ≠ .clear := fun e => hc (by rw [e]; exact List.mem_cons_self)
    have hl : Op.clear ∉ l := fun e => hc (List.mem_cons_of_mem _ e)
    rw [List.foldl_cons, List.filter_cons]
    by_cases ha : about k o = true
    · rw [if_pos ha, List.foldl_cons]
      exact ih _ _ hl (view_same k s s' o h ho)
    · rw [if_neg ha]
      exact ih _ _ hl ((view_other k s o (by simpa using ha)).trans h)

theorem duration_ns (t v : Time) : ns (addDuration t v) = ns v + ns t := by
  unfold addDuration ns
  simp only
  split <;> simp only <;> ring

theorem duration_bound (a b v : Time) (ha : Shown a) (hb : Shown b) (hv : v.nsec < 1000000000) : (addDuration ⟨b.sec - a.sec, b.nsec - a.nsec⟩ v).nsec < 1000000000 := by
  unfold addDuration
  simp only
  split
  · simp only
    have := ha.1
    have := hb.2
    omega
  · simp only
    omega

theorem pairs_view (k : String) : ∀ (l : List (Option (Time × Time))) (s : State) (v b : Time), (∀ q, some q ∈ l → Shown q.1 ∧ Shown q.2) → v.nsec < 1000000000 → view k s = (some v, some b) →
    ∃ v' b', view k ((l.flatMap (calls k)).foldl step s) = (some v', some b') ∧ ns v' = ns v + spent l ∧ v'.nsec < 1000000000 := by
  intro l
  induction l with
  | nil =>
    intro s v b _ hv h
    exact ⟨v, b, h, by simp [spent], hv⟩
  | cons o l ih =>
    intro s v b hl hv h
    have hl' : ∀ q, some q ∈ l → Shown q.1 ∧ Shown q.2 := fun q hq => hl q (List.mem_cons_of_mem _ hq)
    cases o with
    | none =>
      have e : step s (.add k) = s := by
        simp only [view, Prod.mk.injEq] at h
        simp only [step, add, h.1]
      obtain ⟨v', b', e1, e2, e3⟩ := ih s v b hl' hv h
      refine ⟨v', b', ?_, ?_, e3⟩
      · rw [List.flatMap_cons, List.foldl_append, calls, List.foldl_cons, List.foldl_nil, e]
        exact e1
      · rw [e2]
        simp [spent]
    | some q =>
      obtain ⟨hq1, hq2⟩ := hl q List.mem_cons_self
      simp only [view, Prod.mk.injEq] at h
      have h1 : view k (step (step s (.start k q.1)) (.stop k q.2)) = (some (addDuration ⟨q.2.sec - q.1.sec, q.2.nsec - q.1.nsec⟩ v), some q.1) := by
        have e : look k (startTimer k q.1 s).start = some q.1 := by simp only [startTimer, look_upd, if_true, h.2, Option.map_some]
        simp only [step, endTimer, e, view, look_upd, if_true]
        simp only [startTimer, h.1, Option.map_some, look_upd, if_true, h.2]
      obtain ⟨v', b', e1, e2, e3⟩ := ih _ _ _ hl' (duration_bound q.1 q.2 v hq1 hq2 hv) h1
      refine ⟨v', b', ?_, ?_, e3⟩
      · rw [List.flatMap_cons, List.foldl_append]
        exact e1
      · rw [e2, duration_ns]
        simp only [spent, List.filterMap_cons, id, List.map_cons, List.sum_cons, ns]
        ring

/-- **C369.** The time of a process that is added (once or more) and started and stopped in turn is the sum of its intervals, whatever is done with other processes; there is never a full second in the
nanoseconds. -/
theorem time_spent (k : String) (ops : List Op) (l : List (Option (Time × Time))) (hc : Op.clear ∉ ops) (h : ops.filter (about k) = timed k l) (hl : ∀ q, some q ∈ l → Shown q.1 ∧ Shown q.2) :
    ∃ v, look k (run ops).data = some v ∧ ns v = spent l ∧ v.nsec < 1000000000 := by
  have e := view_fold k ops ⟨[], []⟩ ⟨[], []⟩ hc rfl
  rw [h, timed, List.foldl_cons] at e
  have h0 : view k (step ⟨[], []⟩ (.add k)) = (some ⟨0, 0⟩, some ⟨0, 0⟩) := by
    simp [step, add, look, ins, view]
  obtain ⟨v', b', e1, e2, e3⟩ := pairs_view k l _ _ _ hl (by norm_num) h0
  rw [e1] at e
  simp only [view, Prod.mk.injEq] at e
  exact ⟨v', e.1, by rw [e2]; simp [ns], e3⟩

/-- Case: two processes, one inside of the other; the clock goes over full seconds. -/
def sample : List Op := [.add "TOTAL", .start "TOTAL" ⟨5, 900000000⟩, .add "WAKE", .start "WAKE" ⟨6, 0⟩, .stop "WAKE" ⟨7, 100000000⟩, .add "WAKE", .start "WAKE" ⟨7, 900000000⟩, .stop "WAKE" ⟨8, 100000000⟩,
  .stop "TOTAL" ⟨9, 100000000⟩]

example : ∃ v, look "WAKE" (run sample).data = some v ∧ ns v = 1300000000 ∧ v.nsec < 1000000000 := by
  obtain ⟨v, h1, h2, h3⟩ := time_spent "WAKE" sample [some (⟨6, 0⟩, ⟨7, 100000000⟩), none, some (⟨7, 900000000⟩, ⟨8, 100000000⟩)] (by decide) (by decide) (by
    intro q hq
    simp only [List.mem_cons, Option.some.injEq, List.not_mem_nil, or_false, reduceCtorEq, false_or] at hq
    rcases hq with rfl | rfl <;> simp [Shown])
  exact ⟨v, h1, by rw [h2]; decide, h3⟩

/-- **C370, violated.** Clearing only concerns the first process in alphabetical order. -/
theorem clear_violated : look "TOTAL" (run (sample ++ [.clear])).data = some ⟨0, 0⟩ ∧ look "WAKE" (run (sample ++ [.clear])).data = look "WAKE" (run sample).data ∧
    look "WAKE" (run sample).data ≠ some ⟨0, 0⟩ := by decide

/-- **C370.** What clearing does: all but the first entry stay. -/
theorem clear_characterised (s : State) (a : String × Time) (l : Table) (h : s.data = a :: l) : look a.1 (clear s).data = some ⟨0, 0⟩ ∧ ∀ k, k ≠ a.1 → look k (clear s).data = look k s.data := by
  unfold clear
  rw [h]
  refine ⟨by simp [look], fun k hk => ?_⟩
  simp only [look]
  rw [if_neg hk.symm, if_neg hk.symm]

/-- **C370, violated.** A timer that is stopped without having been started gets the time since the origin of the clock. -/
theorem unstarted_violated (k : String) (t : Time) (ht : Shown t) : look k (run [.add k, .stop k t]).data = some t := by
  have e : look k (run [.add k, .stop k t]).data = some (addDuration ⟨t.sec - 0, t.nsec - 0⟩ ⟨0, 0⟩) := by
    simp [run, step, add, look, ins, endTimer, upd]
  rw [e]
  unfold addDuration
  have := ht.2
  simp only [Int.zero_add, Int.sub_zero]
  rw [if_neg (by omega)]

/-- **C370, violated.** A timer that is stopped twice counts the first interval twice. -/
theorem twice_violated (k : String) (a b c : Time) : ∃ v, look k (run [.add k, .start k a, .stop k b, .stop k c]).data = some v ∧ ns v = (ns b - ns a) + (ns c - ns a) := by
  refine ⟨addDuration ⟨c.sec - a.sec, c.nsec - a.nsec⟩ (addDuration ⟨b.sec - a.sec, b.nsec - a.nsec⟩ ⟨0, 0⟩), ?_, ?_⟩
  · simp [run, step, add, look, ins, startTimer, endTimer, upd]
  · rw [duration_ns, duration_ns]
    simp only [ns]
    ring

end Verif.Profile
