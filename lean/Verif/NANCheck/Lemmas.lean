import Verif.NANCheck.Spec

/-!
# Lemmas on the check for invalid particles
-/

namespace Verif.NANCheck
open Verif Verif.NANCheck.Spec

variable {D : Type}

theorem isGood_iff (fin : D → Bool) (p : Particle D) : isGood fin p = true ↔ ¬ Bad fin p := by
  unfold isGood Bad
  simp only [Bool.and_eq_true, not_exists, Bool.not_eq_false]
  constructor
  · rintro ⟨⟨⟨⟨⟨h0, h2⟩, h4⟩, h1⟩, h3⟩, h5⟩ i
    match i with
    | 0 => exact h0
    | 1 => exact h1
    | 2 => exact h2
    | 3 => exact h3
    | 4 => exact h4
    | 5 => exact h5
  · intro h
    exact ⟨⟨⟨⟨⟨h 0, h 2⟩, h 4⟩, h 1⟩, h 3⟩, h 5⟩

theorem isGood_false (fin : D → Bool) (p : Particle D) : isGood fin p = false ↔ Bad fin p := by
  have := isGood_iff fin p
  cases h : isGood fin p <;> simp_all

theorem report_fields (s : Proc D) (n : Nat) (i : Int) (e : Entry D) (h : report s n i = .ok e) :
    e.index = n ∧ e.pid = i := by
  unfold report at h
  split at h
  · split at h
    · simp at h
    · injection h with h; subst h; exact ⟨rfl, rfl⟩
  · injection h with h; subst h; exact ⟨rfl, rfl⟩

/-- What the loop does when it comes to its end. -/
theorem scan_ok (fin : D → Bool) (s : Proc D) (l : List (Particle D)) (n : Nat) (rep : List Int) (c : Bool)
    (r : List Int × Bool × List (Entry D)) (h : scan fin s l n rep c = .ok r) :
    (∀ i, i ∈ r.1 ↔ i ∈ rep ∨ ∃ p ∈ l, p.pid = i ∧ Bad fin p ) ∧
    (r.2.1 = true ↔ c = true ∨ s.cull = true ∧ ∃ p ∈ l, Bad fin p ∧ p.pid ∉ rep) ∧
    (∀ i, i ∈ r.2.2.map (·.pid) ↔ i ∉ rep ∧ ∃ p ∈ l, p.pid = i ∧ Bad fin p) ∧
    (r.2.2.map (·.pid)).Nodup := by
  induction l generalizing n rep c r with
  | nil =>
    simp only [scan] at h
    injection h with h; subst h
    simp
  | cons p l ih =>
    rw [scan] at h
    by_cases h1 : rep.contains p.pid = true
    · rw [if_pos h1] at h
      obtain ⟨a1, a2, a3, a4⟩ := ih n rep c r h
      have hm : p.pid ∈ rep := by simpa using h1
      refine ⟨fun i => ?_, ?_, fun i => ?_, a4⟩
      · rw [a1]
        constructor
        · rintro (hi | ⟨q, hq, hi⟩)
          · exact Or.inl hi
          · exact Or.inr ⟨q, List.mem_cons_of_mem _ hq, hi⟩
        · rintro (hi | ⟨q, hq, hi⟩)
          · exact Or.inl hi
          · rcases List.mem_cons.1 hq with rfl | hq
            · exact Or.inl (hi.1 ▸ hm)
            · exact Or.inr ⟨q, hq, hi⟩
      · rw [a2]
        constructor
        · rintro (hc | ⟨hc, q, hq, hi⟩)
          · exact Or.inl hc
          · exact Or.inr ⟨hc, q, List.mem_cons_of_mem _ hq, hi⟩
        · rintro (hc | ⟨hc, q, hq, hi⟩)
          · exact Or.inl hc
          · rcases List.mem_cons.1 hq with rfl | hq
            · exact absurd hm hi.2
            · exact Or.inr ⟨hc, q, hq, hi⟩
      · rw [a3]
        constructor
        · rintro ⟨hi, q, hq, hh⟩
          exact ⟨hi, q, List.mem_cons_of_mem _ hq, hh⟩
        · rintro ⟨hi, q, hq, hh⟩
          rcases List.mem_cons.1 hq with rfl | hq
          · exact absurd (hh.1 ▸ hm) hi
          · exact ⟨hi, q, hq, hh⟩
    · rw [if_neg h1] at h
      have hm : p.pid ∉ rep := by simpa using h1
      by_cases h2 : isGood fin p = true
      · rw [if_neg (by simp [h2])] at h
        obtain ⟨a1, a2, a3, a4⟩ := ih (n + 1) rep c r h
        have hb : ¬ Bad fin p := (isGood_iff fin p).1 h2
        refine ⟨fun i => ?_, ?_, fun i => ?_, a4⟩
        · rw [a1]; simp [hb]
        · rw [a2]; simp [hb]
        · rw [a3]; simp [hb]
      · have h2' : isGood fin p = false := by simpa using h2
        have hb : Bad fin p := (isGood_false fin p).1 h2'
        rw [if_pos (by simp [h2'])] at h
        cases hr : report s n p.pid with
        | ub => rw [hr] at h; simp [Outcome.bind] at h
        | throw e => rw [hr] at h; simp [Outcome.bind] at h
        | ok e =>
          rw [hr] at h
          simp only [Outcome.bind] at h
          by_cases hh : s.halt = true
          · rw [if_pos hh] at h; simp at h
          · rw [if_neg hh] at h
            cases hs : scan fin s l (n + 1) (p.pid :: rep) (c || s.cull) with
            | ub => rw [hs] at h; simp at h
            | throw e => rw [hs] at h; simp at h
            | ok r' =>
              rw [hs] at h
              simp only at h
              injection h with h
              subst h
              obtain ⟨a1, a2, a3, a4⟩ := ih (n + 1) (p.pid :: rep) (c || s.cull) r' hs
              have hp := (report_fields s n p.pid e hr).2
              refine ⟨fun i => ?_, ?_, fun i => ?_, ?_⟩
              · show i ∈ r'.1 ↔ _
                rw [a1]
                constructor
                · rintro (hi | ⟨q, hq, hi⟩)
                  · rcases List.mem_cons.1 hi with rfl | hi
                    · exact Or.inr ⟨p, List.mem_cons_self, rfl, hb⟩
                    · exact Or.inl hi
                  · exact Or.inr ⟨q, List.mem_cons_of_mem _ hq, hi⟩
                · rintro (hi | ⟨q, hq, hi⟩)
                  · exact Or.inl (List.mem_cons_of_mem _ hi)
                  · rcases List.mem_cons.1 hq with rfl | hq
                    · exact Or.inl (by rw [hi.1]; exact List.mem_cons_self)
                    · exact Or.inr ⟨q, hq, hi⟩
              · show r'.2.1 = true ↔ _
                rw [a2]
                constructor
                · rintro (hc | ⟨hc, q, hq, hi⟩)
                  · rcases (Bool.or_eq_true _ _).mp hc with hc | hc
                    · exact Or.inl hc
                    · exact Or.inr ⟨hc, p, List.mem_cons_self, hb, hm⟩
                  · exact Or.inr ⟨hc, q, List.mem_cons_of_mem _ hq, hi.1, fun hx => hi.2 (List.mem_cons_of_mem _ hx)⟩
                · rintro (hc | ⟨hc, q, hq, hi⟩)
                  · exact Or.inl (by simp [hc])
                  · exact Or.inl (by simp [hc])
              · show i ∈ (e :: r'.2.2).map (·.pid) ↔ _
                rw [List.map_cons, List.mem_cons, hp, a3]
                constructor
                · rintro (rfl | ⟨hi, q, hq, hx⟩)
                  · exact ⟨hm, p, List.mem_cons_self, rfl, hb⟩
                  · exact ⟨fun hx => hi (List.mem_cons_of_mem _ hx), q, List.mem_cons_of_mem _ hq, hx⟩
                · rintro ⟨hi, q, hq, hx⟩
                  by_cases hip : i = p.pid
                  · exact Or.inl hip
                  · rcases List.mem_cons.1 hq with rfl | hq
                    · exact absurd hx.1.symm hip
                    · exact Or.inr ⟨fun hy => (List.mem_cons.1 hy).elim hip hi, q, hq, hx⟩
              · show ((e :: r'.2.2).map (·.pid)).Nodup
                rw [List.map_cons, List.nodup_cons, hp, a3]
                exact ⟨fun hx => hx.1 List.mem_cons_self, a4⟩

/-- Indices when none of the particles has been reported before and the ids differ. -/
theorem scan_index (fin : D → Bool) (s : Proc D) (l : List (Particle D)) (n : Nat) (rep : List Int) (c : Bool)
    (r : List Int × Bool × List (Entry D)) (h : scan fin s l n rep c = .ok r) (hd : Distinct l)
    (hn : ∀ p ∈ l, p.pid ∉ rep) :
    ∀ e ∈ r.2.2, n ≤ e.index ∧ ∃ p, l[e.index - n]? = some p ∧ p.pid = e.pid ∧ Bad fin p := by
  induction l generalizing n rep c r with
  | nil =>
    simp only [scan] at h
    injection h with h; subst h
    simp
  | cons p l ih =>
    rw [scan] at h
    have hp : p.pid ∉ rep := hn p List.mem_cons_self
    have hd' : Distinct l := by
      unfold Distinct at hd ⊢; rw [List.map_cons, List.nodup_cons] at hd; exact hd.2
    have hpl : ∀ q ∈ l, q.pid ≠ p.pid := by
      unfold Distinct at hd; rw [List.map_cons, List.nodup_cons] at hd
      intro q hq hx
      exact hd.1 (List.mem_map.2 ⟨q, hq, hx⟩)
    rw [if_neg (by simpa using hp)] at h
    have lift : ∀ (es : List (Entry D)),
        (∀ e ∈ es, n + 1 ≤ e.index ∧ ∃ p, l[e.index - (n + 1)]? = some p ∧ p.pid = e.pid ∧ Bad fin p) →
        ∀ e ∈ es, n ≤ e.index ∧ ∃ q, (p :: l)[e.index - n]? = some q ∧ q.pid = e.pid ∧ Bad fin q := by
      intro es hes e he
      obtain ⟨h1, q, h2, h3⟩ := hes e he
      refine ⟨by omega, q, ?_, h3⟩
      rw [show e.index - n = (e.index - (n + 1)) + 1 by omega, List.getElem?_cons_succ]
      exact h2
    by_cases h2 : isGood fin p = true
    · rw [if_neg (by simp [h2])] at h
      exact lift _ (ih (n + 1) rep c r h hd' (fun q hq => hn q (List.mem_cons_of_mem _ hq)))
    · have h2' : isGood fin p = false := by simpa using h2
      have hb : Bad fin p := (isGood_false fin p).1 h2'
      rw [if_pos (by simp [h2'])] at h
      cases hr : report s n p.pid with
      | ub => rw [hr] at h; simp [Outcome.bind] at h
      | throw e => rw [hr] at h; simp [Outcome.bind] at h
      | ok e =>
        rw [hr] at h
        simp only [Outcome.bind] at h
        by_cases hh : s.halt = true
        · rw [if_pos hh] at h; simp at h
        · rw [if_neg hh] at h
          cases hs : scan fin s l (n + 1) (p.pid :: rep) (c || s.cull) with
          | ub => rw [hs] at h; simp at h
          | throw e => rw [hs] at h; simp at h
          | ok r' =>
            rw [hs] at h
            simp only at h
            injection h with h
            subst h
            have hrest := lift _ (ih (n + 1) (p.pid :: rep) (c || s.cull) r' hs hd'
              (fun q hq hx => (List.mem_cons.1 hx).elim (hpl q hq) (hn q (List.mem_cons_of_mem _ hq))))
            intro e' he'
            rcases List.mem_cons.1 he' with rfl | he'
            · obtain ⟨f1, f2⟩ := report_fields s n p.pid e' hr
              exact ⟨by omega, p, by rw [f1, Nat.sub_self]; rfl, f2.symm, hb⟩
            · exact hrest e' he'

/-- When the loop comes to its end. -/
theorem scan_total (fin : D → Bool) (s : Proc D) (hh : s.halt = false) (l : List (Particle D)) (n : Nat) (rep : List Int)
    (c : Bool) (hr : s.detailed = true → ∀ p ∈ l, ∃ q ∈ s.start, q.pid = p.pid) :
    ∃ r, scan fin s l n rep c = .ok r := by
  induction l generalizing n rep c with
  | nil => exact ⟨_, rfl⟩
  | cons p l ih =>
    have hr' : s.detailed = true → ∀ p ∈ l, ∃ q ∈ s.start, q.pid = p.pid := fun h q hq => hr h q (List.mem_cons_of_mem _ hq)
    rw [scan]
    split
    · exact ih _ _ _ hr'
    · split
      · have : ∃ e, report s n p.pid = .ok e := by
          unfold report
          split
          · rename_i hd
            obtain ⟨q, hq, hqp⟩ := hr hd p List.mem_cons_self
            cases hf : findId p.pid s.start with
            | none =>
              have := List.find?_eq_none.1 hf q hq
              simp [hqp] at this
            | some q' => exact ⟨_, rfl⟩
          · exact ⟨_, rfl⟩
        obtain ⟨e, he⟩ := this
        obtain ⟨r, hr2⟩ := ih (n + 1) (p.pid :: rep) (c || s.cull) hr'
        rw [he, hr2]
        exact ⟨(r.1, r.2.1, e :: r.2.2), by simp [Outcome.bind, hh]⟩
      · exact ih _ _ _ hr'

end Verif.NANCheck
