import Verif.Random.Model

/-!
# Properties of the random number generators (C69)
-/

namespace Verif.Random

variable {G : Type}

/-- The local generators a program uses before it resets them. -/
def uses (h : Nat) : List Op → Bool
  | [] => false
  | .loc h' :: os => (h = h') || uses h os
  | .resetLocal h' :: os => !(h = h') && uses h os
  | _ :: os => uses h os

theorem lookup_put (h k : Nat) (g : G) (l : List (Nat × G)) :
    (put h g l).lookup k = if k = h then some g else l.lookup k := by
  simp only [put, List.lookup_cons]
  by_cases hk : k = h
  · simp [hk]
  · have : (k == h) = false := by simpa using hk
    rw [this, if_neg hk]
    induction l with
    | nil => rfl
    | cons p l ih =>
      obtain ⟨a, b⟩ := p
      rw [List.filter_cons]
      by_cases ha : a = h
      · subst ha
        simp only [ne_eq, not_true_eq_false, decide_false, Bool.false_eq_true, if_false, ih,
          List.lookup_cons, this]
      · simp only [ne_eq, ha, not_false_eq_true, decide_true, if_true, List.lookup_cons, ih]

/-- Two states a program cannot tell apart. -/
structure Agree (s t : State G) (os : List Op) : Prop where
  seed : s.masterSeed = t.masterSeed
  gen : s.generator = t.generator
  some : s.generator ≠ none
  store : ∀ h, uses h os = true → s.store.lookup h = t.store.lookup h

theorem ensure_eq (E : Engine G) (auto : List Nat) (s : State G) (h : s.generator ≠ none) :
    ensure E auto s = s := by
  unfold ensure
  cases hg : s.generator with
  | none => exact absurd hg h
  | some g => rfl

theorem run_agree (E : Engine G) (auto : List Nat) (s t : State G) (os : List Op)
    (h : Agree s t os) : (run E auto s os).1 = (run E auto t os).1 := by
  induction os generalizing s t with
  | nil => rfl
  | cons o os ih =>
    obtain ⟨h1, h2, h3, h4⟩ := h
    have h3' : t.generator ≠ none := h2 ▸ h3
    have es := ensure_eq E auto s h3
    have et := ensure_eq E auto t h3'
    simp only [run]
    cases o with
    | main =>
      obtain ⟨g, hg⟩ : ∃ g, s.generator = some g := Option.ne_none_iff_exists'.1 h3
      have hg' : t.generator = some g := h2 ▸ hg
      have r1 : (drawMain E auto s).1 = (drawMain E auto t).1 := by
        simp only [drawMain, es, et, hg, hg']
      have : Agree (drawMain E auto s).2 (drawMain E auto t).2 os := by
        simp only [drawMain, es, et, hg, hg']
        exact ⟨h1, rfl, by simp, fun h hu => h4 h (by simpa [uses] using hu)⟩
      simp only [step, r1, ih _ _ this]
    | loc k =>
      have hk : s.store.lookup k = t.store.lookup k := h4 k (by simp [uses])
      have hgl : (getLocal E auto s k).2 = (getLocal E auto t k).2 := by
        simp only [getLocal, es, et, hk, h1]
        cases t.store.lookup k <;> rfl
      have r1 : (drawLocal E auto s k).1 = (drawLocal E auto t k).1 := by
        simp only [drawLocal, hgl]
      have p1 : ∀ (x : State G), x.generator ≠ none →
          (drawLocal E auto x k).2.masterSeed = x.masterSeed ∧
          (drawLocal E auto x k).2.generator = x.generator ∧
          ∀ j, (drawLocal E auto x k).2.store.lookup j =
            if j = k then some (E.next (getLocal E auto x k).2).2 else x.store.lookup j := by
        intro x hx
        have ex := ensure_eq E auto x hx
        simp only [drawLocal, getLocal, ex]
        cases hl : x.store.lookup k with
        | some g =>
          refine ⟨rfl, rfl, fun j => ?_⟩
          simp only [lookup_put]
        | none =>
          refine ⟨rfl, rfl, fun j => ?_⟩
          simp only [lookup_put]
          by_cases hj : j = k <;> simp [hj]
      have : Agree (drawLocal E auto s k).2 (drawLocal E auto t k).2 os := by
        obtain ⟨a1, a2, a3⟩ := p1 s h3
        obtain ⟨b1, b2, b3⟩ := p1 t h3'
        refine ⟨by rw [a1, b1, h1], by rw [a2, b2, h2], by rw [a2]; exact h3, ?_⟩
        intro j hj
        rw [a3, b3, hgl]
        by_cases hjk : j = k
        · simp [hjk]
        · rw [if_neg hjk, if_neg hjk]
          exact h4 j (by simp [uses, hj])
      simp only [step, r1, ih _ _ this]
    | resetLocal k =>
      have : Agree (resetLocal E auto s k) (resetLocal E auto t k) os := by
        simp only [resetLocal, es, et]
        refine ⟨h1, h2, h3, ?_⟩
        intro j hj
        simp only [lookup_put, h1]
        by_cases hjk : j = k
        · simp [hjk]
        · rw [if_neg hjk, if_neg hjk]
          exact h4 j (by simp [uses, hj, hjk])
      simp only [step, ih _ _ this]
    | reset =>
      have : Agree (reset E s) (reset E t) os :=
        ⟨h1, by simp [reset, h1], by simp [reset], fun j hj => h4 j (by simpa [uses] using hj)⟩
      simp only [step, ih _ _ this]
    | resetSeed sd =>
      have : Agree (resetSeed E s sd) (resetSeed E t sd) os :=
        ⟨rfl, rfl, by simp [resetSeed, reset], fun j hj => h4 j (by simpa [uses] using hj)⟩
      simp only [step, ih _ _ this]

/-- C69 (partial): after seeding, a program sees the same numbers whatever happened before, provided
the earlier history did not leave local generators behind that the program uses without resetting
them.  Missing: that seeding also restarts the local generators, see `local_violated`. -/
theorem reproducible_partial (E : Engine G) (auto : List Nat) (before1 before2 : List Op)
    (seed : List Nat) (os : List Op)
    (hfresh : ∀ h, uses h os = true →
      (run E auto (State.start G) before1).2.store.lookup h =
        (run E auto (State.start G) before2).2.store.lookup h) :
    (run E auto (resetSeed E (run E auto (State.start G) before1).2 seed) os).1 =
      (run E auto (resetSeed E (run E auto (State.start G) before2).2 seed) os).1 :=
  run_agree E auto _ _ os ⟨rfl, rfl, by simp [resetSeed, reset], hfresh⟩

/-- C69: programs that only use the main generator are reproducible without condition. -/
theorem main_reproducible (E : Engine G) (auto : List Nat) (before1 before2 : List Op)
    (seed : List Nat) (os : List Op) (hmain : ∀ h, uses h os = false) :
    (run E auto (resetSeed E (run E auto (State.start G) before1).2 seed) os).1 =
      (run E auto (resetSeed E (run E auto (State.start G) before2).2 seed) os).1 :=
  reproducible_partial E auto before1 before2 seed os (fun h hu => by rw [hmain h] at hu; cases hu)

/-- C69: numbers drawn from local generators do not disturb the main stream. -/
theorem main_unaffected (E : Engine G) (auto : List Nat) (s : State G) (hs : s.generator ≠ none)
    (hs' : List Nat) : (drawMain E auto ((run E auto s (hs'.map Op.loc)).2)).1 =
      (drawMain E auto s).1 := by
  have key : ∀ (l : List Nat) (s : State G), s.generator ≠ none →
      (run E auto s (l.map Op.loc)).2.generator = s.generator := by
    intro l
    induction l with
    | nil => intro s _; rfl
    | cons h l ih =>
      intro s hg
      have e : (drawLocal E auto s h).2.generator = s.generator := by
        simp only [drawLocal, getLocal, ensure_eq E auto s hg]
        cases s.store.lookup h <;> rfl
      simp only [List.map_cons, run, step]
      rw [ih _ (by rw [e]; exact hg), e]
  have hk := key hs' s hs
  obtain ⟨g, hg⟩ : ∃ g, s.generator = some g := Option.ne_none_iff_exists'.1 hs
  have hk' := hk.trans hg
  simp only [drawMain, ensure_eq E auto s hs, ensure_eq E auto _ (by rw [hk]; exact hs), hg, hk']

/-- A call that does not concern local generator `h` and does not seed. -/
def foreign (h : Nat) : Op → Bool
  | .main => true
  | .loc k => k ≠ h
  | .resetLocal k => k ≠ h
  | _ => false

/-- C69: the first number of a local generator is that of the engine seeded with the master seed and
the name (its lower 32 bits), and the stream of a local generator does not depend on what is drawn
from the main generator and from generators of other names in between. -/
theorem local_stream (E : Engine G) (auto : List Nat) (s : State G) (hs : s.generator ≠ none) (h : Nat)
    (os : List Op) (hf : ∀ o ∈ os, foreign h o = true) :
    (drawLocal E auto (run E auto s os).2 h).1 = (drawLocal E auto s h).1 ∧
    (s.store.lookup h = none →
      (drawLocal E auto s h).1 = (E.next (E.seed (s.masterSeed ++ [h % 2 ^ 32]))).1) := by
  have hfirst : s.store.lookup h = none →
      (drawLocal E auto s h).1 = (E.next (E.seed (s.masterSeed ++ [h % 2 ^ 32]))).1 := by
    intro hl
    simp only [drawLocal, getLocal, ensure_eq E auto s hs, hl, hash32]
  refine ⟨?_, hfirst⟩
  clear hfirst
  have key : ∀ (s : State G) (o : Op), s.generator ≠ none → foreign h o = true →
      (step E auto s o).2.generator ≠ none ∧ (step E auto s o).2.masterSeed = s.masterSeed ∧
      (step E auto s o).2.store.lookup h = s.store.lookup h := by
    intro s o hg ho
    have es := ensure_eq E auto s hg
    cases o with
    | main =>
      obtain ⟨g, hg'⟩ : ∃ g, s.generator = some g := Option.ne_none_iff_exists'.1 hg
      simp [step, drawMain, es, hg']
    | loc k =>
      have hk : h ≠ k := fun hc => by simp [foreign, hc] at ho
      simp only [step, drawLocal, getLocal, es]
      cases s.store.lookup k with
      | some g => exact ⟨hg, rfl, by simp [lookup_put, hk]⟩
      | none => exact ⟨hg, rfl, by simp [lookup_put, hk]⟩
    | resetLocal k =>
      have hk : h ≠ k := fun hc => by simp [foreign, hc] at ho
      refine ⟨?_, ?_, ?_⟩
      · simpa only [step, resetLocal, es] using hg
      · simp only [step, resetLocal, es]
      · simp only [step, resetLocal, es, lookup_put, hk, if_false]
    | reset => simp [foreign] at ho
    | resetSeed _ => simp [foreign] at ho
  have two : ∀ (s t : State G), s.generator ≠ none → t.generator ≠ none →
      t.masterSeed = s.masterSeed → t.store.lookup h = s.store.lookup h →
      (drawLocal E auto t h).1 = (drawLocal E auto s h).1 := by
    intro s t a b c d
    simp only [drawLocal, getLocal, ensure_eq E auto s a, ensure_eq E auto t b, c, d]
    cases s.store.lookup h <;> rfl
  have all : ∀ (os : List Op) (s : State G), s.generator ≠ none → (∀ o ∈ os, foreign h o = true) →
      (run E auto s os).2.generator ≠ none ∧ (run E auto s os).2.masterSeed = s.masterSeed ∧
      (run E auto s os).2.store.lookup h = s.store.lookup h := by
    intro os
    induction os with
    | nil => intro s hg _; exact ⟨hg, rfl, rfl⟩
    | cons o os ih =>
      intro s hg ho
      obtain ⟨a, b, c⟩ := key s o hg (ho o (by simp))
      obtain ⟨a', b', c'⟩ := ih _ a (fun o h' => ho o (List.mem_cons_of_mem _ h'))
      exact ⟨a', b'.trans b, c'.trans c⟩
  obtain ⟨a, b, c⟩ := all os s hs hf
  exact two s _ hs a b c

/-- A counter as engine. -/
def counter : Engine Nat := ⟨fun l => l.foldl (fun a x => 10 * a + x) 0, fun g => (g, g + 1)⟩

/-- C69 does not hold: a local generator used before is not restarted by seeding; the same program
after the same seed sees other numbers. -/
theorem local_violated :
    (run counter [] (resetSeed counter (run counter [] (State.start Nat) []).2 [7]) [.loc 3]).1 ≠
    (run counter [] (resetSeed counter (run counter [] (State.start Nat)
      [.resetSeed [7], .loc 3]).2 [7]) [.loc 3]).1 := by decide

example : ∀ o ∈ [Op.main, Op.loc 4, Op.resetLocal 5, Op.main], foreign 3 o = true := by decide

example : uses 3 [.main, .resetLocal 3, .loc 3] = false ∧ uses 3 [.main, .loc 3] = true := by decide

example : (run counter [] (resetSeed counter (State.start Nat) [7]) [.main, .loc 3, .main]).1 =
    [some 7, some 73, some 8] := by decide

#print axioms reproducible_partial
#print axioms main_reproducible
#print axioms main_unaffected
#print axioms local_stream
#print axioms local_violated

end Verif.Random
