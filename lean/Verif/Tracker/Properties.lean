import Mathlib.Algebra.Order.Ring.Rat
import Mathlib.Tactic.Ring
import Mathlib.Tactic.Linarith
import Mathlib.Tactic.NormNum
import Verif.Tracker.Spec

/-!
# Properties of component trackers (C31, C32, C73, C74)
-/

set_option linter.unusedSectionVars false

namespace Verif.Tracker
open Verif Verif.Tracker.Spec

section
variable {K : Type} [Field K] [LinearOrder K] [IsStrictOrderedRing K]

/-! ## Lemmas on single calls -/

theorem remaining_nonneg (eps : K) (t : Trk K) (h : t.cur ≤ t.tot) : 0 ≤ remaining eps t := by
  simp only [remaining]
  split
  · exact le_refl _
  · linarith

theorem remaining_le (eps : K) (t : Trk K) (h : t.cur ≤ t.tot) :
    remaining eps t ≤ t.tot - t.cur := by
  simp only [remaining]
  split
  · linarith
  · exact le_refl _

theorem isValidStep_iff (eps : K) (heps1 : eps < 1) (t : Trk K) (h : t.cur ≤ t.tot) (ds : K) :
    isValidStep eps t ds = true ↔ 0 ≤ ds ∧ ds ≤ remaining eps t := by
  have hr := remaining_nonneg eps t h
  have hm : Range.mk2 0 (remaining eps t) = ⟨0, remaining eps t⟩ := by
    simp only [Range.mk2]
    rw [if_neg (not_lt.2 hr)]
  have hu : Range.isUnbounded eps (⟨0, remaining eps t⟩ : Range.NumRange K) = false := by
    simp only [Range.isUnbounded, Range.fequal, Bool.and_eq_false_iff, decide_eq_false_iff_not, not_le]
    left
    rw [zero_sub, abs_neg, abs_one]
    exact heps1
  simp only [isValidStep, hm, Range.contains, hu, Bool.false_eq_true, if_false, Bool.and_eq_true,
    decide_eq_true_eq]

theorem fequal_remaining (eps : K) (heps : 0 ≤ eps) (t : Trk K) :
    Range.fequal eps (remaining eps t) 0 = decide (|t.tot - t.cur| ≤ eps) := by
  simp only [remaining, Range.fequal, sub_zero, decide_eq_true_eq]
  split
  · rename_i h
    simp [heps, h]
  · rfl

/-- The integrators registered for one of the classes of a component. -/
def Known (iset : List (Nat × Nat)) (ids : List Nat) : Prop := ∃ i ∈ ids, iset.lookup i ≠ none

theorem prepare_spec (t : Trk K) (ids : List Nat) (c : Nat) (len : K)
    (hst : t.state = .undefined ∨ t.state = .finished) :
    (Known t.iset ids → ∃ n, prepare t ids c len =
      .ok { t with integrator := some n, cur := 0, tot := len, comp := c, state := .initialised }) ∧
    (¬ Known t.iset ids → prepare t ids c len = .throw .unknownComponent) := by
  induction ids generalizing t with
  | nil => simp [Known, prepare]
  | cons i ids ih =>
    cases hl : t.iset.lookup i with
    | some n =>
      have hk : Known t.iset (i :: ids) := ⟨i, by simp, by simp [hl]⟩
      refine ⟨fun _ => ⟨n, ?_⟩, fun h => absurd hk h⟩
      simp only [prepare, selectIntegrator, hst, if_true, hl, Outcome.bind_ok, Outcome.pure_eq]
    | none =>
      have hk : Known t.iset (i :: ids) ↔ Known t.iset ids := by
        simp only [Known, List.mem_cons]
        constructor
        · rintro ⟨j, rfl | hj, h⟩
          · exact absurd hl h
          · exact ⟨j, hj, h⟩
        · rintro ⟨j, hj, h⟩
          exact ⟨j, Or.inr hj, h⟩
      have hp : prepare t (i :: ids) c len = prepare { t with integrator := none } ids c len := by
        simp only [prepare, selectIntegrator, hst, if_true, hl, Outcome.bind_ok, Bool.false_eq_true,
          if_false]
      rw [hk, hp]
      exact ih { t with integrator := none } hst

theorem prepare_bad (t : Trk K) (ids : List Nat) (c : Nat) (len : K)
    (hst : ¬ (t.state = .undefined ∨ t.state = .finished)) : ∀ t', prepare t ids c len ≠ .ok t' := by
  intro t' h
  cases ids with
  | nil => simp [prepare] at h
  | cons i ids => simp [prepare, selectIntegrator, hst] at h

/-! ## C32 -/

/-- The state of the tracker matches the documented phase. -/
def Rel (p : Phase K) (t : Trk K) : Prop :=
  match p with
  | .idle => t.state = .undefined
  | .ready len => t.state = .initialised ∧ t.tot = len ∧ t.cur = 0 ∧ t.integrator ≠ none ∧ 0 ≤ len
  | .mid len done => t.state = .tracking ∧ t.tot = len ∧ t.cur = done ∧ t.integrator ≠ none ∧ done ≤ len
  | .over => t.state = .finished

theorem trackStep_ok (eps : K) (heps : 0 ≤ eps) (heps1 : eps < 1) (t : Trk K) (ds : K)
    (hst : t.state = .initialised ∨ t.state = .tracking) (hi : t.integrator ≠ none) (hc : t.cur ≤ t.tot) :
    (0 ≤ ds ∧ ds ≤ remaining eps t → trackStep eps t ds =
      .ok ({ integrate eps t ds with
        state := if |t.tot - (t.cur + ds)| ≤ eps then .finished else .tracking },
        ((if |t.tot - (t.cur + ds)| ≤ eps then State.finished else State.tracking).code : K))) ∧
    (¬ (0 ≤ ds ∧ ds ≤ remaining eps t) → trackStep eps t ds = .ub) := by
  obtain ⟨n, hn⟩ := Option.ne_none_iff_exists'.1 hi
  have hv := isValidStep_iff eps heps1 t hc ds
  constructor
  · intro h
    have hv' := hv.2 h
    have hf := fequal_remaining eps heps (integrate eps t ds)
    simp only [trackStep, hst, if_true, hn, hv', hf, decide_eq_true_eq]
    rfl
  · intro h
    have hv' : isValidStep eps t ds = false := by
      rw [Bool.eq_false_iff, ne_eq, hv]
      exact h
    simp only [trackStep, hst, if_true, hn, hv', Bool.false_eq_true, if_false]

theorem left_remaining (eps : K) (t : Trk K) : remaining eps t = left eps (t.tot - t.cur) := by
  simp only [remaining, left, Range.fequal, sub_zero, decide_eq_true_eq]

/-- Lengths of components are not negative. -/
def NonNeg : Op K → Prop
  | .prepare _ _ len => 0 ≤ len
  | _ => True

theorem trackStep_rel (eps : K) (heps : 0 ≤ eps) (heps1 : eps < 1) (t : Trk K) (ds : K)
    (hst : t.state = .initialised ∨ t.state = .tracking) (hi : t.integrator ≠ none) (hc : t.cur ≤ t.tot) :
    ((∃ t', step eps t (.trackStep ds) = .ok t') ↔ 0 ≤ ds ∧ ds ≤ left eps (t.tot - t.cur)) ∧
    ∀ t', step eps t (.trackStep ds) = .ok t' →
      Rel (Phase.after eps t.tot (t.cur + ds)) t' ∧ t'.iset = t.iset := by
  obtain ⟨h1, h2⟩ := trackStep_ok eps heps heps1 t ds hst hi hc
  rw [← left_remaining]
  by_cases h : 0 ≤ ds ∧ ds ≤ remaining eps t
  · have e := h1 h
    constructor
    · refine ⟨fun _ => h, fun _ => ?_⟩
      simp only [step, e, Outcome.bind_ok, Outcome.pure_eq]
      exact ⟨_, rfl⟩
    · intro t' ht'
      simp only [step, e, Outcome.bind_ok, Outcome.pure_eq, Outcome.ok.injEq] at ht'
      subst ht'
      refine ⟨?_, rfl⟩
      simp only [Phase.after]
      by_cases ha : |t.tot - (t.cur + ds)| ≤ eps
      · simp only [ha, if_true, Rel]
      · simp only [ha, if_false, Rel, integrate]
        refine ⟨trivial, trivial, trivial, hi, ?_⟩
        have := remaining_le eps t hc
        linarith [h.2]
  · have e := h2 h
    constructor
    · refine ⟨?_, fun h' => absurd h' h⟩
      rintro ⟨t', ht'⟩
      simp [step, e] at ht'
    · intro t' ht'
      simp [step, e] at ht'

theorem step_rel (eps : K) (heps : 0 ≤ eps) (heps1 : eps < 1) (p : Phase K) (t : Trk K) (o : Op K)
    (hr : Rel p t) (ho : NonNeg o) :
    ((∃ t', step eps t o = .ok t') ↔ Legal eps (Known t.iset) p o) ∧
    ∀ t', step eps t o = .ok t' → Rel (phase eps p [o]) t' ∧ t'.iset = t.iset := by
  cases o with
  | prepare ids c len =>
    by_cases hst : t.state = .undefined ∨ t.state = .finished
    · have hp : p = .idle ∨ p = .over := by
        cases p with
        | idle => exact Or.inl rfl
        | over => exact Or.inr rfl
        | ready l => rw [hr.1] at hst; simp at hst
        | mid l d => rw [hr.1] at hst; simp at hst
      obtain ⟨a, b⟩ := prepare_spec t ids c len hst
      by_cases hk : Known t.iset ids
      · obtain ⟨n, hn⟩ := a hk
        refine ⟨⟨fun _ => ⟨by rcases hp with rfl | rfl <;> trivial, hk⟩, fun _ => ⟨_, hn⟩⟩, ?_⟩
        intro t' ht'
        simp only [step] at ht'
        rw [hn, Outcome.ok.injEq] at ht'
        subst ht'
        exact ⟨⟨rfl, rfl, rfl, by simp, ho⟩, rfl⟩
      · have hb := b hk
        refine ⟨⟨?_, fun h => absurd h.2 hk⟩, ?_⟩
        · rintro ⟨t', ht'⟩
          simp [step, hb] at ht'
        · intro t' ht'
          simp [step, hb] at ht'
    · have hb := prepare_bad t ids c len hst
      refine ⟨⟨?_, ?_⟩, fun t' ht' => absurd ht' (hb t')⟩
      · rintro ⟨t', ht'⟩
        exact absurd ht' (hb t')
      · rintro ⟨hp, _⟩
        exfalso
        cases p <;> simp_all [Rel]
  | track =>
    simp only [step, track, Legal]
    cases p with
    | ready len =>
      obtain ⟨h1, h2, h3, h4, h5⟩ := hr
      obtain ⟨n, hn⟩ := Option.ne_none_iff_exists'.1 h4
      simp only [h1, if_true, hn]
      refine ⟨⟨fun _ => trivial, fun _ => ⟨_, rfl⟩⟩, ?_⟩
      intro t' ht'
      rw [Outcome.ok.injEq] at ht'
      subst ht'
      exact ⟨rfl, rfl⟩
    | idle =>
      have : ¬ t.state = .initialised := by rw [show t.state = .undefined from hr]; simp
      simp [this]
    | mid len done =>
      have : ¬ t.state = .initialised := by rw [hr.1]; simp
      simp [this]
    | over =>
      have : ¬ t.state = .initialised := by rw [show t.state = .finished from hr]; simp
      simp [this]
  | trackStep ds =>
    cases p with
    | ready len =>
      obtain ⟨h1, h2, h3, h4, h5⟩ := hr
      have := trackStep_rel eps heps heps1 t ds (Or.inl h1) h4 (by rw [h3, h2]; exact h5)
      rw [h2, h3] at this
      simpa [Legal, phase] using this
    | mid len done =>
      obtain ⟨h1, h2, h3, h4, h5⟩ := hr
      have := trackStep_rel eps heps heps1 t ds (Or.inr h1) h4 (by rw [h3, h2]; exact h5)
      rw [h2, h3] at this
      simpa [Legal, phase] using this
    | idle =>
      have : ¬ (t.state = .initialised ∨ t.state = .tracking) := by
        rw [show t.state = .undefined from hr]; simp
      simp [step, trackStep, this, Legal]
    | over =>
      have : ¬ (t.state = .initialised ∨ t.state = .tracking) := by
        rw [show t.state = .finished from hr]; simp
      simp [step, trackStep, this, Legal]
  | reset =>
    refine ⟨⟨fun _ => trivial, fun _ => ⟨_, rfl⟩⟩, ?_⟩
    intro t' ht'
    simp only [step, Outcome.ok.injEq] at ht'
    subst ht'
    exact ⟨rfl, rfl⟩

/-- C32: after any sequence of successful calls, a further call succeeds if and only if it is legal in
the documented phase: a component can be prepared when none is being tracked, tracked as a whole only
when freshly prepared, stepped only when not finished and by no more than what is left.  All other
calls violate an assertion or throw. -/
theorem legal_iff (eps : K) (heps : 0 ≤ eps) (heps1 : eps < 1) (iset : List (Nat × Nat))
    (os : List (Op K)) (t : Trk K) (hrun : run eps (Trk.make iset) os = .ok t)
    (hos : ∀ o ∈ os, NonNeg o) (o : Op K) (ho : NonNeg o) :
    (∃ t', step eps t o = .ok t') ↔ Legal eps (Known iset) (phase eps .idle os) o := by
  have key : ∀ (os : List (Op K)) (p : Phase K) (t0 : Trk K), Rel p t0 → t0.iset = iset →
      (∀ o ∈ os, NonNeg o) → run eps t0 os = .ok t → Rel (phase eps p os) t ∧ t.iset = iset := by
    intro os
    induction os with
    | nil =>
      intro p t0 hr hi _ h
      simp only [run, Outcome.ok.injEq] at h
      subst h
      exact ⟨hr, hi⟩
    | cons o os ih =>
      intro p t0 hr hi hn h
      simp only [run] at h
      cases hs : step eps t0 o with
      | ok t1 =>
        rw [hs, Outcome.bind_ok] at h
        obtain ⟨a, b⟩ := (step_rel eps heps heps1 p t0 o hr (hn o (by simp))).2 t1 hs
        have := ih _ t1 a (b.trans hi) (fun o ho => hn o (List.mem_cons_of_mem _ ho)) h
        cases o <;> exact this
      | throw e => rw [hs] at h; simp at h
      | ub => rw [hs] at h; simp at h
  obtain ⟨hr, hi⟩ := key os .idle (Trk.make iset) rfl rfl hos hrun
  have := (step_rel eps heps heps1 _ t o hr ho).1
  rw [hi] at this
  exact this

/-! ## C31 -/

/-- Steps are longer than the tolerance, except in components which are not. -/
def Proper (eps : K) : K → List (Op K) → Prop
  | _, [] => True
  | _, .prepare _ _ len :: os => 0 ≤ len ∧ Proper eps len os
  | len, .trackStep ds :: os => (eps < ds ∨ len ≤ eps) ∧ Proper eps len os
  | _, .reset :: _ => False
  | len, .track :: os => Proper eps len os

/-- What has been done to the bunch so far: complete passes and what remains of the current one. -/
def Inv (eps : K) (sel : List (Nat × K)) (t : Trk K) : Prop :=
  ∃ (passes : List ((Nat × K) × List (Ev K))) (rest : List (Ev K)),
    t.log = (passes.map Prod.snd).flatten ++ rest ∧
    (∀ p ∈ passes, Complete eps p.1.1 p.1.2 p.2) ∧
    match t.state with
    | .undefined => rest = [] ∧ sel = passes.map Prod.fst
    | .initialised => rest = [] ∧ sel = passes.map Prod.fst ++ [(t.comp, t.tot)] ∧ t.cur = 0 ∧ 0 ≤ t.tot ∧
        t.integrator ≠ none
    | .tracking => sel = passes.map Prod.fst ++ [(t.comp, t.tot)] ∧ eps < t.cur ∧ t.cur < t.tot - eps ∧
        t.integrator ≠ none ∧
        ∃ ds : List K, ds ≠ [] ∧ ds.sum = t.cur ∧ rest = Ev.entrance t.comp :: ds.map (Ev.body t.comp)
    | .finished => rest = [] ∧ sel = passes.map Prod.fst

theorem flatten_snoc {α β : Type} (l : List (α × List β)) (p : α × List β) (r : List β) :
    ((l ++ [p]).map Prod.snd).flatten ++ r = (l.map Prod.snd).flatten ++ (p.2 ++ r) := by
  simp

theorem step_inv (eps : K) (heps : 0 ≤ eps) (heps1 : eps < 1) (sel : List (Nat × K)) (t t' : Trk K)
    (o : Op K) (os : List (Op K)) (lastlen : K)
    (hlen : t.state = .initialised ∨ t.state = .tracking → t.tot = lastlen)
    (hp : Proper eps lastlen (o :: os)) (hi : Inv eps sel t) (hs : step eps t o = .ok t') :
    Inv eps (sel ++ prepared [o]) t' ∧
    ∃ len', Proper eps len' os ∧ (t'.state = .initialised ∨ t'.state = .tracking → t'.tot = len') := by
  obtain ⟨passes, rest, h1, h2, h3⟩ := hi
  cases o with
  | prepare ids c len =>
    simp only [step] at hs
    obtain ⟨hl0, hpos⟩ := hp
    by_cases hst : t.state = .undefined ∨ t.state = .finished
    · obtain ⟨a, b⟩ := prepare_spec t ids c len hst
      by_cases hk : Known t.iset ids
      · obtain ⟨n, hn⟩ := a hk
        rw [hn, Outcome.ok.injEq] at hs
        subst hs
        refine ⟨?_, len, hpos, fun _ => rfl⟩
        have h3' : rest = [] ∧ sel = passes.map Prod.fst := by
          rcases hst with h | h
          · rw [h] at h3; exact h3
          · rw [h] at h3; exact h3
        refine ⟨passes, rest, h1, h2, ?_⟩
        simp only [prepared]
        exact ⟨h3'.1, by rw [h3'.2], trivial, hl0, by simp⟩
      · rw [b hk] at hs
        cases hs
    · exact absurd hs (prepare_bad t ids c len hst t')
  | track =>
    simp only [step, track] at hs
    split at hs
    · rename_i hst
      rw [hst] at h3
      obtain ⟨r1, r2, r3, r4, r5⟩ := h3
      obtain ⟨n, hn⟩ := Option.ne_none_iff_exists'.1 r5
      rw [hn] at hs
      simp only [Outcome.ok.injEq] at hs
      subst hs
      refine ⟨?_, lastlen, hp, fun h => by simp at h⟩
      have hent : Range.fequal eps t.cur 0 = true := by
        simp [Range.fequal, r3, heps]
      have hex : Range.fequal eps (t.cur + t.tot) t.tot = true := by
        simp [Range.fequal, r3, heps]
      refine ⟨passes ++ [((t.comp, t.tot), [Ev.entrance t.comp, Ev.body t.comp t.tot, Ev.exit t.comp])], [],
        ?_, ?_, ?_⟩
      · simp only [integrate, hent, hex, if_true]
        rw [flatten_snoc, h1, r1]
        simp
      · intro p hp'
        rw [List.mem_append, List.mem_singleton] at hp'
        rcases hp' with hp' | rfl
        · exact h2 p hp'
        · exact ⟨[t.tot], by simp, by simp [heps], by simp⟩
      · simp [r2, prepared]
    · cases hs
  | trackStep ds =>
    obtain ⟨hds, hpos⟩ := hp
    by_cases hst : t.state = .initialised ∨ t.state = .tracking
    · have htot := hlen hst
      -- the part of the pass done so far
      obtain ⟨hc, hi', hsel, hdone⟩ : t.cur ≤ t.tot ∧ t.integrator ≠ none ∧
          sel = passes.map Prod.fst ++ [(t.comp, t.tot)] ∧
          ((t.cur = 0 ∧ rest = []) ∨ (eps < t.cur ∧ t.cur < t.tot - eps ∧
            ∃ ds : List K, ds ≠ [] ∧ ds.sum = t.cur ∧
              rest = Ev.entrance t.comp :: ds.map (Ev.body t.comp))) := by
        rcases hst with h | h
        · rw [h] at h3
          exact ⟨by rw [h3.2.2.1]; exact h3.2.2.2.1, h3.2.2.2.2, h3.2.1, Or.inl ⟨h3.2.2.1, h3.1⟩⟩
        · rw [h] at h3
          exact ⟨by linarith [h3.2.2.1], h3.2.2.2.1, h3.1, Or.inr ⟨h3.2.1, h3.2.2.1, h3.2.2.2.2⟩⟩
      obtain ⟨a, b⟩ := trackStep_ok eps heps heps1 t ds hst hi' hc
      by_cases hv : 0 ≤ ds ∧ ds ≤ remaining eps t
      · simp only [step, a hv, Outcome.bind_ok, Outcome.pure_eq, Outcome.ok.injEq] at hs
        have hrem := remaining_le eps t hc
        -- the events of this step
        obtain ⟨dss, hne, hsum, hlog⟩ : ∃ dss : List K, dss ≠ [] ∧ dss.sum = t.cur + ds ∧
            (if Range.fequal eps t.cur 0 then t.log ++ [Ev.entrance t.comp] else t.log) ++
              [Ev.body t.comp ds] = (passes.map Prod.snd).flatten ++
                (Ev.entrance t.comp :: dss.map (Ev.body t.comp)) := by
          rcases hdone with ⟨hc0, hr0⟩ | ⟨hc1, _, d, hd1, hd2, hd3⟩
          · refine ⟨[ds], by simp, by simp [hc0], ?_⟩
            have : Range.fequal eps t.cur 0 = true := by simp [Range.fequal, hc0, heps]
            rw [if_pos this, h1, hr0]
            simp
          · refine ⟨d ++ [ds], by simp, by simp [hd2], ?_⟩
            have : ¬ Range.fequal eps t.cur 0 = true := by
              simp only [Range.fequal, sub_zero, decide_eq_true_eq, not_le]
              rw [abs_of_pos (by linarith)]
              exact hc1
            rw [if_neg this, h1, hd3]
            simp
        by_cases hfin : |t.tot - (t.cur + ds)| ≤ eps
        · have hex : Range.fequal eps (t.cur + ds) t.tot = true := by
            simp only [Range.fequal, decide_eq_true_eq]
            rw [abs_sub_comm]
            exact hfin
          subst hs
          refine ⟨?_, lastlen, hpos, fun h => by simp [hfin] at h⟩
          refine ⟨passes ++ [((t.comp, t.tot), Ev.entrance t.comp :: dss.map (Ev.body t.comp) ++
            [Ev.exit t.comp])], [], ?_, ?_, ?_⟩
          · simp only [integrate, hex, if_true]
            rw [hlog, flatten_snoc]
            simp
          · intro p hp'
            rw [List.mem_append, List.mem_singleton] at hp'
            rcases hp' with hp' | rfl
            · exact h2 p hp'
            · exact ⟨dss, hne, by rw [hsum]; exact hfin, rfl⟩
          · simp only [hfin, if_true]
            exact ⟨trivial, by simp [hsel, prepared]⟩
        · have hex : ¬ Range.fequal eps (t.cur + ds) t.tot = true := by
            simp only [Range.fequal, decide_eq_true_eq]
            rw [abs_sub_comm]
            exact hfin
          subst hs
          refine ⟨?_, lastlen, hpos, fun _ => htot⟩
          refine ⟨passes, Ev.entrance t.comp :: dss.map (Ev.body t.comp), ?_, h2, ?_⟩
          · simp only [integrate, hex, Bool.false_eq_true, if_false]
            exact hlog
          · simp only [hfin, if_false, integrate]
            have hge : 0 ≤ t.tot - (t.cur + ds) := by linarith [hv.2]
            rw [not_le, abs_of_nonneg hge] at hfin
            have hcur0 : 0 ≤ t.cur := by
              rcases hdone with ⟨h, _⟩ | ⟨h, _, _⟩
              · rw [h]
              · linarith
            have hdsl : eps < ds := by
              rcases hds with h | h
              · exact h
              · exfalso
                rw [← htot] at h
                linarith [hv.1]
            exact ⟨by simp [hsel, prepared], by linarith, by linarith, hi', dss, hne, hsum, rfl⟩
      · simp [step, b hv] at hs
    · simp [step, trackStep, hst] at hs
  | reset => exact absurd hp (by simp [Proper])

/-- C31: whatever the step pattern, as long as steps exceed the tolerance (any positive step when the
tolerance is zero), the bunch sees for each component prepared, in order, the entrance map once, then
the steps, which add up to the length, then the exit map once; only the last component may be
unfinished, and then it has seen its entrance map once and no exit map. -/
theorem passes_complete (eps : K) (heps : 0 ≤ eps) (heps1 : eps < 1) (iset : List (Nat × Nat))
    (os : List (Op K)) (t : Trk K) (hp : Proper eps 0 os) (hrun : run eps (Trk.make iset) os = .ok t) :
    ∃ (passes : List ((Nat × K) × List (Ev K))) (rest : List (Ev K)),
      t.log = (passes.map Prod.snd).flatten ++ rest ∧
      (∀ p ∈ passes, Complete eps p.1.1 p.1.2 p.2) ∧
      ((rest = [] ∧ prepared os = passes.map Prod.fst) ∨
        ∃ c len, prepared os = passes.map Prod.fst ++ [(c, len)] ∧
          (rest = [] ∨ Begun eps c len rest)) := by
  have key : ∀ (os : List (Op K)) (sel : List (Nat × K)) (len : K) (t0 : Trk K),
      (t0.state = .initialised ∨ t0.state = .tracking → t0.tot = len) → Proper eps len os →
      Inv eps sel t0 → run eps t0 os = .ok t → Inv eps (sel ++ prepared os) t := by
    intro os
    induction os with
    | nil =>
      intro sel len t0 _ _ hi h
      simp only [run, Outcome.ok.injEq] at h
      subst h
      simpa [prepared] using hi
    | cons o os ih =>
      intro sel len t0 hl hp hi h
      simp only [run] at h
      cases hs : step eps t0 o with
      | ok t1 =>
        rw [hs, Outcome.bind_ok] at h
        obtain ⟨a, len', b, c⟩ := step_inv eps heps heps1 sel t0 t1 o os len hl hp hi hs
        have := ih _ len' t1 c b a h
        cases o <;> simpa [prepared] using this
      | throw e => rw [hs] at h; simp at h
      | ub => rw [hs] at h; simp at h
  have h0 : Inv eps [] (Trk.make iset : Trk K) := ⟨[], [], rfl, by simp, by simp [Trk.make]⟩
  have := key os [] 0 (Trk.make iset) (by simp [Trk.make]) hp h0 hrun
  rw [List.nil_append] at this
  obtain ⟨passes, rest, h1, h2, h3⟩ := this
  refine ⟨passes, rest, h1, h2, ?_⟩
  cases hst : t.state with
  | undefined => rw [hst] at h3; exact Or.inl h3
  | finished => rw [hst] at h3; exact Or.inl h3
  | initialised =>
    rw [hst] at h3
    exact Or.inr ⟨_, _, h3.2.1, Or.inl h3.1⟩
  | tracking =>
    rw [hst] at h3
    obtain ⟨a, b, c, _, ds, d1, d2, d3⟩ := h3
    exact Or.inr ⟨_, _, a, Or.inr ⟨ds, d1, by rw [d2]; exact c, d3⟩⟩

/-- The lengths of the steps in a list of events. -/
def stepSum : List (Ev K) → K
  | [] => 0
  | .body _ ds :: l => ds + stepSum l
  | _ :: l => stepSum l

theorem stepSum_append (l r : List (Ev K)) : stepSum (l ++ r) = stepSum l + stepSum r := by
  induction l with
  | nil => simp [stepSum]
  | cons e l ih =>
    cases e <;> simp [stepSum, ih, add_assoc]

/-- C31: the reference time of the bunch is the total length of the steps tracked, for any sequence of
calls. -/
theorem refTime_total (eps : K) (iset : List (Nat × Nat)) (os : List (Op K)) (t : Trk K)
    (hrun : run eps (Trk.make iset) os = .ok t) : t.refTime = stepSum t.log := by
  have hint : ∀ (t : Trk K) (ds : K), t.refTime = stepSum t.log →
      (integrate eps t ds).refTime = stepSum (integrate eps t ds).log := by
    intro t ds h
    simp only [integrate]
    split <;> split <;> simp [stepSum_append, stepSum, h]
  have hprep : ∀ (ids : List Nat) (c : Nat) (len : K) (t t' : Trk K), prepare t ids c len = .ok t' →
      t'.refTime = t.refTime ∧ t'.log = t.log := by
    intro ids c len
    induction ids with
    | nil => intro t t' h; simp [prepare] at h
    | cons i ids ih =>
      intro t t' h
      simp only [prepare, selectIntegrator] at h
      split at h
      · cases hl : t.iset.lookup i with
        | some n =>
          simp only [hl, Outcome.bind_ok, if_true, Outcome.pure_eq, Outcome.ok.injEq] at h
          subst h
          exact ⟨rfl, rfl⟩
        | none =>
          simp only [hl, Outcome.bind_ok, Bool.false_eq_true, if_false] at h
          exact ih { t with integrator := none } t' h
      · simp at h
  have hstep : ∀ (t t' : Trk K) (o : Op K), t.refTime = stepSum t.log → step eps t o = .ok t' →
      t'.refTime = stepSum t'.log := by
    intro t t' o h hs
    cases o with
    | prepare ids c len =>
      obtain ⟨a, b⟩ := hprep ids c len t t' hs
      rw [a, b, h]
    | track =>
      simp only [step, track] at hs
      split at hs
      · split at hs
        · simp only [Outcome.ok.injEq] at hs
          subst hs
          exact hint t t.tot h
        · cases hs
      · cases hs
    | trackStep ds =>
      simp only [step, trackStep] at hs
      split at hs
      · split at hs
        · split at hs
          · simp only [Outcome.bind_ok, Outcome.pure_eq, Outcome.ok.injEq] at hs
            subst hs
            exact hint t ds h
          · simp at hs
        · simp at hs
      · simp at hs
    | reset =>
      simp only [step, Outcome.ok.injEq] at hs
      subst hs
      exact h
  have key : ∀ (os : List (Op K)) (t0 : Trk K), t0.refTime = stepSum t0.log →
      run eps t0 os = .ok t → t.refTime = stepSum t.log := by
    intro os
    induction os with
    | nil =>
      intro t0 h0 h
      simp only [run, Outcome.ok.injEq] at h
      subst h
      exact h0
    | cons o os ih =>
      intro t0 h0 h
      simp only [run] at h
      cases hs : step eps t0 o with
      | ok t1 =>
        rw [hs, Outcome.bind_ok] at h
        exact ih t1 (hstep t0 t1 o h0 hs) h
      | throw e => rw [hs] at h; simp at h
      | ub => rw [hs] at h; simp at h
  exact key os _ rfl hrun

end

/-- C31 does not hold for steps of length zero, which are allowed: the entrance map is applied again by
the next step. -/
theorem zero_step_violated :
    ∃ t, run (0 : ℚ) (Trk.make [(1, 1)]) [.prepare [1] 7 2, .trackStep 0, .trackStep 2] = .ok t ∧
      t.log = [.entrance 7, .body 7 0, .entrance 7, .body 7 2, .exit 7] :=
  Outcome.exists_ok (by decide +kernel)

/-- C31 does not hold: `TrackStep` is documented to return the remaining distance; it returns the
number of the state. -/
theorem trackStep_return_violated :
    ∃ r, (run (0 : ℚ) (Trk.make [(1, 1)]) [.prepare [1] 7 10] >>= fun t => trackStep 0 t 4) = .ok r ∧
      r.2 = 2 ∧ getRemainingLength 0 r.1 = .ok 6 :=
  Outcome.exists_ok (by decide +kernel)

/-- C32: after an attempt to prepare an unknown component, the remaining length, documented to be
available in the state "finished", is read through a null pointer. -/
theorem unknown_violated :
    ∃ r, (run (0 : ℚ) (Trk.make [(1, 1)]) [.prepare [1] 7 10, .track] >>= fun t =>
        selectIntegrator t 2 8 3) = .ok r ∧
      r.2 = false ∧ r.1.state = .finished ∧ getRemainingLength 0 r.1 = .ub :=
  Outcome.exists_ok (by decide +kernel)

/-- C73 does not hold: when tracking is abandoned in the middle of a component (an exception of another
process), no other component can be prepared until `Reset`, which the transport process never calls. -/
theorem abandoned_violated :
    ∃ t, (run (0 : ℚ) (Trk.make [(1, 1)]) [.prepare [1] 7 10, .trackStep 4]) = .ok t ∧
      prepare t [1] 8 3 = .ub :=
  Outcome.exists_ok (by decide +kernel)

section
variable {K : Type} [Field K] [LinearOrder K] [IsStrictOrderedRing K]

/-- C73 (partial): `Reset` always makes the tracker ready for another component. -/
theorem reset_prepares (t : Trk K) (ids : List Nat) (c : Nat) (len : K) (hk : Known t.iset ids) :
    ∃ t', prepare (reset t) ids c len = .ok t' ∧ t'.state = .initialised ∧ t'.comp = c ∧ t'.tot = len ∧
      t'.cur = 0 := by
  obtain ⟨n, hn⟩ := (prepare_spec (reset t) ids c len (Or.inl rfl)).1 hk
  exact ⟨_, hn, rfl, rfl, rfl, rfl⟩

/-- C74: the integrator used for a component is that of the most derived class that has one. -/
theorem most_derived (t : Trk K) (pre : List Nat) (i : Nat) (post : List Nat) (n : Nat) (c : Nat) (len : K)
    (hst : t.state = .undefined ∨ t.state = .finished) (hpre : ∀ j ∈ pre, t.iset.lookup j = none)
    (hi : t.iset.lookup i = some n) :
    ∃ t', prepare t (pre ++ i :: post) c len = .ok t' ∧ t'.integrator = some n := by
  induction pre generalizing t with
  | nil =>
    simp only [List.nil_append, prepare, selectIntegrator, hst, if_true, hi, Outcome.bind_ok,
      Outcome.pure_eq]
    exact ⟨_, rfl, rfl⟩
  | cons j pre ih =>
    have hj := hpre j (by simp)
    simp only [List.cons_append, prepare, selectIntegrator, hst, if_true, hj, Outcome.bind_ok,
      Bool.false_eq_true, if_false]
    exact ih { t with integrator := none } hst (fun k hk => hpre k (List.mem_cons_of_mem _ hk)) hi

end

theorem lookup_map_replace (l : List (Nat × Nat)) (index i k : Nat) :
    (l.map (fun p => if p.1 = index then (index, i) else p)).lookup k =
      if k = index then (l.lookup k).map (fun _ => i) else l.lookup k := by
  induction l with
  | nil => simp
  | cons p l ih =>
    obtain ⟨a, b⟩ := p
    simp only [List.map_cons, List.lookup_cons]
    by_cases hk : k = index
    · subst hk
      simp only [if_true] at ih ⊢
      by_cases ha : a = k
      · subst ha
        simp
      · have : (k == a) = false := by simpa using fun h => ha h.symm
        simp [ha, List.lookup_cons, this, ih]
    · simp only [hk, if_false] at ih ⊢
      by_cases ha : a = index
      · subst ha
        have : (k == a) = false := by simpa using hk
        simp [List.lookup_cons, this, ih]
      · simp only [ha, if_false]
        rw [List.lookup_cons, ih]

theorem lookup_append_single (l : List (Nat × Nat)) (index i k : Nat) (h : l.lookup index = none) :
    (l ++ [(index, i)]).lookup k = if k = index then some i else l.lookup k := by
  induction l with
  | nil =>
    by_cases hk : k = index
    · simp [hk]
    · have : (k == index) = false := by simpa using hk
      simp [List.lookup_cons, this, hk]
  | cons p l ih =>
    obtain ⟨a, b⟩ := p
    rw [List.lookup_cons] at h
    by_cases ha : index = a
    · subst ha; simp at h
    · have h' : (index == a) = false := by simpa using ha
      rw [h'] at h
      rw [List.cons_append, List.lookup_cons, List.lookup_cons, ih h]
      by_cases hka : k = a
      · subst hka
        have : ¬ k = index := fun hc => ha hc.symm
        simp [this]
      · have : (k == a) = false := by simpa using hka
        simp [this]

/-- C74: registering integrators: the one registered last for a class is used, classes without
registration have none, and each call tells whether it replaced an integrator. -/
theorem registry (regs : List (Nat × Nat)) (index i : Nat) :
    let iset := regs.foldl (fun s r => (addIntegrator s r.1 r.2).1) []
    (∀ k, (addIntegrator iset index i).1.lookup k = if k = index then some i else iset.lookup k) ∧
    (addIntegrator iset index i).2 = regs.any (fun r => r.1 = index) ∧
    ∀ k, iset.lookup k = (regs.reverse.lookup k) := by
  have hadd : ∀ (s : List (Nat × Nat)) (index i k : Nat),
      (addIntegrator s index i).1.lookup k = if k = index then some i else s.lookup k := by
    intro s index i k
    simp only [addIntegrator]
    cases hl : s.lookup index with
    | some n =>
      simp only [lookup_map_replace]
      by_cases hk : k = index
      · subst hk; simp [hl]
      · simp [hk]
    | none => exact lookup_append_single s index i k hl
  have hfold : ∀ (regs : List (Nat × Nat)) (s : List (Nat × Nat)) (k : Nat),
      (regs.foldl (fun s r => (addIntegrator s r.1 r.2).1) s).lookup k =
        (regs.reverse.lookup k).or (s.lookup k) := by
    intro regs
    induction regs with
    | nil => intro s k; simp
    | cons r regs ih =>
      intro s k
      obtain ⟨a, b⟩ := r
      rw [List.foldl_cons, ih, hadd, List.reverse_cons, List.lookup_append, Option.or_assoc]
      congr 1
      by_cases hk : k = a
      · simp [hk]
      · have : (k == a) = false := by simpa using hk
        simp [List.lookup_cons, hk, this]
  have hall : ∀ (regs : List (Nat × Nat)) (k : Nat),
      (regs.foldl (fun s r => (addIntegrator s r.1 r.2).1) []).lookup k = regs.reverse.lookup k := by
    intro regs k
    rw [hfold]
    simp
  intro iset
  refine ⟨hadd iset index i, ?_, hall regs⟩
  have h2 : (addIntegrator iset index i).2 = (iset.lookup index).isSome := by
    simp only [addIntegrator]
    cases iset.lookup index <;> rfl
  rw [h2, hall regs index]
  rw [Bool.eq_iff_iff, List.any_eq_true]
  have : ∀ l : List (Nat × Nat), (l.lookup index).isSome = true ↔ ∃ r ∈ l, r.1 = index := by
    intro l
    induction l with
    | nil => simp
    | cons p l ih =>
      obtain ⟨a, b⟩ := p
      rw [List.lookup_cons]
      by_cases ha : index = a
      · subst ha; simp
      · have h' : (index == a) = false := by simpa using ha
        have : ¬ a = index := fun hc => ha hc.symm
        simp only [h', List.mem_cons]
        rw [ih]
        constructor
        · rintro ⟨r, hr, h⟩; exact ⟨r, Or.inr hr, h⟩
        · rintro ⟨r, rfl | hr, h⟩
          · exact absurd h this
          · exact ⟨r, hr, h⟩
  rw [this]
  simp

example : Proper (0 : ℚ) 0 [.prepare [1] 7 10, .trackStep 4, .trackStep 6, .prepare [1] 8 0, .trackStep 0] := by
  simp only [Proper]
  norm_num

example : ∃ t, run (0 : ℚ) (Trk.make [(1, 1)])
    [.prepare [2, 1] 7 10, .trackStep 4, .trackStep 6, .prepare [1] 8 0, .trackStep 0] = .ok t ∧
    t.log = [.entrance 7, .body 7 4, .body 7 6, .exit 7, .entrance 8, .body 8 0, .exit 8] ∧
    t.refTime = 10 := Outcome.exists_ok (by decide +kernel)

#print axioms legal_iff
#print axioms passes_complete
#print axioms refTime_total
#print axioms zero_step_violated
#print axioms trackStep_return_violated
#print axioms unknown_violated
#print axioms abandoned_violated
#print axioms reset_prepares
#print axioms most_derived
#print axioms registry

end Verif.Tracker
