import Verif.NANCheck.Lemmas
import Mathlib.Tactic.Linarith
import Mathlib.Tactic.NormNum
import Mathlib.Algebra.Order.Ring.Rat

/-!
# Property theorems for the check for invalid particles and the halo filters (C161-C163)
-/

set_option linter.unusedSectionVars false

namespace Verif.NANCheck
open Verif Verif.NANCheck.Spec

variable {D : Type}

/-! ## C161: what is reported -/

theorem doProcess_scan (fin : D → Bool) (s : Proc D) (s' : Proc D) (out : List (Entry D))
    (h : doProcess fin s = .ok (s', out)) :
    ∃ r, scan fin s s.bunch 0 s.reported false = .ok r ∧ out = r.2.2 ∧
      s' = { s with reported := r.1, bunch := if r.2.1 then doCull fin s.bunch else s.bunch } := by
  unfold doProcess at h
  cases hs : scan fin s s.bunch 0 s.reported false with
  | ub => rw [hs] at h; simp [Outcome.bind] at h
  | throw e => rw [hs] at h; simp [Outcome.bind] at h
  | ok r =>
    rw [hs] at h
    simp only [Outcome.bind] at h
    injection h with h
    have h1 := congrArg Prod.fst h
    have h2 := congrArg Prod.snd h
    exact ⟨r, rfl, h2.symm, h1.symm⟩

/-- **C161.** A call reports exactly the ids that have an invalid particle in the bunch and were not reported before, each
of them once; and remembers them. -/
theorem reports_exactly (fin : D → Bool) (s s' : Proc D) (out : List (Entry D)) (h : doProcess fin s = .ok (s', out)) :
    (∀ i, i ∈ out.map (·.pid) ↔ i ∉ s.reported ∧ ∃ p ∈ s.bunch, p.pid = i ∧ Bad fin p) ∧
    (out.map (·.pid)).Nodup ∧
    ∀ i, i ∈ s'.reported ↔ i ∈ s.reported ∨ ∃ p ∈ s.bunch, p.pid = i ∧ Bad fin p := by
  obtain ⟨r, h1, rfl, rfl⟩ := doProcess_scan fin s s' out h
  obtain ⟨a1, a2, a3, a4⟩ := scan_ok fin s s.bunch 0 s.reported false r h1
  exact ⟨a3, a4, a1⟩

/-- **C161.** Without detailed output nothing undefined happens; without halting the call comes back. -/
theorem check_defined (fin : D → Bool) (s : Proc D) (hd : s.detailed = false) (hh : s.halt = false) :
    ∃ r, doProcess fin s = .ok r := by
  obtain ⟨r, hr⟩ := scan_total fin s hh s.bunch 0 s.reported false (fun h => absurd h (by simp [hd]))
  exact ⟨_, by rw [doProcess, hr]; rfl⟩

/-- **C161.** Halting: the program ends exactly if there is an invalid particle not reported before. -/
theorem halts_iff (fin : D → Bool) (s : Proc D) (hd : s.detailed = false) (hh : s.halt = true) :
    doProcess fin s = .throw .abort ↔ ∃ p ∈ s.bunch, Bad fin p ∧ p.pid ∉ s.reported := by
  have key : ∀ (l : List (Particle D)) (n : Nat) (c : Bool),
      (scan fin s l n s.reported c = .throw .abort ∧ ∃ p ∈ l, Bad fin p ∧ p.pid ∉ s.reported) ∨
      ((∃ r, scan fin s l n s.reported c = .ok r) ∧ ¬ ∃ p ∈ l, Bad fin p ∧ p.pid ∉ s.reported) := by
    intro l
    induction l with
    | nil => intro n c; right; exact ⟨⟨_, rfl⟩, by simp⟩
    | cons p l ih =>
      intro n c
      rw [scan]
      by_cases h1 : s.reported.contains p.pid = true
      · rw [if_pos h1]
        have hm : p.pid ∈ s.reported := by simpa using h1
        have : (∃ q ∈ p :: l, Bad fin q ∧ q.pid ∉ s.reported) ↔ ∃ q ∈ l, Bad fin q ∧ q.pid ∉ s.reported := by simp [hm]
        rw [this]
        exact ih n c
      · rw [if_neg h1]
        have hm : p.pid ∉ s.reported := by simpa using h1
        by_cases h2 : isGood fin p = true
        · rw [if_neg (by simp [h2])]
          have hb : ¬ Bad fin p := (isGood_iff fin p).1 h2
          have : (∃ q ∈ p :: l, Bad fin q ∧ q.pid ∉ s.reported) ↔ ∃ q ∈ l, Bad fin q ∧ q.pid ∉ s.reported := by simp [hb]
          rw [this]
          exact ih (n + 1) c
        · have h2' : isGood fin p = false := by simpa using h2
          rw [if_pos (by simp [h2'])]
          left
          refine ⟨?_, p, List.mem_cons_self, (isGood_false fin p).1 h2', hm⟩
          simp [report, hd, Outcome.bind, hh]
  rcases key s.bunch 0 false with ⟨h1, h2⟩ | ⟨⟨r, h1⟩, h2⟩
  · exact ⟨fun _ => h2, fun _ => by rw [doProcess, h1]; rfl⟩
  · exact ⟨fun h => by rw [doProcess, h1] at h; simp [Outcome.bind] at h, fun h => absurd h h2⟩

/-- **C161, partial.** The index printed is the place of the particle in the bunch, if ids differ and no particle of the
bunch was reported before.  Missing: bunches that still hold reported particles, where it is wrong
(`index_violated`). -/
theorem index_right_partial (fin : D → Bool) (s s' : Proc D) (out : List (Entry D)) (h : doProcess fin s = .ok (s', out))
    (hd : Distinct s.bunch) (hn : ∀ p ∈ s.bunch, p.pid ∉ s.reported) :
    ∀ e ∈ out, ∃ p, s.bunch[e.index]? = some p ∧ p.pid = e.pid ∧ Bad fin p := by
  obtain ⟨r, h1, rfl, rfl⟩ := doProcess_scan fin s s' out h
  intro e he
  have := scan_index fin s s.bunch 0 s.reported false r h1 hd hn e he
  simpa using this.2

/-- A particle for examples: the first coordinate may be invalid. -/
def sample (i : Int) (b : Bool) : Particle Bool := ⟨fun k => if k = 0 then b else true, i⟩

/-- **C161, violated.** Of two invalid particles found one after the other, the second is reported at the place of the
first. -/
theorem index_violated : ∃ (s s' : Proc Bool) (out : List (Entry Bool)), Distinct s.bunch ∧
    doProcess id s = .ok (s', out) ∧ ∃ e ∈ out, ∃ p, s.bunch[e.index]? = some p ∧ p.pid ≠ e.pid := by
  refine ⟨⟨false, false, false, [], [], [1], [sample 1 false, sample 2 false]⟩, _, _, by unfold Distinct; decide, rfl, ?_⟩
  exact ⟨_, List.mem_cons_self, sample 1 false, rfl, by decide⟩

/-- **C161, violated.** Particles without ids of their own: the second invalid particle of the same id is not reported, and
the coordinates printed as current are those of a valid particle. -/
theorem equal_ids_violated : ∃ (s s' : Proc Bool) (e : Entry Bool), doProcess id s = .ok (s', [e]) ∧
    (s.bunch.filter fun p => !isGood id p).length = 2 ∧ ∃ q, e.current = some q ∧ ¬ Bad id q := by
  refine ⟨⟨false, false, false, [], [], [], [sample 0 true, sample 0 false, sample 0 false]⟩, _, _, rfl, by decide,
    sample 0 true, rfl, ?_⟩
  rw [← isGood_iff]; decide

/-- **C161.** Detailed output is defined as long as the particles of the bunch were there at the start of the element. -/
theorem detailed_defined (fin : D → Bool) (track : List (Particle D) → List (Particle D)) (hk : KeepsIds track)
    (s : Proc D) (hh : s.halt = false) : ∃ r, element fin track s = .ok r := by
  have hd : (setCurrentComponent s).halt = false := by unfold setCurrentComponent; split <;> exact hh
  obtain ⟨r, hr⟩ := scan_total fin { setCurrentComponent s with bunch := track (setCurrentComponent s).bunch } hd
    (track (setCurrentComponent s).bunch) 0 (setCurrentComponent s).reported false (by
      intro hdet p hp
      have hdet' : s.detailed = true := by
        unfold setCurrentComponent at hdet
        by_cases h : s.detailed = true
        · exact h
        · rw [if_neg h] at hdet; exact hdet
      obtain ⟨q, hq, hqp⟩ := hk _ p hp
      refine ⟨q, ?_, hqp⟩
      show q ∈ (setCurrentComponent s).start
      unfold setCurrentComponent at hq ⊢
      rw [if_pos hdet'] at hq ⊢
      exact hq)
  exact ⟨_, by rw [element, doProcess, hr]; rfl⟩

/-- **C161, violated.** In detailed mode an invalid particle that was not in the bunch at the start of the element, or any
one if the mode was set after the element was entered, is undefined behaviour. -/
theorem detailed_violated : ∃ s : Proc Bool, s.detailed = true ∧ s.halt = false ∧ doProcess id s = .ub :=
  ⟨⟨true, false, false, [], [], [], [sample 1 false]⟩, rfl, rfl, rfl⟩

/-- **C161.** Detailed output shows the particle as it entered this element and the one before. -/
theorem detailed_history (fin : D → Bool) (t1 t2 : List (Particle D) → List (Particle D)) (s s1 s2 : Proc D)
    (o1 o2 : List (Entry D)) (hd : s.detailed = true) (h1 : element fin t1 s = .ok (s1, o1))
    (h2 : element fin t2 s1 = .ok (s2, o2)) (e : Entry D) (he : e ∈ o2) :
    e.prev = s.bunch.find? (fun p => p.pid == e.pid) ∧ e.start = s1.bunch.find? (fun p => p.pid == e.pid) ∧
    e.current = (t2 s1.bunch).find? (fun p => p.pid == e.pid) := by
  obtain ⟨r1, -, -, hs1⟩ := doProcess_scan _ _ _ _ h1
  have hd1 : s1.detailed = true := by
    rw [hs1]; unfold setCurrentComponent; rw [if_pos hd]; exact hd
  have hst1 : s1.start = s.bunch := by
    rw [hs1]; unfold setCurrentComponent; rw [if_pos hd]
  obtain ⟨r2, hr2, rfl, -⟩ := doProcess_scan _ _ _ _ h2
  have key : ∀ (q : Proc D) (hq : q.detailed = true) (l : List (Particle D)) (n : Nat) (rep : List Int) (c : Bool) r,
      scan fin q l n rep c = .ok r → ∀ e ∈ r.2.2,
        e.prev = findId e.pid q.prev ∧ e.start = findId e.pid q.start ∧ e.current = findId e.pid q.bunch := by
    intro q hq l
    induction l with
    | nil =>
      intro n rep c r h
      simp only [scan] at h
      injection h with h; subst h; simp
    | cons p l ih =>
      intro n rep c r h
      rw [scan] at h
      split at h
      · exact ih _ _ _ _ h
      · split at h
        · cases hr : report q n p.pid with
          | ub => rw [hr] at h; simp [Outcome.bind] at h
          | throw e => rw [hr] at h; simp [Outcome.bind] at h
          | ok e =>
            rw [hr] at h
            simp only [Outcome.bind] at h
            split at h
            · simp at h
            · cases hs : scan fin q l (n + 1) (p.pid :: rep) (c || q.cull) with
              | ub => rw [hs] at h; simp at h
              | throw e => rw [hs] at h; simp at h
              | ok r' =>
                rw [hs] at h
                simp only at h
                injection h with h
                subst h
                intro e' he'
                rcases List.mem_cons.1 he' with rfl | he'
                · unfold report at hr
                  rw [if_pos hq] at hr
                  split at hr
                  · simp at hr
                  · rename_i q' hf
                    injection hr with hr
                    subst hr
                    exact ⟨rfl, hf.symm, rfl⟩
                · exact ih _ _ _ _ hs e' he'
        · exact ih _ _ _ _ h
  have hkey := key _ (by unfold setCurrentComponent; rw [if_pos hd1]; exact hd1) _ _ _ _ _ hr2 e he
  unfold setCurrentComponent at hkey
  rw [if_pos hd1] at hkey
  simp only [hst1] at hkey
  exact hkey

example : ∃ (t1 t2 : List (Particle Bool) → List (Particle Bool)) (s s1 s2 : Proc Bool) (o1 o2 : List (Entry Bool)),
    s.detailed = true ∧ element id t1 s = .ok (s1, o1) ∧ element id t2 s1 = .ok (s2, o2) ∧ o2 ≠ [] :=
  ⟨id, fun b => b.map fun p => sample p.pid false,
    ⟨true, false, false, [], [], [], [sample 1 true, sample 2 true]⟩, _, _, _, _, rfl, rfl, rfl, by decide⟩

/-! ## C162: removal of invalid particles -/

/-- **C162.** A call keeps all valid particles in their order, and removes invalid ones only. -/
theorem valid_kept (fin : D → Bool) (s s' : Proc D) (out : List (Entry D)) (h : doProcess fin s = .ok (s', out)) :
    s'.bunch.Sublist s.bunch ∧ ∀ p, ¬ Bad fin p → (p ∈ s'.bunch ↔ p ∈ s.bunch) := by
  obtain ⟨r, h1, rfl, rfl⟩ := doProcess_scan fin s s' out h
  constructor
  · show List.Sublist (if r.2.1 then doCull fin s.bunch else s.bunch) s.bunch
    split
    · exact List.filter_sublist
    · exact List.Sublist.refl _
  · intro p hp
    show p ∈ (if r.2.1 then doCull fin s.bunch else s.bunch) ↔ _
    split
    · rw [doCull, List.mem_filter]
      exact ⟨fun h => h.1, fun h => ⟨h, (isGood_iff fin p).2 hp⟩⟩
    · rfl

/-- **C162.** The bunch is left alone exactly unless culling is on and something new was found; otherwise it holds the
valid particles. -/
theorem cull_iff (fin : D → Bool) (s s' : Proc D) (out : List (Entry D)) (h : doProcess fin s = .ok (s', out)) :
    (s.cull = true ∧ out ≠ [] → s'.bunch = s.bunch.filter fun p => (List.finRange 6).all fun i => fin (p.v i)) ∧
    (¬ (s.cull = true ∧ out ≠ []) → s'.bunch = s.bunch) := by
  obtain ⟨r, h1, rfl, rfl⟩ := doProcess_scan fin s s' out h
  obtain ⟨a1, a2, a3, a4⟩ := scan_ok fin s s.bunch 0 s.reported false r h1
  have hout : r.2.2 ≠ [] ↔ ∃ p ∈ s.bunch, Bad fin p ∧ p.pid ∉ s.reported := by
    constructor
    · intro hne
      obtain ⟨e, es, he⟩ := List.exists_cons_of_ne_nil hne
      obtain ⟨hi, p, hp, hpi, hb⟩ := (a3 e.pid).1 (by rw [he]; simp)
      exact ⟨p, hp, hb, hpi ▸ hi⟩
    · rintro ⟨p, hp, hb, hi⟩ hnil
      have := (a3 p.pid).2 ⟨hi, p, hp, rfl, hb⟩
      rw [hnil] at this; simp at this
  have hfl : r.2.1 = true ↔ s.cull = true ∧ r.2.2 ≠ [] := by rw [a2, hout]; simp
  have hgood : isGood fin = fun p => (List.finRange 6).all fun i => fin (p.v i) := by
    funext p
    rw [Bool.eq_iff_iff, isGood_iff, Bad, List.all_eq_true]
    simp
  constructor
  · intro hc
    show (if r.2.1 then doCull fin s.bunch else s.bunch) = _
    rw [if_pos (hfl.2 hc), doCull, hgood]
  · intro hc
    show (if r.2.1 then doCull fin s.bunch else s.bunch) = _
    rw [if_neg (fun h => hc (hfl.1 h))]

/-- State kept by a run with culling from the start. -/
def Clean (fin : D → Bool) (s : Proc D) : Prop :=
  s.cull = true ∧ s.halt = false ∧ (∀ p ∈ s.bunch, p.pid ∉ s.reported) ∧ Distinct s.bunch ∧ ∀ p ∈ s.bunch, ¬ Bad fin p

theorem element_clean (fin : D → Bool) (t : List (Particle D) → List (Particle D)) (hk : KeepsIds t)
    (hd : ∀ b, Distinct b → Distinct (t b)) (s : Proc D) (hc : s.cull = true) (hh : s.halt = false)
    (hn : ∀ p ∈ s.bunch, p.pid ∉ s.reported) (hdis : Distinct s.bunch) :
    ∃ s' out, element fin t s = .ok (s', out) ∧ Clean fin s' ∧
      (∀ e ∈ out, e.pid ∉ s.reported ∧ e.pid ∈ s'.reported ∧ (∃ q ∈ s.bunch, q.pid = e.pid) ∧
        ∃ p, (t s.bunch)[e.index]? = some p ∧ p.pid = e.pid) ∧
      (∀ i ∈ s.reported, i ∈ s'.reported) ∧ (∀ p ∈ s'.bunch, p ∈ t s.bunch) := by
  obtain ⟨⟨s', out⟩, he⟩ := detailed_defined fin t hk s hh
  have hsc : (setCurrentComponent s).cull = true ∧ (setCurrentComponent s).halt = false ∧
      (setCurrentComponent s).bunch = s.bunch ∧ (setCurrentComponent s).reported = s.reported := by
    unfold setCurrentComponent; split <;> exact ⟨hc, hh, rfl, rfl⟩
  obtain ⟨c1, c2, c3, c4⟩ := hsc
  have he' : doProcess fin { setCurrentComponent s with bunch := t (setCurrentComponent s).bunch } = .ok (s', out) := he
  have hnew : ∀ p ∈ t s.bunch, p.pid ∉ s.reported := by
    intro p hp
    obtain ⟨q, hq, hqp⟩ := hk _ p hp
    rw [← hqp]; exact hn q hq
  obtain ⟨r1, r2, r3⟩ := reports_exactly fin _ s' out he'
  have hbunch : ∀ p ∈ s'.bunch, p ∈ t s.bunch ∧ ¬ Bad fin p := by
    intro p hp
    have hsub := (valid_kept fin _ s' out he').1
    have hp' : p ∈ t s.bunch := by
      have := hsub.subset hp
      rwa [show (({ setCurrentComponent s with bunch := t (setCurrentComponent s).bunch } : Proc D)).bunch = t s.bunch by
        show t (setCurrentComponent s).bunch = _; rw [c3]] at this
    refine ⟨hp', fun hb => ?_⟩
    have hrep : p.pid ∈ out.map (·.pid) := by
      rw [r1]
      refine ⟨?_, p, ?_, rfl, hb⟩
      · show p.pid ∉ (setCurrentComponent s).reported
        rw [c4]; exact hnew p hp'
      · show p ∈ t (setCurrentComponent s).bunch
        rw [c3]; exact hp'
    have hne : out ≠ [] := by intro h0; rw [h0] at hrep; simp at hrep
    have := (cull_iff fin _ s' out he').1 ⟨c1, hne⟩
    rw [this, List.mem_filter] at hp
    obtain ⟨i, hi⟩ := hb
    have := (List.all_eq_true.1 hp.2) i (List.mem_finRange i)
    rw [hi] at this; simp at this
  have hidx := index_right_partial fin _ s' out he' (by
      show Distinct (t (setCurrentComponent s).bunch)
      rw [c3]; exact hd _ hdis) (by
      show ∀ p ∈ t (setCurrentComponent s).bunch, p.pid ∉ (setCurrentComponent s).reported
      rw [c3, c4]; exact hnew)
  obtain ⟨r, hr, hr2, hs'⟩ := doProcess_scan fin _ s' out he'
  refine ⟨s', out, he, ⟨?_, ?_, ?_, ?_, fun p hp => (hbunch p hp).2⟩, ?_, ?_, fun p hp => (hbunch p hp).1⟩
  · rw [hs']; exact c1
  · rw [hs']; exact c2
  · intro p hp hrep
    obtain ⟨hp', hg⟩ := hbunch p hp
    rw [r3] at hrep
    rcases hrep with hrep | ⟨q, hq, hqp, hb⟩
    · exact hnew p hp' (c4 ▸ hrep)
    · have hq' : q ∈ t s.bunch := by
        have : q ∈ t (setCurrentComponent s).bunch := hq
        rwa [c3] at this
      have : q = p := by
        have hdt := hd _ hdis
        unfold Distinct at hdt
        exact List.inj_on_of_nodup_map hdt hq' hp' hqp
      exact hg (this ▸ hb)
  · have hsub := (valid_kept fin _ s' out he').1
    have hdt := hd _ hdis
    unfold Distinct at hdt ⊢
    have h3 : List.Sublist s'.bunch (t s.bunch) := by
      have h4 : List.Sublist s'.bunch (t (setCurrentComponent s).bunch) := hsub
      rwa [c3] at h4
    exact (h3.map _).nodup hdt
  · intro e hee
    have h1 := (r1 e.pid).1 (List.mem_map.2 ⟨e, hee, rfl⟩)
    have h1' : e.pid ∉ (setCurrentComponent s).reported ∧ ∃ p ∈ t (setCurrentComponent s).bunch, p.pid = e.pid ∧ Bad fin p := h1
    rw [c3, c4] at h1'
    refine ⟨h1'.1, (r3 e.pid).2 (Or.inr h1.2), ?_, ?_⟩
    · obtain ⟨p, hp, hpe, -⟩ := h1'.2
      obtain ⟨q, hq, hqp⟩ := hk _ p hp
      exact ⟨q, hq, hqp.trans hpe⟩
    · obtain ⟨p, hp, hpe, -⟩ := hidx e hee
      have hp' : (t (setCurrentComponent s).bunch)[e.index]? = some p := hp
      rw [c3] at hp'
      exact ⟨p, hp', hpe⟩
  · intro i hi
    rw [r3]
    left
    show i ∈ (setCurrentComponent s).reported
    rw [c4]; exact hi

/-- **C162, partial.** With culling on from the beginning of the run, different ids, and tracking that makes no new
particles, no invalid particle is in the bunch after any element, detailed output is never undefined, and no particle is
reported twice.  Missing: culling switched on in the middle of a run, and equal ids, where invalid particles stay
(`late_cull_violated`). -/
theorem run_clean_partial (fin : D → Bool) (ts : List (List (Particle D) → List (Particle D)))
    (hk : ∀ t ∈ ts, KeepsIds t ∧ ∀ b, Distinct b → Distinct (t b)) (b : List (Particle D)) (hb : Distinct b) (det : Bool)
    (hne : ts ≠ []) :
    ∃ s out, run fin ts { Proc.new b with cull := true, detailed := det } = .ok (s, out) ∧
      (∀ p ∈ s.bunch, ¬ Bad fin p) ∧ (out.map (·.pid)).Nodup ∧ ∀ e ∈ out, ∃ q ∈ b, q.pid = e.pid := by
  have key : ∀ (ts : List (List (Particle D) → List (Particle D))),
      (∀ t ∈ ts, KeepsIds t ∧ ∀ b, Distinct b → Distinct (t b)) → ∀ s : Proc D, s.cull = true → s.halt = false →
      (∀ p ∈ s.bunch, p.pid ∉ s.reported) → Distinct s.bunch →
      ∃ s' out, run fin ts s = .ok (s', out) ∧ (ts ≠ [] → ∀ p ∈ s'.bunch, ¬ Bad fin p) ∧ (out.map (·.pid)).Nodup ∧
        (∀ e ∈ out, e.pid ∉ s.reported) ∧ ∀ e ∈ out, ∃ q ∈ s.bunch, q.pid = e.pid := by
    intro ts
    induction ts with
    | nil => intro _ s _ _ _ _; exact ⟨s, [], rfl, fun h => absurd rfl h, by simp, by simp, by simp⟩
    | cons t ts ih =>
      intro hk s hc hh hn hd
      obtain ⟨k1, k2⟩ := hk t List.mem_cons_self
      obtain ⟨s1, o1, h1, ⟨c1, c2, c3, c4, c5⟩, h2, h3, h4⟩ := element_clean fin t k1 k2 s hc hh hn hd
      obtain ⟨s2, o2, g1, g2, g3, g4, g5⟩ := ih (fun t ht => hk t (List.mem_cons_of_mem _ ht)) s1 c1 c2 c3 c4
      refine ⟨s2, o1 ++ o2, ?_, fun _ => ?_, ?_, ?_, ?_⟩
      · rw [run, h1]; simp [Outcome.bind, g1]
      · cases ts with
        | nil =>
          simp only [run] at g1
          injection g1 with g1
          have : s1 = s2 := congrArg Prod.fst g1
          rw [← this]; exact c5
        | cons t' ts => exact g2 (by simp)
      · rw [List.map_append, List.nodup_append]
        refine ⟨(reports_exactly fin _ s1 o1 h1).2.1, g3, ?_⟩
        intro i hi j hj hij
        obtain ⟨e1, he1, rfl⟩ := List.mem_map.1 hi
        obtain ⟨e2, he2, rfl⟩ := List.mem_map.1 hj
        exact g4 e2 he2 (hij ▸ (h2 e1 he1).2.1)
      · intro e he
        rcases List.mem_append.1 he with he | he
        · exact (h2 e he).1
        · exact fun hx => g4 e he (h3 _ hx)
      · intro e he
        rcases List.mem_append.1 he with he | he
        · exact (h2 e he).2.2.1
        · obtain ⟨q, hq, hqe⟩ := g5 e he
          obtain ⟨q', hq', hqq⟩ := k1 _ q (h4 q hq)
          exact ⟨q', hq', hqq.trans hqe⟩
  obtain ⟨s, out, h1, h2, h3, -, h5⟩ := key ts hk { Proc.new b with cull := true, detailed := det } rfl rfl
    (fun p _ => by simp [Proc.new]) hb
  exact ⟨s, out, h1, h2 hne, h3, h5⟩

example : ∃ (ts : List (List (Particle Bool) → List (Particle Bool))) (b : List (Particle Bool)),
    (∀ t ∈ ts, KeepsIds t ∧ ∀ b, Distinct b → Distinct (t b)) ∧ Distinct b ∧ ts ≠ [] ∧ b.length = 2 := by
  refine ⟨[List.map fun p => sample p.pid (p.pid != 1)], [sample 1 true, sample 2 true], ?_, by unfold Distinct; decide,
    by simp, rfl⟩
  intro t ht
  simp only [List.mem_cons, List.not_mem_nil, or_false] at ht
  subst ht
  refine ⟨fun b p hp => ?_, fun b hb => ?_⟩
  · obtain ⟨q, hq, rfl⟩ := List.mem_map.1 hp
    exact ⟨q, hq, rfl⟩
  · unfold Distinct at hb ⊢
    rw [List.map_map]
    exact hb

/-- **C162, violated.** An invalid particle that was reported before culling was switched on is never removed. -/
theorem late_cull_violated : ∃ (s s' : Proc Bool) (out : List (Entry Bool)), s.cull = true ∧ Distinct s.bunch ∧
    doProcess id s = .ok (s', out) ∧ ∃ p ∈ s'.bunch, Bad id p :=
  ⟨⟨false, true, false, [], [], [1], [sample 1 false]⟩, _, _, rfl, by unfold Distinct; decide, rfl, sample 1 false,
    List.mem_cons_self, 0, rfl⟩

/-! ## C163: halo filters -/

variable {K : Type} [Field K] [LinearOrder K] [IsStrictOrderedRing K]

/-- **C163.** The vertical filter keeps exactly the particles beyond the limit on either side. -/
theorem vertical_halo (limit y : K) : vertical limit y = true ↔ y < -limit ∨ limit < y := by
  unfold vertical
  split
  · rename_i h
    simp only [true_iff]
    rw [gt_iff_lt, lt_abs] at h
    rcases h with h | h
    · exact Or.inr h
    · exact Or.inl (by linarith)
  · rename_i h
    simp only [Bool.false_eq_true, false_iff]
    rw [gt_iff_lt, lt_abs] at h
    rintro (h' | h')
    · exact h (Or.inr (by linarith))
    · exact h (Or.inl h')

/-- **C163, partial.** The horizontal filter keeps exactly the particles further from the orbit than the limit, among those
with both coordinates different from zero.  Missing: particles with a zero coordinate, where the claim is false
(`horizontal_violated`). -/
theorem horizontal_halo_partial (orbit limit x xp : K) (hx : x ≠ 0) (hxp : xp ≠ 0) :
    horizontal orbit limit x xp = true ↔ limit < |x - orbit| := by
  unfold horizontal
  rw [lt_abs, if_pos (show x ≠ 0 ∧ xp ≠ 0 from ⟨hx, hxp⟩)]
  split
  · rename_i h
    simp only [true_iff]
    rcases h with h | h
    · exact Or.inl (by linarith)
    · exact Or.inr (by linarith)
  · rename_i h
    simp only [Bool.false_eq_true, false_iff]
    rintro (h' | h')
    · exact h (Or.inl (by linarith))
    · exact h (Or.inr (by linarith))

/-- **C163.** Whatever the coordinates, the horizontal filter keeps no particle within the limit. -/
theorem horizontal_core (orbit limit x xp : K) (h : |x - orbit| ≤ limit) : horizontal orbit limit x xp = false := by
  unfold horizontal
  rw [abs_le] at h
  rw [if_neg]
  rintro (h' | h') <;> linarith [h.1, h.2]

/-- **C163, violated.** A halo particle at rest transversely is dropped, however far from the orbit; and one that the orbit
has moved to the axis. -/
theorem horizontal_violated (orbit limit x : K) :
    horizontal orbit limit x 0 = false ∧ horizontal orbit limit 0 x = false := by
  unfold horizontal
  constructor <;> simp

example : ∃ orbit limit x xp : ℚ, x ≠ 0 ∧ xp ≠ 0 ∧ limit < |x - orbit| ∧ horizontal orbit limit x 0 = false :=
  ⟨1, 2, 4, 1, by norm_num, by norm_num, by norm_num, by rw [horizontal]; norm_num⟩

end Verif.NANCheck
