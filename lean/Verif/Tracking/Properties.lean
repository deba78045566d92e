import Verif.Ring.Properties
import Verif.Tracking.Spec

/-!
# Properties of tracking runs (C33, C34, C90, C91)
-/

namespace Verif.Tracking
open Verif Verif.Tracking.Spec

section
variable {T C : Type}

/-! ## The loop -/

/-- The frames met by the loop from an iterator to the end. -/
inductive Path (deref : Nat → Option (Frame T C)) (next : Nat → Option Nat) (last : Nat) :
    Nat → List (Frame T C) → Prop
  | last {p f} : deref p = some f → next p = some last → Path deref next last p [f]
  | step {p q f fs} : deref p = some f → next p = some q → q ≠ last → Path deref next last q fs →
      Path deref next last p (f :: fs)

/-- All passes until one throws. -/
def passes (cfg : Cfg C) : Bool → List (Frame T C) → Res T C
  | _, [] => ⟨[], .done⟩
  | fb, f :: fs =>
    if (passEvents cfg fb f).2 then ⟨(passEvents cfg fb f).1, .threw⟩
    else .after (passEvents cfg fb f).1 (passes cfg false fs)

theorem perform_path (cfg : Cfg C) (deref : Nat → Option (Frame T C)) (next : Nat → Option Nat) (last : Nat)
    {p : Nat} {fs : List (Frame T C)} (h : Path deref next last p fs) :
    ∀ fb fuel, fs.length ≤ fuel → perform cfg deref next last fuel fb p = passes cfg fb fs := by
  induction h with
  | last h1 h2 =>
    intro fb fuel hf
    cases fuel with
    | zero => simp at hf
    | succ k =>
      simp only [perform, h1, h2, if_true, passes, Res.after, List.append_nil]
  | step h1 h2 h3 _ ih =>
    intro fb fuel hf
    cases fuel with
    | zero => simp at hf
    | succ k =>
      simp only [perform, h1, h2, if_neg h3, passes]
      rw [ih false k (by simpa using hf)]

theorem path_beamline (l : List (Frame T C)) : ∀ (n i : Nat), i + n < l.length →
    Path (fun p => l[p]?) (fun p => if p < l.length then some (p + 1) else none) (i + n + 1) i
      ((l.drop i).take (n + 1))
  | 0, i, h => by
    have hi : i < l.length := by omega
    rw [List.drop_eq_getElem_cons hi]
    exact .last (by simp [hi]) (by simp [hi])
  | n + 1, i, h => by
    have hi : i < l.length := by omega
    rw [List.drop_eq_getElem_cons hi, List.take_succ_cons]
    refine .step (q := i + 1) (by simp [hi]) (by simp [hi]) (by omega) ?_
    have := path_beamline l n (i + 1) (by omega)
    rw [show i + 1 + n + 1 = i + (n + 1) + 1 by omega] at this
    exact this

theorem ringNext_eq {n p : Nat} (h : p < n) : ringNext n p = some ((p + 1) % n) := by
  simp only [ringNext, Ring.inc_eq h]

/-- From `p` behind the start to the end of the ring and then on to the start. -/
theorem path_ring (l : List (Frame T C)) (s : Nat) (hs : s < l.length) : ∀ (k p : Nat), p < l.length →
    k ≤ l.length - 1 → (p + k + 1) % l.length = s →
    Path (fun p => l[p]?) (ringNext l.length) s p ((l.drop p ++ l.take p).take (k + 1))
  | 0, p, hp, _, he => by
    rw [List.drop_eq_getElem_cons hp]
    exact .last (by simp [hp]) (by rw [ringNext_eq hp]; simpa using he)
  | k + 1, p, hp, hk, he => by
    rw [List.drop_eq_getElem_cons hp, List.cons_append, List.take_succ_cons]
    have hlt : (p + 1) % l.length < l.length := Nat.mod_lt _ (by omega)
    refine .step (q := (p + 1) % l.length) (by simp [hp]) (ringNext_eq hp) ?_ ?_
    · intro hc
      have h1 : (p + 1) % l.length = (p + 1 + (k + 1)) % l.length := by
        rw [hc, ← he]; congr 1; omega
      have h2 := Nat.div_add_mod (p + 1) l.length
      have h3 := Nat.div_add_mod (p + 1 + (k + 1)) l.length
      have h4 : l.length * ((p + 1) / l.length) + (k + 1) = l.length * ((p + 1 + (k + 1)) / l.length) := by omega
      have h5 : l.length ∣ k + 1 :=
        (Nat.dvd_add_right ⟨_, rfl⟩).1 (h4 ▸ ⟨_, rfl⟩ : l.length ∣ l.length * ((p + 1) / l.length) + (k + 1))
      have := Nat.le_of_dvd (by omega) h5
      omega
    · have ih := path_ring l s hs k ((p + 1) % l.length) hlt (by omega) (by
        rw [← he, show (p + 1) % l.length + k + 1 = (p + 1) % l.length + (k + 1) by omega, Nat.mod_add_mod]
        congr 1; omega)
      have hrot : (l.drop ((p + 1) % l.length) ++ l.take ((p + 1) % l.length)).take (k + 1) =
          (l.drop (p + 1) ++ l.take p).take (k + 1) := by
        by_cases hq : p + 1 = l.length
        · rw [hq, Nat.mod_self]
          simp only [List.drop_zero, List.take_zero, List.append_nil, List.drop_length, List.nil_append]
          rw [List.take_take, Nat.min_eq_left (by omega)]
        · rw [Nat.mod_eq_of_lt (by omega)]
          rw [List.take_append, List.take_append]
          congr 1
          rw [List.take_take, List.take_take]
          congr 1
          simp only [List.length_drop]
          omega
      rw [hrot] at ih
      exact ih

theorem track_beamline (cfg : Cfg C) (l : List (Frame T C)) (i j : Nat) (hij : i ≤ j) (hj : j < l.length) (fuel : Nat)
    (hf : j + 1 - i ≤ fuel) : trackLine cfg l fuel (.beamline i j) = passes cfg true ((l.drop i).take (j + 1 - i)) := by
  have := path_beamline l (j - i) i (by omega)
  rw [show i + (j - i) + 1 = j + 1 by omega, show j - i + 1 = j + 1 - i by omega] at this
  exact perform_path cfg _ _ _ this true fuel (by simp only [List.length_take, List.length_drop]; omega)

theorem track_ring (cfg : Cfg C) (l : List (Frame T C)) (s : Nat) (hs : s < l.length) (fuel : Nat)
    (hf : l.length ≤ fuel) : trackLine cfg l fuel (.ring s) = passes cfg true (l.drop s ++ l.take s) := by
  have := path_ring l s hs (l.length - 1) s hs (by omega) (by
    rw [show s + (l.length - 1) + 1 = s + l.length by omega, Nat.add_mod_right, Nat.mod_eq_of_lt hs])
  rw [show l.length - 1 + 1 = l.length by omega, List.take_of_length_le (by simp; omega)] at this
  exact perform_path cfg _ _ _ this true fuel (by simp; omega)

/-! ## What is done in a pass -/

theorem action_append (a b : List (Event T C)) : action (a ++ b) = action a ++ action b := List.filter_append ..

theorem action_doRecord (o : Option Output) (f : Frame T C) : action (doRecord o f) = [] := by
  cases o with
  | none => rfl
  | some o =>
    simp only [doRecord]
    cases f.comp with
    | none => rfl
    | some c =>
      dsimp only
      split <;> rfl

theorem action_pass (cfg : Cfg C) (fb : Bool) (f : Frame T C) (h : ∀ c, f.comp = some c → cfg.throws c = false) :
    (passEvents cfg fb f).2 = false ∧
      action (passEvents cfg fb f).1 = visit (!cfg.incX) (fb && cfg.injOnAxis) f := by
  obtain ⟨en, ex, ip, op, comp, name⟩ := f
  obtain ⟨incX, inj, handle, out, throws⟩ := cfg
  cases comp with
  | none =>
    refine ⟨rfl, ?_⟩
    simp only [passEvents, action_append, action_doRecord, List.append_nil]
    cases incX <;> cases inj <;> cases fb <;> cases ip <;> cases op <;> rfl
  | some c =>
    have hc := h c rfl
    dsimp only at hc
    simp only [passEvents, hc, Bool.false_eq_true, if_false, true_and]
    rw [action_append, action_append, show ∀ x : List (Event T C), action (.track c :: x) = .track c :: action x from fun _ => rfl,
      action_append, action_append, action_doRecord]
    cases incX <;> cases inj <;> cases fb <;> cases ip <;> cases op <;> rfl

theorem passes_done (cfg : Cfg C) : ∀ (fs : List (Frame T C)) (fb : Bool),
    (∀ f ∈ fs, ∀ c, f.comp = some c → cfg.throws c = false) →
    (passes cfg fb fs).status = .done ∧
      action (passes cfg fb fs).events = visits (!cfg.incX) (fb && cfg.injOnAxis) fs
  | [], _, _ => ⟨rfl, rfl⟩
  | f :: fs, fb, h => by
    obtain ⟨h1, h2⟩ := action_pass cfg fb f (h f (by simp))
    obtain ⟨h3, h4⟩ := passes_done cfg fs false (fun g hg => h g (by simp [hg]))
    simp only [passes, h1, Bool.false_eq_true, if_false, Res.after]
    refine ⟨h3, ?_⟩
    rw [action_append, h2, h4]
    cases fs <;> simp [visits]

/-- C34: a run over a beamline meets each of its frames once, in order. -/
theorem beamline_visits (cfg : Cfg C) (l : List (Frame T C)) (i j : Nat) (hij : i ≤ j) (hj : j < l.length) (fuel : Nat)
    (hf : j + 1 - i ≤ fuel) (ht : ∀ f ∈ (l.drop i).take (j + 1 - i), ∀ c, f.comp = some c → cfg.throws c = false) :
    (trackLine cfg l fuel (.beamline i j)).status = .done ∧
    action (trackLine cfg l fuel (.beamline i j)).events =
      visits (!cfg.incX) cfg.injOnAxis ((l.drop i).take (j + 1 - i)) := by
  rw [track_beamline cfg l i j hij hj fuel hf]
  exact passes_done cfg _ true ht

/-- C34: a run over a ring meets each of its frames once, in order from the starting point and around. -/
theorem ring_visits (cfg : Cfg C) (l : List (Frame T C)) (s : Nat) (hs : s < l.length) (fuel : Nat)
    (hf : l.length ≤ fuel) (ht : ∀ f ∈ l, ∀ c, f.comp = some c → cfg.throws c = false) :
    (trackLine cfg l fuel (.ring s)).status = .done ∧
    action (trackLine cfg l fuel (.ring s)).events = visits (!cfg.incX) cfg.injOnAxis (l.drop s ++ l.take s) := by
  rw [track_ring cfg l s hs fuel hf]
  refine passes_done cfg _ true ?_
  intro f hm
  rcases List.mem_append.1 hm with hm | hm
  · exact ht f (List.mem_of_mem_drop hm)
  · exact ht f (List.mem_of_mem_take hm)

/-- C34: all components of a ring are tracked exactly once per run. -/
theorem ring_components (cfg : Cfg C) (l : List (Frame T C)) (s : Nat) (hs : s < l.length) (fuel : Nat)
    (hf : l.length ≤ fuel) (ht : ∀ f ∈ l, ∀ c, f.comp = some c → cfg.throws c = false) :
    ((trackLine cfg l fuel (.ring s)).events.filterMap (fun e => match e with | .track c => some c | _ => none)).Perm
      (l.filterMap (·.comp)) := by
  have key : ∀ (e : List (Event T C)), e.filterMap (fun e => match e with | .track c => some c | _ => none) =
      (action e).filterMap (fun e => match e with | .track c => some c | _ => none) := by
    intro e
    induction e with
    | nil => rfl
    | cons x e ih =>
      have hx : action (x :: e) = if Event.acts x then x :: action e else action e := List.filter_cons ..
      rw [hx]
      cases x <;> simp only [Event.acts, if_true, Bool.false_eq_true, if_false, List.filterMap_cons] <;> rw [ih]
  have hv : ∀ (flat ax : Bool) (f : Frame T C),
      (visit flat ax f).filterMap (fun e => match e with | .track c => some c | _ => none) = f.comp.toList := by
    intro flat ax f
    obtain ⟨en, ex, ip, op, comp, name⟩ := f
    cases flat <;> cases ax <;> cases ip <;> cases op <;> cases comp <;> rfl
  have hvs : ∀ (fs : List (Frame T C)) (flat : Bool),
      (fs.flatMap (visit flat false)).filterMap (fun e => match e with | .track c => some c | _ => none) =
        fs.filterMap (·.comp) := by
    intro fs flat
    induction fs with
    | nil => rfl
    | cons f fs ih =>
      rw [List.flatMap_cons, List.filterMap_append, hv, ih, List.filterMap_cons]
      cases f.comp <;> rfl
  have hvs2 : ∀ (fs : List (Frame T C)) (flat ax : Bool),
      (visits flat ax fs).filterMap (fun e => match e with | .track c => some c | _ => none) = fs.filterMap (·.comp) := by
    intro fs flat ax
    cases fs with
    | nil => rfl
    | cons f fs =>
      rw [visits, List.filterMap_append, hv, hvs, List.filterMap_cons]
      cases f.comp <;> rfl
  rw [key, (ring_visits cfg l s hs fuel hf ht).2, hvs2, List.filterMap_append]
  refine List.perm_append_comm.trans ?_
  rw [← List.filterMap_append, List.take_append_drop]

theorem passes_throw (cfg : Cfg C) (f : Frame T C) (c : C) (hc : f.comp = some c) (ht : cfg.throws c = true)
    (b : List (Frame T C)) : ∀ (a : List (Frame T C)) (fb : Bool),
    (∀ f ∈ a, ∀ c, f.comp = some c → cfg.throws c = false) →
    (passes cfg fb (a ++ f :: b)).status = .threw ∧
      ∃ e, e ++ [Event.track c] <+: visits (!cfg.incX) (fb && cfg.injOnAxis) (a ++ [f]) ∧
        visits (!cfg.incX) (fb && cfg.injOnAxis) a <+: e ∧
        action (passes cfg fb (a ++ f :: b)).events = e ++ [.track c]
  | [], fb, _ => by
    have hp : passEvents cfg fb f = ((if cfg.incX && !(fb && cfg.injOnAxis) then [.transform f.entrance] else []) ++
        patch f.inPatch ++ [.track c], true) := by
      simp only [passEvents, hc, ht, if_true]
    simp only [List.nil_append, passes, hp, if_true, true_and]
    refine ⟨(if cfg.incX && !(fb && cfg.injOnAxis) then [.transform f.entrance] else []) ++ patch f.inPatch, ?_,
      List.nil_prefix, ?_⟩
    · obtain ⟨en, ex, ip, op, comp, name⟩ := f
      dsimp only at hc
      subst hc
      refine ⟨(op.toList.map .transform) ++ (if !cfg.incX then [] else [.transform ex]), ?_⟩
      obtain ⟨incX, inj, handle, out, throws⟩ := cfg
      cases incX <;> cases inj <;> cases fb <;> cases ip <;> cases op <;> rfl
    · obtain ⟨en, ex, ip, op, comp, name⟩ := f
      obtain ⟨incX, inj, handle, out, throws⟩ := cfg
      cases incX <;> cases inj <;> cases fb <;> cases ip <;> rfl
  | g :: a, fb, h => by
    obtain ⟨h1, h2⟩ := action_pass cfg fb g (h g (by simp))
    obtain ⟨h3, e, h4, h5, h6⟩ := passes_throw cfg f c hc ht b a false (fun g hg => h g (by simp [hg]))
    simp only [List.cons_append, passes, h1, Bool.false_eq_true, if_false, Res.after]
    have hcons : ∀ (x : List (Frame T C)), visits (!cfg.incX) (fb && cfg.injOnAxis) (g :: x) =
        visit (!cfg.incX) (fb && cfg.injOnAxis) g ++ visits (!cfg.incX) (false && cfg.injOnAxis) x := by
      intro x
      cases x <;> simp [visits]
    refine ⟨h3, visit (!cfg.incX) (fb && cfg.injOnAxis) g ++ e, ?_, ?_, ?_⟩
    · rw [hcons, List.append_assoc]
      exact (List.prefix_append_right_inj _).2 h4
    · rw [hcons]
      exact (List.prefix_append_right_inj _).2 h5
    · rw [action_append, h2, h6, List.append_assoc]

/-- C90: if a process throws in a component, all frames before it have been met completely and nothing after
the component is done. -/
theorem stops_at_exception (cfg : Cfg C) (l a b : List (Frame T C)) (f : Frame T C) (c : C) (hl : l = a ++ f :: b)
    (hc : f.comp = some c) (ht : cfg.throws c = true)
    (ha : ∀ f ∈ a, ∀ c, f.comp = some c → cfg.throws c = false) (fuel : Nat) (hf : l.length ≤ fuel) :
    (trackLine cfg l fuel (wholeLine l)).status = .threw ∧
      ∃ e, e ++ [Event.track c] <+: visits (!cfg.incX) cfg.injOnAxis (a ++ [f]) ∧
        visits (!cfg.incX) cfg.injOnAxis a <+: e ∧
        action (trackLine cfg l fuel (wholeLine l)).events = e ++ [.track c] := by
  have hlen : 0 < l.length := by rw [hl, List.length_append, List.length_cons]; omega
  rw [wholeLine, track_beamline cfg l 0 (l.length - 1) (by omega) (by omega) fuel (by omega)]
  rw [List.drop_zero, List.take_of_length_le (by omega), hl]
  exact passes_throw cfg f c hc ht b a true ha

/-! ## Output -/

theorem recorded_append (a b : List (Event T C)) : recorded (a ++ b) = recorded a ++ recorded b :=
  List.filterMap_append ..

theorem recorded_pass (cfg : Cfg C) (o : Output) (ho : cfg.out = some o) (fb : Bool) (f : Frame T C)
    (h : ∀ c, f.comp = some c → cfg.throws c = false) :
    recorded (passEvents cfg fb f).1 = if wanted o f then [f.name] else [] := by
  obtain ⟨en, ex, ip, op, comp, name⟩ := f
  obtain ⟨incX, inj, handle, out, throws⟩ := cfg
  dsimp only at ho
  subst ho
  have hd : ∀ (g : Frame T C), recorded (doRecord (some o) g) = if wanted o g then [g.name] else [] := by
    intro g
    obtain ⟨en, ex, ip, op, comp, name⟩ := g
    cases comp with
    | none => rfl
    | some c =>
      simp only [doRecord, wanted, Option.isSome_some, Bool.true_and]
      split <;> rfl
  cases comp with
  | none =>
    simp only [passEvents, recorded_append, hd]
    cases incX <;> cases inj <;> cases fb <;> cases ip <;> cases op <;> rfl
  | some c =>
    have hc := h c rfl
    dsimp only at hc
    simp only [passEvents, hc, Bool.false_eq_true, if_false]
    rw [recorded_append, recorded_append, show ∀ x : List (Event T C), recorded (.track c :: x) = recorded x from fun _ => rfl,
      recorded_append, recorded_append, hd]
    cases incX <;> cases inj <;> cases fb <;> cases ip <;> cases op <;> rfl

/-- C90: the output records exactly the components asked for, in order. -/
theorem output_records (cfg : Cfg C) (o : Output) (ho : cfg.out = some o) (l : List (Frame T C)) (hl : l ≠ []) (fuel : Nat)
    (hf : l.length ≤ fuel) (ht : ∀ f ∈ l, ∀ c, f.comp = some c → cfg.throws c = false) :
    recorded (trackLine cfg l fuel (wholeLine l)).events = (l.filter (wanted o)).map (·.name) := by
  have hlen : 0 < l.length := List.length_pos_iff.2 hl
  rw [wholeLine, track_beamline cfg l 0 (l.length - 1) (by omega) (by omega) fuel (by omega)]
  rw [List.drop_zero, List.take_of_length_le (by omega)]
  have key : ∀ (fs : List (Frame T C)) (fb : Bool), (∀ f ∈ fs, ∀ c, f.comp = some c → cfg.throws c = false) →
      recorded (passes cfg fb fs).events = (fs.filter (wanted o)).map (·.name) := by
    intro fs
    induction fs with
    | nil => intro _ _; rfl
    | cons f fs ih =>
      intro fb h
      have h1 := (action_pass cfg fb f (h f (by simp))).1
      simp only [passes, h1, Bool.false_eq_true, if_false, Res.after]
      rw [recorded_append, recorded_pass cfg o ho fb f (h f (by simp)), ih false (fun g hg => h g (by simp [hg])),
        List.filter_cons]
      split <;> simp
  exact key l true ht

/-! ## Run and continue -/

/-- C90: a run constructs a bunch and initialises the processes before anything else is done to the bunch; with
exceptions handled it always ends normally. -/
theorem run_starts_new (cfg : Cfg C) (l : List (Frame T C)) (line : Line) (fuel : Nat) (s : Sim) (hc : s.ctor = true)
    (hl : (trackLine cfg l fuel line).status = .done ∨ ((trackLine cfg l fuel line).status = .threw ∧ cfg.handle = true)) :
    ∃ fin, (run cfg l line fuel s).1.status = .done ∧ (run cfg l line fuel s).2.bunch = true ∧
      (run cfg l line fuel s).1.events.filter (fun e => match e with | .recordInitial => false | _ => true) =
        .construct :: .initialise :: (trackLine cfg l fuel line).events.filter
          (fun e => match e with | .recordInitial => false | _ => true) ++ fin ∧
      action fin = [] := by
  simp only [run, doRun, hc, Bool.not_true, Bool.and_false, Bool.false_eq_true, if_false, Bool.or_true, Bool.true_or, if_true]
  rcases hl with hl | ⟨hl, hh⟩ <;> simp only [hl] <;> (try simp only [hh, if_true]) <;>
  · cases hout : cfg.out with
    | none => exact ⟨[], by simp, by simp, by simp, by simp [action]⟩
    | some o =>
      obtain ⟨all, ini, fin, ids⟩ := o
      cases ini <;> cases fin
      · exact ⟨[], by simp, by simp, by simp, by simp [action, Event.acts]⟩
      · exact ⟨[.recordFinal], by simp, by simp, by simp, by simp [action, Event.acts]⟩
      · exact ⟨[], by simp, by simp, by simp, by simp [action, Event.acts]⟩
      · exact ⟨[.recordFinal], by simp, by simp, by simp, by simp [action, Event.acts]⟩

/-- Not the construction of a bunch and not the initialisation. -/
def Inner (e : Event T C) : Prop := e ≠ .construct ∧ e ≠ .initialise

theorem pass_inner (cfg : Cfg C) (fb : Bool) (f : Frame T C) : ∀ e ∈ (passEvents cfg fb f).1, Inner e := by
  have hd : ∀ e ∈ doRecord cfg.out f, Inner (T := T) (C := C) e := by
    intro e he
    simp only [doRecord] at he
    split at he
    · simp at he
    · split at he
      · simp at he
      · split at he
        · obtain rfl := List.mem_singleton.1 he
          exact ⟨nofun, nofun⟩
        · simp at he
  have hp : ∀ o : Option T, ∀ e ∈ (patch o : List (Event T C)), Inner e := by
    intro o e he
    cases o with
    | none => simp [patch] at he
    | some t =>
      obtain rfl := List.mem_singleton.1 he
      exact ⟨nofun, nofun⟩
  have hi : ∀ (b : Bool) (t : T), ∀ e ∈ (if b then [Event.transform t] else [] : List (Event T C)), Inner e := by
    intro b t e he
    cases b with
    | false => simp at he
    | true =>
      obtain rfl := List.mem_singleton.1 he
      exact ⟨nofun, nofun⟩
  intro e he
  simp only [passEvents] at he
  split at he
  · simp only [List.mem_append] at he
    rcases he with (he | he) | (he | he) | he
    · exact hi _ _ e he
    · exact hp _ e he
    · exact hp _ e he
    · exact hi _ _ e he
    · exact hd e he
  · split at he
    · simp only [List.mem_append, List.mem_singleton] at he
      rcases he with (he | he) | rfl
      · exact hi _ _ e he
      · exact hp _ e he
      · exact ⟨nofun, nofun⟩
    · simp only [List.mem_append, List.mem_cons] at he
      rcases he with (he | he) | rfl | (he | he) | he
      · exact hi _ _ e he
      · exact hp _ e he
      · exact ⟨nofun, nofun⟩
      · exact hp _ e he
      · exact hi _ _ e he
      · exact hd e he

theorem perform_inner (cfg : Cfg C) (deref : Nat → Option (Frame T C)) (next : Nat → Option Nat) (last : Nat) :
    ∀ (fuel : Nat) (fb : Bool) (p : Nat), ∀ e ∈ (perform cfg deref next last fuel fb p).events, Inner e
  | 0, _, _ => by simp [perform]
  | k + 1, fb, p => by
    intro e he
    simp only [perform] at he
    split at he
    · simp at he
    · split at he
      · exact pass_inner cfg fb _ e he
      · split at he
        · exact pass_inner cfg fb _ e he
        · split at he
          · exact pass_inner cfg fb _ e he
          · rcases List.mem_append.1 he with he | he
            · exact pass_inner cfg fb _ e he
            · exact perform_inner cfg deref next last k false _ e he

theorem trackLine_inner (cfg : Cfg C) (l : List (Frame T C)) (fuel : Nat) (line : Line) :
    ∀ e ∈ (trackLine cfg l fuel line).events, Inner e := by
  cases line with
  | beamline i j => exact perform_inner _ _ _ _ _ _ _
  | ring s => exact perform_inner _ _ _ _ _ _ _
  | undefined => simp [trackLine]

/-- C90: continuing after a run neither constructs a bunch nor initialises the processes, and acts on the bunch
exactly as a run does. -/
theorem continue_keeps (cfg : Cfg C) (l : List (Frame T C)) (line : Line) (fuel : Nat) (s : Sim) (hb : s.bunch = true)
    (hc : s.ctor = true) :
    (cont cfg l line fuel s).1.status = (run cfg l line fuel s).1.status ∧
      action (cont cfg l line fuel s).1.events = action (run cfg l line fuel s).1.events ∧
      ∀ e ∈ (cont cfg l line fuel s).1.events, e ≠ .construct ∧ e ≠ .initialise := by
  have h := trackLine_inner cfg l fuel line
  simp only [cont, run, doRun, hb, hc, Bool.not_true, Bool.and_false, Bool.false_eq_true, if_false, Bool.or_true, Bool.true_or,
    if_true, Bool.or_false, Bool.false_and]
  generalize trackLine cfg l fuel line = r at h ⊢
  obtain ⟨ev, st⟩ := r
  obtain ⟨incX, inj, handle, out, throws⟩ := cfg
  have aux : ∀ (a b : List (Event T C)), (∀ e ∈ a, e ≠ Event.construct ∧ e ≠ .initialise) →
      (∀ e ∈ b, e ≠ Event.construct ∧ e ≠ .initialise) → ∀ e ∈ a ++ b, e ≠ Event.construct ∧ e ≠ .initialise := by
    intro a b h1 h2 e he
    rcases List.mem_append.1 he with he | he
    · exact h1 e he
    · exact h2 e he
  have c1 : ∀ x : List (Event T C), action (.construct :: x) = action x := fun _ => rfl
  have c2 : ∀ x : List (Event T C), action (.initialise :: x) = action x := fun _ => rfl
  have c3 : ∀ x : List (Event T C), action (.recordInitial :: x) = action x := fun _ => rfl
  have a1 : ∀ e ∈ [(Event.recordInitial : Event T C)], e ≠ .construct ∧ e ≠ .initialise := by simp
  have a2 : ∀ e ∈ [(Event.recordFinal : Event T C)], e ≠ .construct ∧ e ≠ .initialise := by simp
  have a3 : ∀ e ∈ ([] : List (Event T C)), e ≠ .construct ∧ e ≠ .initialise := by simp
  cases out with
  | none =>
    unfold Inner at h
    cases st <;> cases handle <;> refine ⟨rfl, by simp [action_append, c1, c2, c3], ?_⟩ <;> simpa using h
  | some o =>
    obtain ⟨all, ini, fin, ids⟩ := o
    unfold Inner at h
    cases st <;> cases handle <;> cases ini <;> cases fin <;> refine ⟨rfl, by simp [action_append, c1, c2, c3], ?_⟩ <;>
      simp only [List.append_nil, List.nil_append, if_true, Bool.false_eq_true, if_false] <;>
      first
        | exact h
        | exact aux _ _ h a2
        | exact aux _ _ a1 h
        | exact aux _ _ (aux _ _ a1 h) a2

/-! ## Stepping -/

/-- C33: stepping through a beamline acts on the bunch as a run does, if all frames have a component and no
geometry patches and the beam is not injected on axis.  Missing: patches and frames without component
(`step_patch_violated`, `step_patchframe_violated`), and injection on axis (`step_axis_violated`). -/
theorem stepping_partial (cfg : Cfg C) (l : List (Frame T C)) (i j : Nat) (hij : i ≤ j) (hj : j < l.length) (fuel : Nat)
    (hf : j + 1 - i ≤ fuel) (hax : cfg.injOnAxis = false)
    (hp : ∀ f ∈ (l.drop i).take (j + 1 - i), f.inPatch = none ∧ f.outPatch = none ∧ ∃ c, f.comp = some c) (s : Sim) :
    let r := stepAll cfg l fuel { s with stepper := some (i, j + 1) }
    r.1.status = (trackLine cfg l fuel (.beamline i j)).status ∧
      r.1.events = (trackLine cfg l fuel (.beamline i j)).events := by
  have hstep : ∀ (f : Frame T C) (fb : Bool), f.inPatch = none → f.outPatch = none → ∀ c, f.comp = some c →
      passEvents cfg fb f = if cfg.throws c then ((if cfg.incX then [.transform f.entrance] else []) ++ [.track c], true)
        else ((if cfg.incX then [.transform f.entrance] else []) ++ .track c ::
          ((if cfg.incX then [.transform f.exit] else []) ++ doRecord cfg.out f), false) := by
    intro f fb h1 h2 c h3
    simp [passEvents, h1, h2, h3, hax, patch]
  have key : ∀ (n i : Nat) (fuel : Nat) (fb : Bool), i + n = j → n + 1 ≤ fuel →
      (∀ f ∈ (l.drop i).take (n + 1), f.inPatch = none ∧ f.outPatch = none ∧ ∃ c, f.comp = some c) →
      (stepAll cfg l fuel { s with stepper := some (i, j + 1) }).1 = passes cfg fb ((l.drop i).take (n + 1)) := by
    intro n
    induction n with
    | zero =>
      intro i fuel fb hi hf hp
      have hil : i < l.length := by omega
      rw [List.drop_eq_getElem_cons hil] at hp ⊢
      obtain ⟨h1, h2, c, h3⟩ := hp l[i] (List.mem_cons_self ..)
      obtain ⟨k, rfl⟩ : ∃ k, fuel = k + 1 := ⟨fuel - 1, by omega⟩
      have hne : ¬ i = j + 1 := by omega
      have hji : j = i := by omega
      simp only [stepAll, stepComponent, hne, if_false, List.getElem?_eq_getElem hil, h3, List.take_succ_cons, List.take_zero,
        passes, hstep l[i] fb h1 h2 c h3]
      cases ht : cfg.throws c with
      | true => simp
      | false => simp [Res.after, hji]
    | succ n ih =>
      intro i fuel fb hi hf hp
      have hil : i < l.length := by omega
      rw [List.drop_eq_getElem_cons hil, List.take_succ_cons] at hp ⊢
      obtain ⟨h1, h2, c, h3⟩ := hp l[i] (by simp)
      obtain ⟨k, rfl⟩ : ∃ k, fuel = k + 1 := ⟨fuel - 1, by omega⟩
      have hne : ¬ i = j + 1 := by omega
      have hne2 : ¬ i = j := by omega
      simp only [stepAll, stepComponent, hne, if_false, List.getElem?_eq_getElem hil, h3, passes, hstep l[i] fb h1 h2 c h3]
      cases ht : cfg.throws c with
      | true => simp
      | false =>
        have := ih (i + 1) k false (by omega) (by omega) (fun f hf => hp f (by simp [hf]))
        simp [Res.after, hne2, this]
  rw [track_beamline cfg l i j hij hj fuel hf]
  have := key (j - i) i fuel true (by omega) (by omega) (by rw [show j - i + 1 = j + 1 - i by omega]; exact hp)
  rw [show j - i + 1 = j + 1 - i by omega] at this
  dsimp only
  rw [this]
  exact ⟨rfl, rfl⟩

end

/-! ## Examples and violations -/

/-- Settings for the examples. -/
def cfg0 : Cfg Nat := ⟨true, false, false, none, fun _ => false⟩

/-- A frame for the examples. -/
def fr (n : Nat) : Frame Nat Nat := ⟨10 * n, 10 * n + 1, none, none, some n, []⟩

/-- A ring of three frames tracked from its second frame. -/
example : (trackLine cfg0 [fr 1, fr 2, fr 3] 3 (.ring 1)) =
    ⟨[.transform 20, .track 2, .transform 21, .transform 30, .track 3, .transform 31,
      .transform 10, .track 1, .transform 11], .done⟩ := by
  decide +kernel

/-- The hypotheses of `stepping_partial`. -/
example : ∀ f ∈ ([fr 1, fr 2, fr 3].drop 1).take 2, f.inPatch = none ∧ f.outPatch = none ∧ ∃ c, f.comp = some c := by
  intro f hf
  simp only [List.drop_succ_cons, List.drop_zero, List.take_succ_cons, List.take_nil, List.mem_cons, List.not_mem_nil,
    or_false] at hf
  rcases hf with rfl | rfl
  · exact ⟨rfl, rfl, 2, rfl⟩
  · exact ⟨rfl, rfl, 3, rfl⟩

/-- An exception in the second frame ends the pass; with exceptions handled the run ends normally. -/
example : let cfg : Cfg Nat := { cfg0 with throws := fun c => c = 2, handle := true }
    (trackLine cfg [fr 1, fr 2, fr 3] 3 (wholeLine [fr 1, fr 2, fr 3])).status = .threw ∧
      (run cfg [fr 1, fr 2, fr 3] (.beamline 0 2) 3 ⟨true, false, none⟩).1 =
        ⟨[.construct, .initialise, .transform 10, .track 1, .transform 11, .transform 20, .track 2], .done⟩ := by
  decide +kernel

/-- Output for one of the components. -/
example : let o : Output := ⟨false, false, false, [StringPattern.leaf "a".toList]⟩
    let f : Frame Nat Nat := { fr 1 with name := "a".toList }
    let cfg : Cfg Nat := { cfg0 with out := some o }
    recorded (trackLine cfg [f, fr 2] 2 (.beamline 0 1)).events = ["a".toList] ∧ wanted o f = true ∧ wanted o (fr 2) = false := by
  decide +kernel

/-- C33 is violated if a frame has a geometry patch, which stepping leaves out. -/
theorem step_patch_violated :
    let f : Frame Nat Nat := { fr 1 with inPatch := some 5 }
    action (stepAll cfg0 [f] 9 ⟨true, true, some (0, 1)⟩).1.events = [.transform 10, .track 1, .transform 11] ∧
    action (trackLine cfg0 [f] 9 (.beamline 0 0)).events = [.transform 10, .transform 5, .track 1, .transform 11] := by
  decide +kernel

/-- C33 is violated if there is a frame without component (a patch frame): stepping throws. -/
theorem step_patchframe_violated :
    let f : Frame Nat Nat := { fr 1 with inPatch := some 5, comp := none }
    (stepAll cfg0 [f, fr 2] 9 ⟨true, true, some (0, 2)⟩).1.status = .threw ∧
    (trackLine cfg0 [f, fr 2] 9 (.beamline 0 1)).status = .done := by
  decide +kernel

/-- C33 is violated for injection on axis: stepping transforms to the first frame nevertheless. -/
theorem step_axis_violated :
    let cfg : Cfg Nat := { cfg0 with injOnAxis := true }
    action (stepAll cfg [fr 1] 9 ⟨true, true, some (0, 1)⟩).1.events = [.transform 10, .track 1, .transform 11] ∧
    action (trackLine cfg [fr 1] 9 (.beamline 0 0)).events = [.track 1, .transform 11] := by
  decide +kernel

/-- C91 is violated for every lattice of at least two frames: tracking the reversed beamline runs past the end
of the lattice after its first frame. -/
theorem reversed_violated {T C : Type} (cfg : Cfg C) (l : List (Frame T C)) (h : 2 ≤ l.length) (fuel : Nat) (hf : 2 ≤ fuel)
    (ht : ∀ f ∈ l, ∀ c, f.comp = some c → cfg.throws c = false) :
    (trackLine cfg l fuel (reversedLine l)).status = .ub := by
  obtain ⟨k, rfl⟩ : ∃ k, fuel = k + 2 := ⟨fuel - 2, by omega⟩
  have hlt : l.length - 1 < l.length := by omega
  have hp := (action_pass cfg true l[l.length - 1] (ht _ (List.getElem_mem hlt))).1
  have hne : ¬ l.length = 1 := by omega
  have hl : l.length - 1 + 1 = l.length := by omega
  simp only [trackLine, reversedLine, perform, List.getElem?_eq_getElem hlt, hp, Bool.false_eq_true, if_false, hlt, if_true,
    hl, Nat.lt_irrefl]
  simp [Res.after, hne]

/-- C91 holds only for a single frame. -/
example : (trackLine cfg0 [fr 1] 5 (reversedLine [fr 1])).status = .done := by decide +kernel

end Verif.Tracking
