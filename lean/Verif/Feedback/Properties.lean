import Mathlib.Tactic.Ring
import Mathlib.Tactic.NormNum
import Mathlib.Data.Rat.Defs
import Mathlib.Tactic.FieldSimp
import Mathlib.Algebra.Field.Rat
import Verif.Feedback.Spec

/-!
# Properties of channel arrays and the linear feedback (C24, C66, C67, C68)
-/

namespace Verif.Feedback
open Verif Verif.Feedback.Spec

variable {σ K : Type}

/-! ## C66: channel arrays and saved channel states -/

theorem writeLoop_other (cs : List (Chan σ K)) (d : Chan σ K) (h : ∀ c ∈ cs, Independent c d)
    (vs : List K) (s : σ) : d.read (writeLoop cs vs s) = d.read s := by
  induction cs generalizing vs s with
  | nil => simp [writeLoop]
  | cons c cs ih =>
    cases vs with
    | nil => simp [writeLoop]
    | cons v vs =>
      rw [writeLoop, ih (fun x hx => h x (List.mem_cons_of_mem _ hx)), (h c (by simp)).2]

/-- C66: after writing a vector to an array of independent channels, reading the array gives that
vector, and every channel independent of the array reads what it did before. -/
theorem readAll_writeAll (cs : List (Chan σ K)) (hs : Separate cs) (vs : List K)
    (hl : vs.length = cs.length) (s : σ) :
    ∃ s', writeAll cs vs s = .ok s' ∧ readAll cs s' = vs ∧
      ∀ d, (∀ c ∈ cs, Independent c d) → d.read s' = d.read s := by
  refine ⟨writeLoop cs vs s, by simp [writeAll, hl], ?_, fun d hd => writeLoop_other cs d hd vs s⟩
  obtain ⟨hl1, hl2⟩ := hs
  induction cs generalizing vs s with
  | nil => cases vs with
    | nil => rfl
    | cons v vs => simp at hl
  | cons c cs ih =>
    cases vs with
    | nil => simp at hl
    | cons v vs =>
      rw [List.pairwise_cons] at hl2
      simp only [writeLoop, readAll, List.map_cons, List.cons.injEq]
      constructor
      · rw [writeLoop_other cs c (fun d hd => ?_) vs, hl1 c (by simp)]
        exact ⟨(hl2.1 d hd).2, (hl2.1 d hd).1⟩
      · exact ih vs (by simpa using hl) _ (fun x hx => hl1 x (List.mem_cons_of_mem _ hx)) hl2.2

/-- C66: resetting a saved channel state brings back the values at the time of saving, whatever
happened to the machine in between. -/
theorem reset_restores (cs : List (Chan σ K)) (hs : Separate cs) (s0 s : σ) :
    ∃ s', (ChanState.make cs s0).reset s = .ok s' ∧ readAll cs s' = readAll cs s0 := by
  obtain ⟨s', h1, h2, _⟩ := readAll_writeAll cs hs (readAll cs s0) (by simp [readAll]) s
  exact ⟨s', h1, h2⟩

/-- C66: incrementing adds to each channel its own increment. -/
theorem incrementAll_spec [Add K] (cs : List (Chan σ K)) (hs : Separate cs) (vs : List K)
    (hl : vs.length = cs.length) (s : σ) :
    ∃ s', incrementAll cs vs s = .ok s' ∧ readAll cs s' = List.zipWith (· + ·) (readAll cs s) vs := by
  refine ⟨incrementLoop cs vs s, by simp [incrementAll, hl], ?_⟩
  have other : ∀ (cs : List (Chan σ K)) (d : Chan σ K), (∀ c ∈ cs, Independent c d) →
      ∀ vs s, d.read (incrementLoop cs vs s) = d.read s := by
    intro cs d
    induction cs with
    | nil => intro _ vs s; simp [incrementLoop]
    | cons c cs ih =>
      intro h vs s
      cases vs with
      | nil => simp [incrementLoop]
      | cons v vs =>
        rw [incrementLoop, ih (fun x hx => h x (List.mem_cons_of_mem _ hx)), Chan.increment,
          (h c (by simp)).2]
  obtain ⟨hl1, hl2⟩ := hs
  induction cs generalizing vs s with
  | nil => simp [readAll]
  | cons c cs ih =>
    cases vs with
    | nil => simp at hl
    | cons v vs =>
      rw [List.pairwise_cons] at hl2
      have hrest : readAll cs (c.increment v s).2 = readAll cs s := by
        refine List.map_congr_left (fun d hd => ?_)
        exact (hl2.1 d hd).2 _ _
      have := ih vs (by simpa using hl) (c.increment v s).2
        (fun x hx => hl1 x (List.mem_cons_of_mem _ hx)) hl2.2
      rw [hrest] at this
      simp only [readAll, List.map_cons, incrementLoop, List.zipWith_cons_cons, List.cons.injEq]
      refine ⟨?_, this⟩
      rw [other cs c (fun d hd => ⟨(hl2.1 d hd).2, (hl2.1 d hd).1⟩), Chan.increment,
        hl1 c (by simp)]

/-! ## C67: corrector windings -/

/-- C67 (partial): reading back one plane right after setting it gives the value set (for a magnet
of non-zero length and field scale).  Missing: the other plane, see `winding_violated`. -/
theorem winding_partial [Field K] [DecidableEq K] (m : Magnet K) (v : K) (hs : m.scale ≠ 0)
    (hl : m.len ≠ 0) : (m.setBx v).getBx = v ∧ (m.setBy v).getBy = v ∧
      (m.setBx v).getBy = 0 ∧ (m.setBy v).getBx = 0 := by
  simp only [Magnet.setBx, Magnet.setBy, hs, if_false, Magnet.setComponent, Magnet.getBx,
    Magnet.getBy]
  refine ⟨?_, ?_, ?_, ?_⟩ <;> field_simp <;> simp

/-- C67 does not hold: whenever the field of the other plane is not zero, setting one plane destroys
it; and saving and resetting the X and Y channels of one winding loses the X value. -/
theorem winding_violated [Field K] [DecidableEq K] (m : Magnet K) (v : K) (hs : m.scale ≠ 0)
    (hl : m.len ≠ 0) (hx : m.getBy ≠ 0) :
    (m.setBx v).getBy ≠ m.getBy ∧
    ∃ m', (ChanState.make [chanX, chanY] m).reset m = .ok m' ∧
      (chanX : Chan (Magnet K) K).read m' ≠ (chanX : Chan (Magnet K) K).read m := by
  constructor
  · rw [(winding_partial m v hs hl).2.2.1]
    exact Ne.symm hx
  · refine ⟨_, rfl, ?_⟩
    simp only [ChanState.make, readAll, List.map_cons, List.map_nil, writeLoop]
    have h1 : ((chanX : Chan (Magnet K) K).write (chanX.read m) m).scale ≠ 0 := by
      simp [chanX, Magnet.setBy, hs, Magnet.setComponent]
    have h2 : ((chanX : Chan (Magnet K) K).write (chanX.read m) m).len ≠ 0 := by
      simp [chanX, Magnet.setBy, hs, Magnet.setComponent, hl]
    have := (winding_partial _ ((chanY : Chan (Magnet K) K).read m) h1 h2).2.2.1
    intro hc
    apply hx
    rw [show m.getBy = (chanX : Chan (Magnet K) K).read m from rfl, ← hc]
    exact this

/-- C67: with a field scale of zero the winding ignores the value. -/
theorem winding_scale_zero_violated :
    ((⟨0, 0, 0, 1⟩ : Magnet ℚ).setBx 5).getBx = 0 := by
  simp [Magnet.setBx, Magnet.getBx]

/-! ## C24 -/

theorem newActs_length [CommRing K] (f : FB σ K)
    (hm : ∀ S, (f.mi S).length = f.actuators.length) (s : σ) :
    (f.newActs s).length = f.actuators.length := by
  simp [FB.newActs, readAll, hm]

/-- C24: without delay one pulse writes `A - g Mi (S - S0)`, where `A` and `S` are read at that
pulse. -/
theorem apply_undelayed [CommRing K] (f : FB σ K) (hq : f.queue = none) (hs : Separate f.actuators)
    (hm : ∀ S, (f.mi S).length = f.actuators.length) (s : σ) :
    ∃ s', f.apply s = .ok (f, s') ∧ readAll f.actuators s' =
      List.zipWith (fun a c => a - f.gain * c) (readAll f.actuators s)
        (f.mi (diff (readAll f.signals s) f.setpoints)) := by
  obtain ⟨s', h1, h2, _⟩ := readAll_writeAll f.actuators hs (f.newActs s) (newActs_length f hm s) s
  refine ⟨s', by simp [FB.apply, hq, h1], ?_⟩
  rw [h2, FB.newActs, List.zipWith_map_right]
  congr 1
  funext a c
  ring

/-- The same system with other contents of the queue. -/
abbrev FB.withQueue (f : FB σ K) (q : List (List K)) : FB σ K := { f with queue := some q }

/-- The state of the machine and the feedback during a sequence of pulses with delay `n`:
`st k` is the machine before pulse `k`. -/
theorem pulses_delayed [CommRing K] (f f' : FB σ K) (n : Nat) (hn : f.setPulseDelay n = .ok f')
    (hm : ∀ S, (f.mi S).length = f.actuators.length) (env : Nat → σ → σ) (s : σ) :
    ∃ st : Nat → σ, st 0 = s ∧ ∀ k, (∃ fk, f'.pulses env s k = .ok (fk, st k)) ∧
      st (k + 1) = writeLoop f.actuators
        (if k + 1 < n then List.replicate f.actuators.length 0
         else f.newActs (env (k + 1 - n) (st (k + 1 - n)))) (env k (st k)) := by
  -- the machine states, defined by the pulses themselves
  have hn0 : n ≠ 0 := by
    rintro rfl
    simp [FB.setPulseDelay] at hn
  by_cases h1 : n = 1
  · subst h1
    have hf' : f' = { f with queue := none } := by
      simp [FB.setPulseDelay] at hn
      exact hn.symm
    let step : Nat → σ → σ := fun k x => writeLoop f.actuators (f.newActs (env k x)) (env k x)
    let st : Nat → σ := fun k => Nat.rec s (fun k x => step k x) k
    refine ⟨st, rfl, ?_⟩
    have hp : ∀ k, f'.pulses env s k = .ok (f', st k) := by
      intro k
      induction k with
      | zero => rfl
      | succ k ih =>
        rw [FB.pulses, ih]
        have hnew : f'.newActs (env k (st k)) = f.newActs (env k (st k)) := by rw [hf']; rfl
        have hact : f'.actuators = f.actuators := by rw [hf']
        have hq : f'.queue = none := by rw [hf']
        simp only [Outcome.bind_ok, FB.apply, hq, hnew, hact, writeAll,
          newActs_length f hm, if_true, Outcome.pure_eq]
        rfl
    intro k
    refine ⟨⟨f', hp k⟩, ?_⟩
    have : ¬ (k + 1 < 1) := by omega
    rw [if_neg this]
    rfl
  · have hf' : f' = f.withQueue (List.replicate (n - 1) (List.replicate f.actuators.length 0)) := by
      simp [FB.setPulseDelay, hn0, h1] at hn
      exact hn.symm
    -- histories: the machine states before pulses 0..k
    let zeros : List K := List.replicate f.actuators.length 0
    let val : (Nat → σ) → Nat → List K := fun st k =>
      if k + 1 < n then zeros else f.newActs (env (k + 1 - n) (st (k + 1 - n)))
    -- define by strong recursion through lists of states, newest first
    let hist : Nat → List σ := fun k => Nat.rec [s] (fun k h =>
      (match h with
       | [] => []
       | x :: _ => writeLoop f.actuators
          (if k + 1 < n then zeros
           else match h[n - 1]? with
             | some y => f.newActs (env (k + 1 - n) y)
             | none => zeros) (env k x) :: h)) k
    let st : Nat → σ := fun k => (hist k).headD s
    have hhist : ∀ k, hist k = (List.range (k + 1)).reverse.map st := by
      intro k
      induction k with
      | zero => rfl
      | succ k ih =>
        have hk : hist (k + 1) = (match hist k with
          | [] => []
          | x :: _ => writeLoop f.actuators
            (if k + 1 < n then zeros
             else match (hist k)[n - 1]? with
               | some y => f.newActs (env (k + 1 - n) y)
               | none => zeros) (env k x) :: hist k) := rfl
        have hne : ∃ x t, hist k = x :: t := by
          rw [ih, List.range_succ]
          simp
        obtain ⟨x, t, hxt⟩ := hne
        have hst : st (k + 1) = (hist (k + 1)).headD s := rfl
        rw [List.range_succ, List.reverse_append, List.map_append, ← ih]
        simp only [List.reverse_cons, List.reverse_nil, List.nil_append, List.map_cons,
          List.map_nil, List.singleton_append]
        rw [hst, hk, hxt]
        rfl
    have hst1 : ∀ k, st (k + 1) = writeLoop f.actuators (val st k) (env k (st k)) := by
      intro k
      have hk : hist (k + 1) = (match hist k with
          | [] => []
          | x :: _ => writeLoop f.actuators
            (if k + 1 < n then zeros
             else match (hist k)[n - 1]? with
               | some y => f.newActs (env (k + 1 - n) y)
               | none => zeros) (env k x) :: hist k) := rfl
      have hst : st (k + 1) = (hist (k + 1)).headD s := rfl
      have hx : ∃ t, hist k = st k :: t := by
        rw [hhist k, List.range_succ]
        simp
      obtain ⟨t, ht⟩ := hx
      rw [hst, hk]
      have hget : k + 1 < n ∨ (hist k)[n - 1]? = some (st (k + 1 - n)) := by
        by_cases hlt : k + 1 < n
        · exact Or.inl hlt
        · right
          rw [hhist k, List.getElem?_map, List.getElem?_reverse (by simp; omega)]
          simp only [List.length_range]
          rw [List.getElem?_range (by omega)]
          simp only [Option.map_some, Option.some.injEq]
          congr 1
          omega
      rw [ht] at hget ⊢
      simp only [List.headD_cons, val]
      by_cases hlt : k + 1 < n
      · rw [if_pos hlt, if_pos hlt]
      · rw [if_neg hlt, if_neg hlt]
        rcases hget with h | h
        · exact absurd h hlt
        · rw [h]
    refine ⟨st, rfl, fun k => ⟨?_, hst1 k⟩⟩
    -- contents of the queue
    have hval_len : ∀ k, (val st k).length = f.actuators.length := by
      intro k
      simp only [val]
      split
      · simp [zeros]
      · exact newActs_length f hm _
    have hp : ∀ k, f'.pulses env s k = .ok
        (f.withQueue ((List.range (n - 1)).map (fun i => val st (k + i))), st k) := by
      intro k
      induction k with
      | zero =>
        rw [FB.pulses, hf']
        have : (List.replicate (n - 1) (List.replicate f.actuators.length (0 : K))) =
            (List.range (n - 1)).map (fun i => val st (0 + i)) := by
          apply List.ext_getElem
          · simp
          · intro i hi1 hi2
            simp only [List.length_replicate] at hi1
            have : 0 + i + 1 < n := by omega
            simp only [List.getElem_replicate, List.getElem_map, List.getElem_range, val,
              this, if_true, zeros]
        rw [this]
        rfl
      | succ k ih =>
        rw [FB.pulses, ih]
        simp only [Outcome.bind_ok, FB.apply]
        have hnew : (f.withQueue ((List.range (n - 1)).map (fun i => val st (k + i)))).newActs (env k (st k)) =
            val st (k + (n - 1)) := by
          have : ¬ (k + (n - 1) + 1 < n) := by omega
          simp only [val, this, if_false, show k + (n - 1) + 1 - n = k by omega]
          rfl
        have hq : (List.range (n - 1)).map (fun i => val st (k + i)) ++ [val st (k + (n - 1))] =
            val st k :: (List.range (n - 1)).map (fun i => val st (k + 1 + i)) := by
          have h1 : (List.range (n - 1)).map (fun i => val st (k + i)) ++ [val st (k + (n - 1))] =
              (List.range (n - 1 + 1)).map (fun i => val st (k + i)) := by
            rw [List.range_succ, List.map_append]
            rfl
          rw [h1, List.range_succ_eq_map, List.map_cons, List.map_map]
          simp only [Nat.add_zero, List.cons.injEq, true_and]
          apply List.map_congr_left
          intro i _
          simp only [Function.comp]
          congr 1
          omega
        rw [hnew, hq]
        simp only [writeAll, hval_len, if_true, Outcome.bind_ok, Outcome.pure_eq, hst1]
    exact ⟨_, hp k⟩

/-- C24: at pulse `k` the actuators are set to the values computed `n - 1` pulses earlier, and to
zero during the first `n - 1` pulses. -/
theorem delayed_write [CommRing K] (f f' : FB σ K) (n : Nat) (hn : f.setPulseDelay n = .ok f')
    (hs : Separate f.actuators) (hm : ∀ S, (f.mi S).length = f.actuators.length)
    (env : Nat → σ → σ) (s : σ) :
    ∃ st : Nat → σ, (∀ k, ∃ fk, f'.pulses env s k = .ok (fk, st k)) ∧
      (∀ k, k + 1 < n → readAll f.actuators (st (k + 1)) = List.replicate f.actuators.length 0) ∧
      (∀ k, readAll f.actuators (st (k + n)) =
        List.zipWith (fun a c => a - f.gain * c) (readAll f.actuators (env k (st k)))
          (f.mi (diff (readAll f.signals (env k (st k))) f.setpoints))) := by
  obtain ⟨st, _, h⟩ := pulses_delayed f f' n hn hm env s
  have hn0 : n ≠ 0 := by
    rintro rfl
    simp [FB.setPulseDelay] at hn
  refine ⟨st, fun k => (h k).1, ?_, ?_⟩
  · intro k hk
    rw [(h k).2, if_pos hk]
    obtain ⟨s', h1, h2, _⟩ := readAll_writeAll f.actuators hs
      (List.replicate f.actuators.length 0) (by simp) (env k (st k))
    simp only [writeAll, List.length_replicate, if_true, Outcome.ok.injEq] at h1
    rw [h1, h2]
  · intro k
    have hk := (h (k + (n - 1))).2
    have e1 : ¬ (k + (n - 1) + 1 < n) := by omega
    rw [if_neg e1, show k + (n - 1) + 1 - n = k by omega,
      show k + (n - 1) + 1 = k + n by omega] at hk
    obtain ⟨s', h1, h2, _⟩ := readAll_writeAll f.actuators hs
      (f.newActs (env k (st k))) (newActs_length f hm _) (env (k + (n - 1)) (st (k + (n - 1))))
    simp only [writeAll, newActs_length f hm, if_true, Outcome.ok.injEq] at h1
    rw [hk, h1, h2, FB.newActs, List.zipWith_map_right]
    congr 1
    funext a c
    ring

/-! ## C68: convergence -/

theorem diff_step [CommRing K] (g : K) (a b c : List K) (h : c = diff a b)
    (hl : a.length = b.length) :
    diff (List.zipWith (fun x y => x - g * y) a c) b = (diff a b).map (fun d => (1 - g) * d) := by
  subst h
  induction a generalizing b with
  | nil => simp [diff]
  | cons x a ih =>
    cases b with
    | nil => simp at hl
    | cons y b =>
      have := ih b (by simpa using hl)
      simp only [diff, List.zipWith_cons_cons, List.map_cons, List.cons.injEq] at this ⊢
      exact ⟨by ring, this⟩

/-- C68: when the response of the signals is the one the matrix was computed for (`Mi (S - S0)` is
the distance of the actuators from their ideal settings `A0`), every undelayed pulse reduces that
distance by the factor `1 - g`. -/
theorem feedback_converges [CommRing K] (f : FB σ K) (hq : f.queue = none)
    (hs : Separate f.actuators) (hm : ∀ S, (f.mi S).length = f.actuators.length) (A0 : List K)
    (hA : A0.length = f.actuators.length) (env : Nat → σ → σ)
    (henv : ∀ k s, readAll f.actuators (env k s) = readAll f.actuators s)
    (hr : ∀ s, f.mi (diff (readAll f.signals s) f.setpoints) = diff (readAll f.actuators s) A0)
    (s : σ) (k : Nat) :
    ∃ sk, f.pulses env s k = .ok (f, sk) ∧
      diff (readAll f.actuators sk) A0 =
        (diff (readAll f.actuators s) A0).map (fun d => (1 - f.gain) ^ k * d) := by
  induction k with
  | zero => exact ⟨s, rfl, by simp⟩
  | succ k ih =>
    obtain ⟨sk, h1, h2⟩ := ih
    obtain ⟨s', h3, h4⟩ := apply_undelayed f hq hs hm (env k sk)
    refine ⟨s', by rw [FB.pulses, h1]; exact h3, ?_⟩
    rw [h4, hr, diff_step f.gain _ A0 _ rfl (by simp [readAll, hA]), henv, h2, List.map_map]
    congr 1
    funext d
    simp only [Function.comp]
    ring

/-- C68: restoring the actuators brings back the values stored before any number of pulses. -/
theorem restore_spec [CommRing K] (f : FB σ K) (hs : Separate f.actuators) (s0 s : σ) :
    ∃ s', (f.store s0).restore s = .ok s' ∧ readAll f.actuators s' = readAll f.actuators s0 := by
  obtain ⟨s', h1, h2, _⟩ := readAll_writeAll f.actuators hs (readAll f.actuators s0)
    (by simp [readAll]) s
  exact ⟨s', h1, h2⟩

/-! A machine with two knobs. -/

def knob (i : Nat) : Chan (Nat → ℚ) ℚ :=
  ⟨fun s => s i, fun v s j => if j = i then v else s j⟩

theorem knobs_separate : Separate [knob 0, knob 1] := by
  constructor
  · intro c hc
    simp only [List.mem_cons, List.not_mem_nil, or_false] at hc
    rcases hc with rfl | rfl <;> intro v s <;> simp [knob]
  · simp only [List.pairwise_cons, List.mem_cons, List.not_mem_nil, or_false, forall_eq]
    refine ⟨⟨fun v s => by simp [knob], fun v s => by simp [knob]⟩, ?_, List.Pairwise.nil⟩
    simp

def demo : FB (Nat → ℚ) ℚ :=
  (FB.make [knob 0, knob 1] [knob 0, knob 1] (fun S => (S ++ [0, 0]).take 2)).setGain (1/2)

example : ∀ S, (demo.mi S).length = demo.actuators.length := by
  intro S
  simp [demo, FB.make, FB.setGain]

example : ∃ f', demo.setPulseDelay 3 = .ok f' := ⟨_, rfl⟩

example : demo.newActs (fun _ => 4) = [2, 2] := by
  norm_num [demo, FB.make, FB.setGain, FB.newActs, readAll, knob, List.replicate]

example (s : Nat → ℚ) :
    demo.mi (diff (readAll demo.signals s) demo.setpoints) = diff (readAll demo.actuators s) [0, 0] := by
  simp [demo, FB.make, FB.setGain, diff, readAll, knob]

example : (⟨3, 4, 2, 1⟩ : Magnet ℚ).getBy ≠ 0 := by norm_num [Magnet.getBy]

#print axioms readAll_writeAll
#print axioms reset_restores
#print axioms incrementAll_spec
#print axioms winding_partial
#print axioms winding_violated
#print axioms winding_scale_zero_violated
#print axioms apply_undelayed
#print axioms delayed_write
#print axioms feedback_converges
#print axioms restore_spec

end Verif.Feedback
