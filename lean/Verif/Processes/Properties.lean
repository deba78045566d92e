import Mathlib.Tactic.Ring
import Mathlib.Tactic.Linarith
import Mathlib.Tactic.NormNum
import Mathlib.Tactic.FieldSimp
import Mathlib.Data.Rat.Floor
import Verif.Processes.Lemmas

/-!
# Properties of the step control of processes (C75-C82)
-/

set_option linter.unusedSectionVars false
set_option linter.unusedSimpArgs false

namespace Verif.Processes
open Verif Verif.Processes.Spec

section
variable {K : Type} [Field K] [LinearOrder K] [IsStrictOrderedRing K] [FloorRing K]

/-! ## C75: tracking ends -/

theorem loop_more (eps len : K) (n : Nat) : ∀ (s : K) (b : Unit) (ps : List (Proc K)) (r),
    StepManager.loop (V eps) eps len n s b ps = some r →
    StepManager.loop (V eps) eps len (n + 1) s b ps = some r := by
  induction n with
  | zero => intro s b ps r h; simp [StepManager.loop] at h
  | succ n ih =>
    intro s b ps r h
    rw [StepManager.loop] at h ⊢
    split
    · rename_i hf
      rw [if_pos hf] at h
      exact h
    · rename_i hf
      rw [if_neg hf] at h
      split at h
      · rename_i b2 ps2 l2 h2
        rw [ih _ _ _ _ h2]
        exact h
      · cases h

theorem loop_enough (eps len : K) (n m : Nat) (hm : n ≤ m) (s : K) (b : Unit) (ps : List (Proc K)) (r)
    (h : StepManager.loop (V eps) eps len n s b ps = some r) :
    StepManager.loop (V eps) eps len m s b ps = some r := by
  induction m, hm using Nat.le_induction with
  | base => exact h
  | succ m _ ih => exact loop_more eps len m s b ps r ih

theorem track_enough (eps : K) (n m : Nat) (hm : n ≤ m) (mg : StepManager.Manager (Proc K) Unit K)
    (c : Comp K) (r) (h : StepManager.track (V eps) eps n mg c = some r) :
    StepManager.track (V eps) eps m mg c = some r := by
  unfold StepManager.track at h ⊢
  split at h
  · rename_i b ps l h2
    rw [loop_enough eps _ n m hm _ _ _ _ h2]
    exact h
  · cases h

theorem trackAll_enough (eps : K) (n m : Nat) (hm : n ≤ m) (cs : List (Comp K)) :
    ∀ (mg r : StepManager.Manager (Proc K) Unit K), StepManager.trackAll (V eps) eps n mg cs = some r →
    StepManager.trackAll (V eps) eps m mg cs = some r := by
  induction cs with
  | nil => intro mg r h; exact h
  | cons c cs ih =>
    intro mg r h
    rw [StepManager.trackAll] at h ⊢
    split at h
    · rename_i m2 l2 h2
      rw [track_enough eps n m hm mg c _ h2]
      exact ih _ _ h
    · cases h

/-- C75, one component: the step loop ends and leaves every process ready for the next component. -/
theorem track_ends (eps δ : K) (heps : 0 ≤ eps) (heps1 : eps < 1) (hδ0 : 0 < δ) (hδ : δ ≤ 1000)
    (iset : List (Nat × Nat)) (m : StepManager.Manager (Proc K) Unit K)
    (hm : ∀ p ∈ m.procs, Ready δ iset p) (c : Comp K) (hc : 0 ≤ c.len) (hk : Tracker.Known iset c.ids) :
    ∃ n m' l, StepManager.track (V eps) eps n m c = some (m', l) ∧ ∀ p ∈ m'.procs, Ready δ iset p := by
  obtain ⟨N, hN⟩ : ∃ N : Nat, c.len ≤ N * δ := by
    refine ⟨(⌊c.len / δ⌋ + 1).toNat, ?_⟩
    have h1 : c.len / δ < ⌊c.len / δ⌋ + 1 := Int.lt_floor_add_one _
    have h2 : ((⌊c.len / δ⌋ + 1 : Int) : K) ≤ (((⌊c.len / δ⌋ + 1).toNat : Int) : K) := by
      exact_mod_cast Int.self_le_toNat _
    push_cast at h2
    rw [div_lt_iff₀ hδ0] at h1
    have h3 : (((⌊c.len / δ⌋ : Int) : K) + 1) * δ ≤ ((⌊c.len / δ⌋ + 1).toNat : K) * δ :=
      mul_le_mul_of_nonneg_right h2 hδ0.le
    linarith
  have hps : ∀ p ∈ m.procs.map (Proc.set c), Static δ iset p ∧ Dyn c.len 0 p := by
    intro p hp
    rw [List.mem_map] at hp
    obtain ⟨q, hq, rfl⟩ := hp
    exact set_dyn δ iset c hc hk q (hm q hq)
  obtain ⟨ps', l, e1, e2⟩ := loop_total eps δ c.len heps heps1 hδ0 hδ iset hc
    (((m.procs.map (Proc.set c)).map grid).sum + N) N 0 (m.procs.map (Proc.set c)) (le_refl _) hc
    (by rw [sub_zero]; exact hN) (le_refl _) hps
  refine ⟨((m.procs.map (Proc.set c)).map grid).sum + N + 1, ⟨m.total + c.len, ps', ()⟩, l, ?_, e2⟩
  have : StepManager.loop (V eps) eps ((V eps).length c)
      (((m.procs.map (Proc.set c)).map grid).sum + N + 1) 0 m.bunch
      (m.procs.map ((V eps).setComponent c m.bunch)) = some ((), ps', l) := e1
  unfold StepManager.track
  rw [this]
  rfl

/-- C75: whatever processes are registered, with at least one step for radiation, one step for spin and
bins of a collimator that are not too short, tracking of every beam line ends; the tracker has an
integrator for each component and is never called illegally. -/
theorem trackAll_ends (eps δ : K) (heps : 0 ≤ eps) (heps1 : eps < 1) (hδ0 : 0 < δ) (hδ : δ ≤ 1000)
    (iset : List (Nat × Nat)) (cs : List (Comp K))
    (hcs : ∀ c ∈ cs, 0 ≤ c.len ∧ Tracker.Known iset c.ids) :
    ∀ (m : StepManager.Manager (Proc K) Unit K), (∀ p ∈ m.procs, Ready δ iset p) →
    ∃ n m', StepManager.trackAll (V eps) eps n m cs = some m' ∧ (∀ p ∈ m'.procs, Ready δ iset p) ∧
      ∀ p, Proc.transport p ∈ m'.procs → p.failed = false := by
  induction cs with
  | nil =>
    intro m hm
    refine ⟨0, m, rfl, hm, fun p hp => ?_⟩
    exact (hm _ hp).1.1
  | cons c cs ih =>
    intro m hm
    obtain ⟨h1, h2⟩ := hcs c (by simp)
    obtain ⟨n1, m1, l, e1, r1⟩ := track_ends eps δ heps heps1 hδ0 hδ iset m hm c h1 h2
    obtain ⟨n2, m2, e2, r2, r3⟩ := ih (fun c hc => hcs c (List.mem_cons_of_mem _ hc)) m1 r1
    refine ⟨max n1 n2, m2, ?_, r2, r3⟩
    rw [StepManager.trackAll, track_enough eps n1 _ (le_max_left _ _) m c _ e1]
    exact trackAll_enough eps n2 _ (le_max_right _ _) cs m1 m2 e2

/-- The steps of a tracked component as each process sees them (used to carry the statements about
single processes to the step manager). -/
theorem track_taken (eps δ : K) (heps : 0 ≤ eps) (heps1 : eps < 1) (hδ0 : 0 < δ)
    (iset : List (Nat × Nat)) (m m' : StepManager.Manager (Proc K) Unit K)
    (hm : ∀ p ∈ m.procs, Ready δ iset p) (c : Comp K) (hc : 0 ≤ c.len) (hk : Tracker.Known iset c.ids)
    (n : Nat) (l : List (StepManager.Step (Proc K) K))
    (h : StepManager.track (V eps) eps n m c = some (m', l)) :
    Covers eps c.len (l.map (fun st => st.ds)) ∧
    ∀ (i : Nat) (p : Proc K), m.procs[i]? = some p →
      ∃ p', m'.procs[i]? = some p' ∧
        Taken Proc.active (Proc.limit eps) (Proc.act eps) (p.set c) (l.map (fun st => st.ds)) p' := by
  have hps : ∀ p ∈ m.procs.map (Proc.set c), Static δ iset p ∧ Dyn c.len 0 p := by
    intro p hp
    rw [List.mem_map] at hp
    obtain ⟨q, hq, rfl⟩ := hp
    exact set_dyn δ iset c hc hk q (hm q hq)
  unfold StepManager.track at h
  split at h
  · rename_i b ps l2 h2
    simp only [Option.some.injEq, Prod.mk.injEq] at h
    obtain ⟨rfl, rfl⟩ := h
    obtain ⟨⟨a1, a2, a3, a4⟩, a5⟩ := loop_taken eps δ c.len heps heps1 hδ0 iset hc n 0
      (m.procs.map (Proc.set c)) ps b l2 hc hps h2
    rw [zero_add] at a2 a3
    refine ⟨⟨by simpa using a1, a2, a3, ?_⟩, ?_⟩
    · intro pre suf he h1 h2
      have := a4 pre suf he h1 h2
      rwa [zero_add] at this
    · intro i p hp
      obtain ⟨p', e1, e2⟩ := a5 i (p.set c) (by rw [List.getElem?_map, hp]; rfl)
      exact ⟨p', e1, e2⟩
  · cases h

/-! ## C76: wake fields -/

theorem taken_idle {P : Type} (active : P → Bool) (limit : P → K) (act : K → P → P) (p p' : P) (l : List K)
    (h : Taken active limit act p l p') (ha : active p = false) : p' = p := by
  induction h with
  | nil p => rfl
  | act p p2 ds l h _ _ _ _ => rw [ha] at h; cases h
  | idle p p2 ds l h _ _ ih => exact ih ha

theorem wake_gen (eps : K) (w w' : Wake K) (l : List K)
    (h : Taken (fun w : Wake K => w.active) Wake.limit (Wake.act eps) w l w') :
    w.active = true → w.cur ≤ w.impulse → (l ≠ [] ∨ eps < w.impulse - w.cur) →
    w.impulse - (w.cur + l.sum) ≤ eps →
    ∃ pre suf, l = pre ++ suf ∧ |w.cur + pre.sum - w.impulse| ≤ eps ∧
      w'.kicks = w.kicks ++ [(w.clen, w.cur + pre.sum)] := by
  induction h with
  | nil w =>
    intro _ _ h2 h3
    exfalso
    rcases h2 with h2 | h2
    · exact h2 rfl
    · rw [List.sum_nil, add_zero] at h3
      linarith
  | act w w' ds l ha h0 hl t ih =>
    intro _ h1 _ h3
    simp only [Wake.limit] at hl
    by_cases hf : StepManager.fequal eps (w.cur + ds) w.impulse = true
    · refine ⟨[ds], l, rfl, ?_, ?_⟩
      · simpa [StepManager.fequal] using hf
      · have ha2 : (Wake.act eps ds w).active = false := by simp [Wake.act, hf]
        rw [taken_idle _ _ _ _ _ _ t ha2]
        simp [Wake.act, hf]
    · have he : Wake.act eps ds w = { w with cur := w.cur + ds } := by simp [Wake.act, hf]
      rw [he] at ih
      have hgap : eps < w.impulse - (w.cur + ds) := by
        simp only [StepManager.fequal, decide_eq_true_eq, not_le] at hf
        rw [abs_sub_comm, abs_of_nonneg (by linarith)] at hf
        exact hf
      obtain ⟨pre, suf, e1, e2, e3⟩ := ih ha (by dsimp only; linarith) (Or.inr hgap)
        (by dsimp only; rw [List.sum_cons] at h3; linarith)
      refine ⟨ds :: pre, suf, by rw [e1]; rfl, ?_, ?_⟩
      · rw [List.sum_cons, ← add_assoc]
        exact e2
      · rw [e3, List.sum_cons, ← add_assoc]
  | idle w w' ds l ha _ _ _ =>
    intro h
    rw [h] at ha
    cases ha

/-- C76: in a component with a wake field the wake is applied exactly once, for the whole length of the
component, after the steps that lead to its centre or exit, whatever other processes divide the
component. -/
theorem wake_once (eps : K) (w w' : Wake K) (c : Comp K) (hw : c.wake = true) (hc : 0 ≤ c.len) (l : List K)
    (hl : Covers eps c.len l)
    (h : Taken (fun w : Wake K => w.active) Wake.limit (Wake.act eps) (w.set c) l w') :
    ∃ pre suf, l = pre ++ suf ∧ |pre.sum - (if w.exit then c.len else c.len / 2)| ≤ eps ∧
      w'.kicks = w.kicks ++ [(c.len, pre.sum)] := by
  have he : w.set c = { w with
      clen := c.len
      impulse := (if w.exit then c.len else c.len / 2)
      cur := 0
      active := true } := by simp [Wake.set, hw]
  rw [he] at h
  have himp : 0 ≤ (if w.exit then c.len else c.len / 2) ∧ (if w.exit then c.len else c.len / 2) ≤ c.len := by
    split <;> constructor <;> linarith
  obtain ⟨pre, suf, e1, e2, e3⟩ := wake_gen eps _ _ _ h rfl himp.1 (Or.inl hl.ne)
    (by dsimp only; have := hl.reach; linarith [himp.2])
  dsimp only at e2 e3
  rw [zero_add] at e2 e3
  exact ⟨pre, suf, e1, e2, e3⟩

/-- C76: without a wake field nothing is applied. -/
theorem wake_none (eps : K) (w w' : Wake K) (c : Comp K) (hw : c.wake = false) (l : List K)
    (h : Taken (fun w : Wake K => w.active) Wake.limit (Wake.act eps) (w.set c) l w') :
    w'.kicks = w.kicks := by
  have ha : (w.set c).active = false := by simp [Wake.set, hw]
  rw [taken_idle _ _ _ _ _ _ h ha]
  simp [Wake.set, hw]

/-! ## C77: synchrotron radiation -/

theorem rad_gen (eps : K) (r r' : Rad K) (l : List K)
    (h : Taken (fun r : Rad K => r.active) Rad.limit (Rad.act eps) r l r') :
    r.active = true → 0 ≤ r.nk → r.nk < r.ns → eps < r.dL → r.nk * r.dL - eps ≤ r.intS →
    r.intS < ((r.nk : K) + 1) * r.dL - eps →
    ∃ k : Nat, r'.kicks = r.kicks ++ List.replicate k r.dL ∧ r.nk + k ≤ r.ns ∧
      ((r.nk : K) + k) * r.dL - eps ≤ r.intS + l.sum ∧
      (r.nk + k < r.ns → r.intS + l.sum < ((r.nk : K) + k + 1) * r.dL - eps) := by
  induction h with
  | nil r =>
    intro _ h0 h1 h2 h3 h4
    refine ⟨0, by simp, by simpa using h1.le, by simpa using h3, fun _ => by simpa using h4⟩
  | act r r' ds l ha h0 hl t ih =>
    intro _ g0 g1 g2 g3 g4
    simp only [Rad.limit] at hl
    by_cases hf : StepManager.fequal eps (r.intS + ds) (((r.nk : K) + 1) * r.dL) = true
    · have he : Rad.act eps ds r = { r with
          intS := r.intS + ds
          kicks := r.kicks ++ [r.dL]
          nk := r.nk + 1
          active := decide (r.nk + 1 ≠ r.ns) } := by simp [Rad.act, hf]
      rw [he] at ih t
      have hcl : ((r.nk : K) + 1) * r.dL - eps ≤ r.intS + ds := by
        simp only [StepManager.fequal, decide_eq_true_eq] at hf
        have := (abs_le.1 hf).1
        linarith
      by_cases hlast : r.nk + 1 = r.ns
      · refine ⟨1, ?_, by omega, ?_, fun h => by exfalso; omega⟩
        · rw [taken_idle _ _ _ _ _ _ t (by simp [hlast])]
          rfl
        · have hnn : 0 ≤ l.sum := by
            clear ih he hcl hf hl
            generalize hr2 : ({ r with
              intS := r.intS + ds
              kicks := r.kicks ++ [r.dL]
              nk := r.nk + 1
              active := decide (r.nk + 1 ≠ r.ns) } : Rad K) = r2 at t
            clear hr2
            induction t with
            | nil => simp
            | act p p2 ds l _ h0 _ _ ih => rw [List.sum_cons]; linarith
            | idle p p2 ds l _ h0 _ ih => rw [List.sum_cons]; linarith
          rw [List.sum_cons]
          push_cast
          linarith
      · obtain ⟨k, e1, e2, e3, e4⟩ := ih (by simp [hlast]) (by dsimp only; omega) (by dsimp only; omega) g2
          (by dsimp only; push_cast; exact hcl) (by dsimp only; push_cast; linarith)
        dsimp only at e1 e2 e3 e4
        push_cast at e3 e4
        refine ⟨k + 1, ?_, by omega, ?_, ?_⟩
        · rw [e1, List.append_assoc, List.replicate_succ]
          rfl
        · rw [List.sum_cons]
          push_cast
          have : ((r.nk : K) + (k + 1)) * r.dL = (r.nk + 1 + k) * r.dL := by ring
          rw [this]
          linarith
        · intro hk
          have := e4 (by omega)
          rw [List.sum_cons]
          push_cast
          have h2 : ((r.nk : K) + (k + 1) + 1) * r.dL = (r.nk + 1 + k + 1) * r.dL := by ring
          rw [h2]
          linarith
    · have hact : decide (r.nk ≠ r.ns) = true := by simp; omega
      have he : Rad.act eps ds r = { r with intS := r.intS + ds, active := true } := by
        simp only [Rad.act, hf, hact]
        rfl
      rw [he] at ih
      have hgap : r.intS + ds < ((r.nk : K) + 1) * r.dL - eps := by
        simp only [StepManager.fequal, decide_eq_true_eq, not_le] at hf
        rw [abs_sub_comm, abs_of_nonneg (by linarith)] at hf
        linarith
      obtain ⟨k, e1, e2, e3, e4⟩ := ih rfl g0 g1 g2 (by dsimp only; linarith) hgap
      dsimp only at e1 e2 e3 e4
      refine ⟨k, e1, e2, ?_, ?_⟩
      · rw [List.sum_cons]; linarith
      · intro hk
        have := e4 hk
        rw [List.sum_cons]; linarith
  | idle r r' ds l ha _ _ _ =>
    intro h
    rw [h] at ha
    cases ha

/-- C77, progress: when `n` steps per component are asked for, then after any number of steps of the
step manager with total length `S` radiation has been applied for as many pieces of length `len / n` as
fit in `S`, up to the tolerance. -/
theorem rad_progress (eps : K) (heps : 0 ≤ eps) (r r' : Rad K) (c : Comp K) (hb : c.bend = true)
    (n : Nat) (hn : 0 < n) (hr : r.ns = n) (hlen : eps < c.len / n) (l : List K)
    (h : Taken (fun r : Rad K => r.active) Rad.limit (Rad.act eps) (r.set c) l r') :
    ∃ k ≤ n, r'.kicks = r.kicks ++ List.replicate k (c.len / n) ∧
      (k : K) * (c.len / n) - eps ≤ l.sum ∧ (k < n → l.sum < ((k : K) + 1) * (c.len / n) - eps) := by
  have he : r.set c = { r with dL := c.len / n, nk := 0, intS := 0, active := true } := by
    have : ¬ (n : Int) = 0 := by omega
    simp only [Rad.set, hb, hr, this, if_false]
    simp
  rw [he] at h
  obtain ⟨k, e1, e2, e3, e4⟩ := rad_gen eps _ _ _ h rfl (le_refl _) (by dsimp only; omega) hlen
    (by simp; exact heps) (by simp; exact hlen)
  dsimp only at e1 e2 e3 e4
  refine ⟨k, by omega, e1, by simpa using e3, fun hk => ?_⟩
  have := e4 (by omega)
  simpa using this

/-- C77: with `n` steps per component radiation is applied `n` times for the `n`-th part of the length,
that is once for the whole component, whatever other processes divide the component. -/
theorem rad_all (eps : K) (heps : 0 ≤ eps) (r r' : Rad K) (c : Comp K) (hb : c.bend = true)
    (n : Nat) (hn : 0 < n) (hr : r.ns = n) (hlen : eps < c.len / n) (l : List K) (hl : Covers eps c.len l)
    (h : Taken (fun r : Rad K => r.active) Rad.limit (Rad.act eps) (r.set c) l r') :
    ∃ ks : List K, r'.kicks = r.kicks ++ ks ∧ ks.length = n ∧ (∀ k ∈ ks, k = c.len / n) ∧
      ks.sum = c.len := by
  obtain ⟨k, h1, h2, h3, h4⟩ := rad_progress eps heps r r' c hb n hn hr hlen l h
  have hn' : (0 : K) < n := by exact_mod_cast hn
  have hk : k = n := by
    by_contra hne
    have hlt : k < n := by omega
    have h5 := h4 hlt
    have h6 : ((k : K) + 1) ≤ n := by exact_mod_cast hlt
    have h7 : 0 < c.len / n := by linarith
    have h8 : ((k : K) + 1) * (c.len / n) ≤ n * (c.len / n) := mul_le_mul_of_nonneg_right h6 h7.le
    rw [mul_div_cancel₀ _ hn'.ne'] at h8
    have := hl.reach
    linarith
  refine ⟨_, h2, by simp [hk], fun x hx => (List.mem_replicate.1 hx).2, ?_⟩
  rw [hk, List.sum_replicate, nsmul_eq_mul, mul_div_cancel₀ _ hn'.ne']

/-- C77: outside bends nothing is radiated. -/
theorem rad_none (eps : K) (r r' : Rad K) (c : Comp K) (hb : c.bend = false) (l : List K)
    (h : Taken (fun r : Rad K => r.active) Rad.limit (Rad.act eps) (r.set c) l r') :
    r'.kicks = r.kicks := by
  rw [taken_idle _ _ _ _ _ _ h (by simp [Rad.set, hb])]
  simp [Rad.set]

/-- Steps of the mode with a maximum step length, after the first boundary. -/
theorem radmax_gen (eps : K) (r r' : Rad K) (l : List K)
    (h : Taken (fun r : Rad K => r.active) Rad.limit (Rad.act eps) r l r') :
    r.active = true → r.ns = 0 → 0 < r.nk → eps < r.dL → r.nk * r.dL - eps ≤ r.intS →
    r.intS < ((r.nk : K) + 1) * r.dL - eps →
    ∃ k : Nat, r'.kicks = r.kicks ++ List.replicate k r.dL ∧
      ((r.nk : K) + k) * r.dL - eps ≤ r.intS + l.sum ∧
      r.intS + l.sum < ((r.nk : K) + k + 1) * r.dL - eps := by
  induction h with
  | nil r =>
    intro _ _ h0 h2 h3 h4
    exact ⟨0, by simp, by simpa using h3, by simpa using h4⟩
  | act r r' ds l ha h0 hl t ih =>
    intro _ g0 g1 g2 g3 g4
    simp only [Rad.limit] at hl
    by_cases hf : StepManager.fequal eps (r.intS + ds) (((r.nk : K) + 1) * r.dL) = true
    · have hne : decide (r.nk + 1 ≠ r.ns) = true := by rw [g0]; simp; omega
      have he : Rad.act eps ds r = { r with
          intS := r.intS + ds
          kicks := r.kicks ++ [r.dL]
          nk := r.nk + 1
          active := true } := by
        simp only [Rad.act, hf, hne, if_true]
      rw [he] at ih
      have hcl : ((r.nk : K) + 1) * r.dL - eps ≤ r.intS + ds := by
        simp only [StepManager.fequal, decide_eq_true_eq] at hf
        have := (abs_le.1 hf).1
        linarith
      obtain ⟨k, e1, e3, e4⟩ := ih rfl g0 (by dsimp only; omega) g2
        (by dsimp only; push_cast; exact hcl) (by dsimp only; push_cast; linarith)
      dsimp only at e1 e3 e4
      push_cast at e3 e4
      refine ⟨k + 1, ?_, ?_, ?_⟩
      · rw [e1, List.append_assoc, List.replicate_succ]
        rfl
      · rw [List.sum_cons]
        push_cast
        have : ((r.nk : K) + (k + 1)) * r.dL = (r.nk + 1 + k) * r.dL := by ring
        rw [this]
        linarith
      · rw [List.sum_cons]
        push_cast
        have h2 : ((r.nk : K) + (k + 1) + 1) * r.dL = (r.nk + 1 + k + 1) * r.dL := by ring
        rw [h2]
        linarith
    · have hact : decide (r.nk ≠ r.ns) = true := by rw [g0]; simp; omega
      have he : Rad.act eps ds r = { r with intS := r.intS + ds, active := true } := by
        simp only [Rad.act, hf, hact]
        rfl
      rw [he] at ih
      have hgap : r.intS + ds < ((r.nk : K) + 1) * r.dL - eps := by
        simp only [StepManager.fequal, decide_eq_true_eq, not_le] at hf
        rw [abs_sub_comm, abs_of_nonneg (by linarith)] at hf
        linarith
      obtain ⟨k, e1, e3, e4⟩ := ih rfl g0 g1 g2 (by dsimp only; linarith) hgap
      dsimp only at e1 e3 e4
      refine ⟨k, e1, ?_, ?_⟩
      · rw [List.sum_cons]; linarith
      · rw [List.sum_cons]; linarith
  | idle r r' ds l ha _ _ _ =>
    intro h
    rw [h] at ha
    cases ha

/-- C77, mode with a maximum step length: the claim of `rad_all` (pieces not longer than the maximum,
together the length of the component) holds when the first step already reaches the end of the first
piece.  Missing: steps shortened by another process, for which it is false (`rad_max_violated`). -/
theorem rad_max_partial (eps : K) (heps : 0 ≤ eps) (r r' : Rad K) (c : Comp K) (hb : c.bend = true)
    (hr : r.ns = 0) (hd : 0 < r.dsMax) (hc : 0 ≤ c.len)
    (hlen : eps < c.len / ((⌊1 + c.len / r.dsMax⌋ : Int) : K)) (d : K) (l : List K)
    (hl : Covers eps c.len (d :: l)) (hd1 : d = c.len / ((⌊1 + c.len / r.dsMax⌋ : Int) : K))
    (h : Taken (fun r : Rad K => r.active) Rad.limit (Rad.act eps) (r.set c) (d :: l) r') :
    ∃ ks : List K, r'.kicks = r.kicks ++ ks ∧ (∀ k ∈ ks, k ≤ r.dsMax) ∧ ks.sum = c.len := by
  obtain ⟨n, hn⟩ : ∃ n : Int, n = ⌊1 + c.len / r.dsMax⌋ := ⟨_, rfl⟩
  rw [← hn] at hlen hd1
  have hn1 : 1 ≤ n := by
    rw [hn, Int.le_floor]
    push_cast
    have : 0 ≤ c.len / r.dsMax := div_nonneg hc hd.le
    linarith
  have hn1' : (0 : K) < n := by exact_mod_cast (by omega : 0 < n)
  have hle : c.len / n ≤ r.dsMax := by
    have : 1 + c.len / r.dsMax < n + 1 := by rw [hn]; exact Int.lt_floor_add_one _
    rw [div_le_iff₀ hn1']
    have h2 : c.len / r.dsMax < n := by linarith
    rw [div_lt_iff₀ hd] at h2
    linarith
  have he : r.set c = { r with dL := c.len / n, nk := 0, intS := 0, active := true } := by
    simp [Rad.set, hb, hr, hn]
  rw [he] at h
  cases h with
  | idle _ _ _ _ ha => simp at ha
  | act _ _ _ _ ha h0 hlim t =>
    have hf : StepManager.fequal eps (0 + d) (((0 : Int) + 1) * (c.len / n)) = true := by
      simp only [StepManager.fequal, decide_eq_true_eq]
      rw [hd1]
      push_cast
      rw [show (0 : K) + c.len / n - (0 + 1) * (c.len / n) = 0 by ring, abs_zero]
      exact heps
    have he2 : Rad.act eps d { r with dL := c.len / n, nk := 0, intS := 0, active := true } =
        { r with
          dL := c.len / n
          nk := 1
          intS := d
          active := true
          kicks := r.kicks ++ [c.len / n] } := by
      simp only [Rad.act, hf, if_true, hr]
      simp
    rw [he2] at t
    obtain ⟨k, e1, e3, e4⟩ := radmax_gen eps _ _ _ t rfl hr (by dsimp only; omega) hlen
      (by dsimp only; rw [hd1]; push_cast; linarith) (by dsimp only; rw [hd1]; push_cast; linarith)
    dsimp only at e1 e3 e4
    push_cast at e3 e4
    have h1 := hl.le
    have h2 := hl.reach
    rw [List.sum_cons] at h1 h2
    have hpos : 0 < c.len / n := by linarith
    have hlen2 : (n : K) * (c.len / n) = c.len := mul_div_cancel₀ _ hn1'.ne'
    have hkn : (k : Int) + 1 = n := by
      apply le_antisymm
      · by_contra hcon
        have : n + 1 ≤ (k : Int) + 1 := by omega
        have h3 : (n : K) + 1 ≤ 1 + k := by
          have : ((n + 1 : Int) : K) ≤ ((k + 1 : Int) : K) := by exact_mod_cast this
          push_cast at this
          linarith
        have h4 : ((n : K) + 1) * (c.len / n) ≤ (1 + k) * (c.len / n) :=
          mul_le_mul_of_nonneg_right h3 hpos.le
        have h5 : ((n : K) + 1) * (c.len / n) = c.len + c.len / n := by rw [add_mul, hlen2, one_mul]
        linarith
      · by_contra hcon
        have : (k : Int) + 1 + 1 ≤ n := by omega
        have h3 : (1 + k + 1 : K) ≤ n := by
          have : (((k : Int) + 1 + 1 : Int) : K) ≤ (n : K) := by exact_mod_cast this
          push_cast at this
          linarith
        have h4 : (1 + k + 1 : K) * (c.len / n) ≤ n * (c.len / n) :=
          mul_le_mul_of_nonneg_right h3 hpos.le
        linarith
    refine ⟨List.replicate (k + 1) (c.len / n), ?_, ?_, ?_⟩
    · rw [e1, List.append_assoc, List.replicate_succ]
      rfl
    · intro x hx
      rw [(List.mem_replicate.1 hx).2]
      exact hle
    · rw [List.sum_replicate, nsmul_eq_mul]
      have : ((k + 1 : Nat) : K) = n := by
        rw [← hkn]
        push_cast
        ring
      rw [this, hlen2]

/-! ## C78: spin -/

theorem spin_tail (eps : K) (p p' : Spin K) (l : List K)
    (h : Taken (fun p : Spin K => p.active) Spin.limit (Spin.act eps) p l p') :
    p.active = true → 0 < p.intS → l ≠ [] → |p.intS + l.sum - p.clen| ≤ eps →
    (∀ pre suf, l = pre ++ suf → pre ≠ [] → suf ≠ [] → eps < |p.intS + pre.sum - p.clen|) →
    p'.log = p.log ++ l.map .body ++ [.exit] := by
  induction h with
  | nil p => intro _ _ h; exact absurd rfl h
  | act p p' ds l ha h0 hl t ih =>
    intro _ h1 _ h2 h3
    have hne : ¬ p.intS = 0 := h1.ne'
    cases l with
    | nil =>
      cases t
      have hf : StepManager.fequal eps (p.intS + ds) p.clen = true := by
        simp only [StepManager.fequal, decide_eq_true_eq]
        simpa using h2
      simp [Spin.act, hne, hf]
    | cons d l =>
      have hf : ¬ StepManager.fequal eps (p.intS + ds) p.clen = true := by
        simp only [StepManager.fequal, decide_eq_true_eq, not_le]
        simpa using h3 [ds] (d :: l) rfl (by simp) (by simp)
      have he : Spin.act eps ds p = { p with log := p.log ++ [.body ds], intS := p.intS + ds } := by
        simp [Spin.act, hne, hf]
      rw [he] at ih
      rw [ih ha (by dsimp only; linarith) (by simp) (by dsimp only; rw [List.sum_cons] at h2; rwa [add_assoc])
        (by
          intro pre suf he h4 h5
          have := h3 (ds :: pre) suf (by rw [he]; rfl) (by simp) h5
          rw [List.sum_cons] at this
          dsimp only
          rwa [add_assoc])]
      simp
  | idle p p' ds l ha _ _ _ => intro h; rw [h] at ha; cases ha

/-- C78: with one step per component, and if the first step is not of length zero, the spin sees the
entrance fringe once, then the body in pieces which make up the length, then the exit fringe once. -/
theorem spin_once_partial (eps : K) (p p' : Spin K) (c : Comp K) (hf : c.field = true)
    (d : K) (l : List K) (hd : 0 < d) (hc : Covers eps c.len (d :: l)) (heps : 0 ≤ eps)
    (h : Taken (fun p : Spin K => p.active) Spin.limit (Spin.act eps) (p.set c) (d :: l) p') :
    p'.log = p.log ++ [.entrance] ++ (d :: l).map .body ++ [.exit] := by
  cases h with
  | idle _ _ _ _ ha => simp [Spin.set, hf] at ha
  | act _ _ _ _ ha h0 hlim t =>
    have hle := hc.le
    have hre := hc.reach
    have hst := hc.stop
    cases l with
    | nil =>
      cases t
      have : StepManager.fequal eps d c.len = true := by
        simp only [StepManager.fequal, decide_eq_true_eq]
        rw [List.sum_singleton] at hle hre
        rw [abs_sub_comm, abs_of_nonneg (by linarith)]
        exact hre
      simp [Spin.act, Spin.set, this]
    | cons e l =>
      have hf2 : ¬ StepManager.fequal eps d c.len = true := by
        simp only [StepManager.fequal, decide_eq_true_eq, not_le]
        have := hst [d] (e :: l) rfl (by simp) (by simp)
        rw [List.sum_singleton] at this
        rw [abs_sub_comm, abs_of_nonneg (by linarith)]
        exact this
      have he : Spin.act eps d (p.set c) = { p.set c with
          log := p.log ++ [.entrance] ++ [.body d]
          intS := d } := by
        simp [Spin.act, Spin.set, hf2]
      rw [he] at t
      rw [spin_tail eps _ _ _ t (by simp [Spin.set, hf]) hd (by simp)
        (by
          show |d + (e :: l).sum - c.len| ≤ eps
          rw [List.sum_cons] at hle hre
          rw [abs_sub_comm, abs_of_nonneg (by linarith)]
          exact hre)
        (by
          intro pre suf he h4 h5
          have := hst (d :: pre) suf (by rw [he]; rfl) (by simp) h5
          rw [List.sum_cons] at this
          show eps < |d + pre.sum - c.len|
          rw [abs_sub_comm, abs_of_nonneg (by linarith)]
          exact this)]
      simp

theorem spin_stuck (eps len : K) (i : Nat) (n : Nat) : ∀ (s : K) (ps : List (Proc K)) (p : Spin K),
    ps[i]? = some (.spin p) → p.active = true → p.nk = 0 → p.intS = s → eps < len - p.dL →
    StepManager.loop (V eps) eps len n s () ps = none := by
  induction n with
  | zero => intros; rfl
  | succ n ih =>
    intro s ps p hp ha hk hs hgap
    have hlim := (StepManager.calcStep_spec (V eps) (len - s) ps).2.1 _ (List.mem_of_getElem? hp) ha
    have hle : s + StepManager.calcStep (V eps) (len - s) ps ≤ p.dL := by
      have : (V eps).maxStep (.spin p) = p.dL - s := by
        simp [V, Proc.limit, Spin.limit, hk, hs]
      rw [this] at hlim
      linarith
    have hnot : ¬ |len - (s + StepManager.calcStep (V eps) (len - s) ps)| ≤ eps := by
      rw [not_le]
      exact lt_of_lt_of_le (by linarith) (le_abs_self _)
    rw [StepManager.loop]
    simp only [StepManager.fequal, hnot, decide_false, Bool.false_eq_true, if_false, doProcs_map]
    rw [ih _ _ (p.act eps (StepManager.calcStep (V eps) (len - s) ps))
      (by
        rw [List.getElem?_map, hp]
        have ha' : (Proc.spin p).active = true := ha
        show some (stepOne eps _ (Proc.spin p)) = _
        simp only [stepOne, ha', if_true]
        rfl) ha hk (by show p.intS + _ = _; rw [hs]) hgap]

/-- C78 is violated when more than one step per component is asked for: the counter of the steps is never
advanced, the limit on the step falls to zero at the first boundary and tracking never gets past it,
whatever other processes there are. -/
theorem spin_hangs_violated (eps : K) (m : StepManager.Manager (Proc K) Unit K) (c : Comp K) (p : Spin K)
    (hp : .spin p ∈ m.procs) (hf : c.field = true)
    (hgap : eps < c.len - c.len / (p.ns : K)) (n : Nat) :
    StepManager.track (V eps) eps n m c = none := by
  obtain ⟨i, hi⟩ := List.mem_iff_getElem?.1 hp
  unfold StepManager.track
  have := spin_stuck eps c.len i n 0 (m.procs.map (Proc.set c)) (p.set c)
    (by rw [List.getElem?_map, hi]; rfl) hf rfl rfl hgap
  have h2 : StepManager.loop (V eps) eps ((V eps).length c) n 0 m.bunch
      (m.procs.map ((V eps).setComponent c m.bunch)) = none := this
  rw [h2]

/-! ## C79: time shift in bends -/

theorem deltaT_gen (p p' : DeltaT K) (l : List K)
    (h : Taken (fun p : DeltaT K => p.active) DeltaT.limit DeltaT.act p l p') :
    (p.active = false → p.intS = p.dL) → p.intS + l.sum ≤ p.dL → p.intS ≤ p.dL →
    p'.shift = p.shift + p.scale * l.sum := by
  induction h with
  | nil p => intro _ _ _; simp
  | act p p' ds l ha h0 hl t ih =>
    intro _ h2 h3
    rw [List.sum_cons] at h2
    simp only [DeltaT.limit] at hl
    rw [ih (by simp [DeltaT.act]) (by simp only [DeltaT.act]; linarith) (by simp only [DeltaT.act]; linarith)]
    simp only [DeltaT.act, List.sum_cons]
    ring
  | idle p p' ds l ha h0 t ih =>
    intro h1 h2 h3
    have h4 := h1 ha
    rw [List.sum_cons] at h2
    have hnn : ∀ (q q' : DeltaT K) (l : List K),
        Taken (fun p : DeltaT K => p.active) DeltaT.limit DeltaT.act q l q' → 0 ≤ l.sum := by
      intro q q' l t
      induction t with
      | nil => simp
      | act p p2 ds l _ h0 _ _ ih => rw [List.sum_cons]; linarith
      | idle p p2 ds l _ h0 _ ih => rw [List.sum_cons]; linarith
    have h5 := hnn _ _ _ t
    have hds : ds = 0 := by linarith
    rw [ih h1 (by linarith) h3, List.sum_cons, hds, zero_add]

/-- C79: in a bend of length `len` the total time shift is `scale` times the length, up to the tolerance,
whatever other processes divide the component; outside bends nothing is shifted. -/
theorem deltaT_total (eps : K) (p p' : DeltaT K) (c : Comp K) (hc : 0 ≤ c.len) (l : List K)
    (hl : Covers eps c.len l)
    (h : Taken (fun p : DeltaT K => p.active) DeltaT.limit DeltaT.act (p.set c) l p') :
    ∃ S, p'.shift = p.shift + p.scale * S ∧
      (c.bend = true → c.len - eps ≤ S ∧ S ≤ c.len) ∧ (c.bend = false → S = 0) := by
  by_cases hb : c.bend = true
  · refine ⟨l.sum, ?_, fun _ => ⟨by linarith [hl.reach], hl.le⟩, fun h => by rw [h] at hb; cases hb⟩
    have := deltaT_gen _ _ _ h (by simp [DeltaT.set, hb]) (by simp [DeltaT.set]; exact hl.le)
      (by simpa [DeltaT.set] using hc)
    simpa [DeltaT.set] using this
  · have hb' : c.bend = false := by simpa using hb
    refine ⟨0, ?_, fun h => absurd h hb, fun _ => rfl⟩
    rw [taken_idle _ _ _ _ _ _ h (by simp [DeltaT.set, hb'])]
    simp [DeltaT.set]

/-! ## C80: processes which act on a whole component -/

/-- How often the electron lens kicks in a component: once for each step of the step manager. -/
theorem hel_count (p p' : Hel K) (c : Comp K) (hh : c.hel = true) (l : List K)
    (h : Taken (fun p : Hel K => p.active) Hel.limit (fun _ => Hel.act) (p.set c) l p') :
    p'.kicks = p.kicks + l.length ∧ p'.turn = p.turn + l.length := by
  have gen : ∀ (q q' : Hel K) (l : List K),
      Taken (fun p : Hel K => p.active) Hel.limit (fun _ => Hel.act) q l q' → q.active = true →
      q'.kicks = q.kicks + l.length ∧ q'.turn = q.turn + l.length := by
    intro q q' l t
    induction t with
    | nil => intro _; simp
    | act p p2 ds l ha _ _ _ ih =>
      intro _
      obtain ⟨i1, i2⟩ := ih ha
      rw [i1, i2]
      simp only [Hel.act, List.length_cons]
      omega
    | idle p p2 ds l ha _ _ _ => intro h; rw [h] at ha; cases ha
  exact gen (p.set c) p' l h hh

/-- C80: when no other process divides the component the electron lens gives one kick per passage.
Missing: other processes with shorter steps, for which it is false (`hel_violated`). -/
theorem hel_once_partial (p p' : Hel K) (c : Comp K) (hh : c.hel = true) (d : K)
    (h : Taken (fun p : Hel K => p.active) Hel.limit (fun _ => Hel.act) (p.set c) [d] p') :
    p'.kicks = p.kicks + 1 ∧ p'.turn = p.turn + 1 := hel_count p p' c hh [d] h

/-! ## C81: where apertures are checked -/

/-- Positions at which a component that is no collimator must be checked. -/
def points (entr cent exit : Bool) (len : K) : List K :=
  (if entr then [0] else []) ++ (if cent then [len / 2] else []) ++ (if exit then [len] else [])

theorem coll_gen (eps : K) (heps : 0 ≤ eps) (p p' : Coll K) (l : List K)
    (h : Taken (fun p : Coll K => p.active) Coll.limit (Coll.act eps) p l p') :
    p.active = true → p.isColl = false → eps < p.len / 2 → p.atEntr = false → p.s ≤ p.next →
    p.next ≤ p.len → (p.atCent = true → p.next = 0) →
    (p.atExit = true → p.next ≤ p.len / 2) → (l ≠ [] ∨ eps < p.next - p.s) →
    p.len - (p.s + l.sum) ≤ eps →
    ∃ cs : List (K × K), p'.checks = p.checks ++ cs ∧
      List.Forall₂ (fun c x => |c.2 - x| ≤ eps ∧ ∃ pre suf, l = pre ++ suf ∧ c.2 = p.s + pre.sum) cs
        (p.next :: points false p.atCent p.atExit p.len) := by
  induction h with
  | nil p =>
    intro _ _ _ _ h5 h6 _ _ h9 h10
    exfalso
    rcases h9 with h9 | h9
    · exact h9 rfl
    · rw [List.sum_nil, add_zero] at h10
      linarith
  | act p p' ds l ha h0 hl t ih =>
    intro _ h2 h3 h4 h5 h6 h7 h8 _ h10
    simp only [Coll.limit, h2, Bool.false_eq_true, if_false] at hl
    rw [List.sum_cons] at h10
    by_cases hf : StepManager.fequal eps (p.s + ds) p.next = true
    · have hcl : |p.s + ds - p.next| ≤ eps := by
        simpa [StepManager.fequal] using hf
      have hnext : |(p.s + ds) - p.next| ≤ eps ∧
          ∃ pre suf, ds :: l = pre ++ suf ∧ p.s + ds = p.s + pre.sum :=
        ⟨hcl, [ds], l, rfl, by simp⟩
      have hpre : ∀ (c : K × K) (x : K), (|c.2 - x| ≤ eps ∧ ∃ pre suf, l = pre ++ suf ∧ c.2 = p.s + ds + pre.sum) →
          (|c.2 - x| ≤ eps ∧ ∃ pre suf, ds :: l = pre ++ suf ∧ c.2 = p.s + pre.sum) := by
        rintro c x ⟨g1, pre, suf, g2, g3⟩
        refine ⟨g1, ds :: pre, suf, by rw [g2]; rfl, ?_⟩
        rw [g3, List.sum_cons, add_assoc]
      by_cases hce : p.atCent = true
      · have hn0 := h7 hce
        have he : Coll.act eps ds p = { p with
            s := p.s + ds
            checks := p.checks ++ [(p.s + ds - ds, p.s + ds)]
            next := p.len / 2
            atCent := false } := by
          simp only [Coll.act, hf, if_true]
          rw [setNext_noncoll _ (by exact h2)]
          simp [h4, hce]
        rw [he] at ih
        obtain ⟨cs, e1, e2⟩ := ih ha h2 h3 h4 (by dsimp only; linarith) (by dsimp only; linarith)
          (by simp) (fun _ => le_refl _) (Or.inr (by dsimp only; linarith)) (by dsimp only; linarith)
        refine ⟨(p.s + ds - ds, p.s + ds) :: cs, by rw [e1]; simp, ?_⟩
        refine List.Forall₂.cons hnext ?_
        have := e2.imp hpre
        simpa [points, hce] using this
      · by_cases hex : p.atExit = true
        · have hn2 := h8 hex
          have he : Coll.act eps ds p = { p with
              s := p.s + ds
              checks := p.checks ++ [(p.s + ds - ds, p.s + ds)]
              next := p.len
              atExit := false } := by
            simp only [Coll.act, hf, if_true]
            rw [setNext_noncoll _ (by exact h2)]
            simp [h4, hce, hex]
          rw [he] at ih
          obtain ⟨cs, e1, e2⟩ := ih ha h2 h3 h4 (by dsimp only; linarith) (by dsimp only; linarith)
            (fun h => absurd h hce) (by simp) (Or.inr (by dsimp only; linarith)) (by dsimp only; linarith)
          refine ⟨(p.s + ds - ds, p.s + ds) :: cs, by rw [e1]; simp, ?_⟩
          refine List.Forall₂.cons hnext ?_
          have := e2.imp hpre
          simpa [points, hce, hex] using this
        · have he : Coll.act eps ds p = { p with
              s := p.s + ds
              checks := p.checks ++ [(p.s + ds - ds, p.s + ds)]
              active := false } := by
            simp only [Coll.act, hf, if_true]
            rw [setNext_noncoll _ (by exact h2)]
            simp [h4, hce, hex]
          rw [he] at t
          refine ⟨[(p.s + ds - ds, p.s + ds)], ?_, ?_⟩
          · rw [taken_idle _ _ _ _ _ _ t rfl]
          · simp only [points, hce, hex, Bool.false_eq_true, if_false, List.append_nil]
            exact List.Forall₂.cons hnext List.Forall₂.nil
    · have he : Coll.act eps ds p = { p with s := p.s + ds } := by
        simp only [Coll.act, hf]
        rfl
      rw [he] at ih
      have hgap : eps < p.next - (p.s + ds) := by
        simp only [StepManager.fequal, decide_eq_true_eq, not_le] at hf
        rw [abs_sub_comm, abs_of_nonneg (by linarith)] at hf
        exact hf
      obtain ⟨cs, e1, e2⟩ := ih ha h2 h3 h4 (by dsimp only; linarith) h6 h7 h8 (Or.inr hgap)
        (by dsimp only; linarith)
      refine ⟨cs, e1, e2.imp ?_⟩
      rintro c x ⟨g1, pre, suf, g2, g3⟩
      refine ⟨g1, ds :: pre, suf, by rw [g2]; rfl, ?_⟩
      rw [g3, List.sum_cons, add_assoc]
  | idle p p' ds l ha _ _ _ =>
    intro h
    rw [h] at ha
    cases ha

/-- C81: in a component with an aperture that is no collimator, the particles are checked exactly at the
places asked for, in order, each after the steps that lead there. -/
theorem coll_points (eps : K) (heps : 0 ≤ eps) (p p' : Coll K) (c : Comp K) (ha : c.aperture = true)
    (hj : (p.scatter && c.jaw) = false) (hlen : eps < c.len / 2) (l : List K) (hl : Covers eps c.len l)
    (h : Taken (fun p : Coll K => p.active) Coll.limit (Coll.act eps) (p.set c) l p') :
    ∃ cs : List (K × K), p'.checks = p.checks ++ cs ∧
      List.Forall₂ (fun c x => |c.2 - x| ≤ eps ∧ ∃ pre suf, l = pre ++ suf ∧ c.2 = pre.sum) cs
        (points p.mEntr p.mCent p.mExit c.len) := by
  have hre := hl.reach
  have he : p.set c = Coll.setNext { p with
      active := true
      len := c.len
      s := 0
      isColl := false
      atEntr := p.mEntr
      atCent := p.mCent
      atExit := p.mExit } := by
    simp [Coll.set, ha, hj]
  rw [setNext_noncoll _ rfl] at he
  dsimp only at he
  by_cases h1 : p.mEntr = true
  · rw [if_pos h1] at he
    rw [he] at h
    obtain ⟨cs, e1, e2⟩ := coll_gen eps heps _ _ _ h rfl rfl hlen rfl (le_refl _) (by dsimp only; linarith)
      (fun _ => rfl) (fun _ => by dsimp only; linarith) (Or.inl hl.ne) (by dsimp only; linarith)
    refine ⟨cs, e1, ?_⟩
    simpa [points, h1] using e2
  · rw [if_neg h1] at he
    have h1' : p.mEntr = false := by simpa using h1
    by_cases h2 : p.mCent = true
    · rw [if_pos h2] at he
      rw [he] at h
      obtain ⟨cs, e1, e2⟩ := coll_gen eps heps _ _ _ h rfl rfl hlen h1' (by dsimp only; linarith)
        (by dsimp only; linarith) (by simp) (fun _ => le_refl _) (Or.inl hl.ne) (by dsimp only; linarith)
      refine ⟨cs, e1, ?_⟩
      simpa [points, h1', h2] using e2
    · rw [if_neg h2] at he
      have h2' : p.mCent = false := by simpa using h2
      by_cases h3 : p.mExit = true
      · rw [if_pos h3] at he
        rw [he] at h
        obtain ⟨cs, e1, e2⟩ := coll_gen eps heps _ _ _ h rfl rfl hlen h1' (by dsimp only; linarith)
          (le_refl _) (fun h => absurd h h2) (by simp) (Or.inl hl.ne) (by dsimp only; linarith)
        refine ⟨cs, e1, ?_⟩
        simpa [points, h1', h2', h3] using e2
      · rw [if_neg h3] at he
        rw [he] at h
        refine ⟨[], ?_, ?_⟩
        · rw [taken_idle _ _ _ _ _ _ h rfl]
          simp
        · simp [points, h1, h2, h3]

/-! ## C82: scattering in collimators -/

theorem bins_gen (eps : K) (heps : 0 ≤ eps) (p p' : Coll K) (l : List K)
    (h : Taken (fun p : Coll K => p.active) Coll.limit (Coll.act eps) p l p') :
    p.active = true → p.isColl = true → p.next = (if p.len < p.s + p.bin then p.len else p.s + p.bin) →
    p.s + l.sum ≤ p.len →
    (∀ pre d suf, l = pre ++ d :: suf → d = p.bin ∨ p.s + pre.sum + d = p.len) →
    ∃ cs : List (K × K), p'.checks = p.checks ++ cs ∧ Chain p.s cs (p.s + l.sum) := by
  induction h with
  | nil p =>
    intro _ _ _ _ _
    refine ⟨[], by simp, ?_⟩
    rw [List.sum_nil, add_zero]
    exact Chain.nil _
  | act p p' ds l ha h0 hl t ih =>
    intro _ h2 h3 h4 h5
    have hnn : ∀ (q q' : Coll K) (l : List K),
        Taken (fun p : Coll K => p.active) Coll.limit (Coll.act eps) q l q' → 0 ≤ l.sum := by
      intro q q' l t
      induction t with
      | nil => simp
      | act p p2 ds l _ h0 _ _ ih => rw [List.sum_cons]; linarith
      | idle p p2 ds l _ h0 _ ih => rw [List.sum_cons]; linarith
    have h6 := hnn _ _ _ t
    simp only [Coll.limit, h2, if_true] at hl
    rw [List.sum_cons] at h4
    have hnext : p.s + ds = p.next := by
      rcases h5 [] ds l rfl with h7 | h7
      · rw [h3, if_neg (by rw [not_lt, ← h7]; linarith), h7]
      · rw [List.sum_nil, add_zero] at h7
        rw [h3]
        split
        · exact h7
        · rename_i h8
          rw [not_lt] at h8
          linarith
    have hf : StepManager.fequal eps (p.s + ds) p.next = true := by
      rw [hnext]
      exact fequal_self eps _ heps
    have he : Coll.act eps ds p = Coll.setNext { p with
        s := p.s + ds
        checks := p.checks ++ [(p.s + ds - ds, p.s + ds)] } := by
      simp [Coll.act, hf]
    obtain ⟨s1, s2, s3, s4, s5, s6⟩ := setNext_coll ({ p with
        s := p.s + ds
        checks := p.checks ++ [(p.s + ds - ds, p.s + ds)] } : Coll K) h2
    have hbin := (setNext_scatter ({ p with
        s := p.s + ds
        checks := p.checks ++ [(p.s + ds - ds, p.s + ds)] } : Coll K)).2
    rw [← he] at s1 s2 s3 s4 s5 s6 hbin
    dsimp only at s3 s4 s5 s6 hbin
    obtain ⟨cs, e1, e2⟩ := ih s2 s1 (by rw [s5, s4, s3, hbin]) (by rw [s3, s4]; linarith)
      (by
        intro pre d suf hl2
        rw [hbin, s3, s4]
        have := h5 (ds :: pre) d suf (by rw [hl2]; rfl)
        rw [List.sum_cons] at this
        rcases this with h7 | h7
        · exact Or.inl h7
        · right
          linarith)
    refine ⟨(p.s, p.s + ds) :: cs, ?_, ?_⟩
    · rw [e1, s6, add_sub_cancel_right]
      simp
    · rw [s3] at e2
      rw [List.sum_cons, ← add_assoc]
      exact Chain.cons _ _ _ _ e2
  | idle p p' ds l ha _ _ _ =>
    intro h
    rw [h] at ha
    cases ha

/-- C82: when each step in a collimator is one bin or reaches the end, the scattered intervals follow one
another without gap or overlap from the entrance to the exit.  Missing: steps shortened by another process,
for which it is false (`coll_bins_violated`). -/
theorem coll_bins_partial (eps : K) (heps : 0 ≤ eps) (p p' : Coll K) (c : Comp K) (ha : c.aperture = true)
    (hj : (p.scatter && c.jaw) = true) (l : List K) (hl : Covers eps c.len l)
    (hstep : ∀ pre d suf, l = pre ++ d :: suf → d = p.bin ∨ pre.sum + d = c.len)
    (h : Taken (fun p : Coll K => p.active) Coll.limit (Coll.act eps) (p.set c) l p') :
    ∃ (cs : List (K × K)) (e : K), p'.checks = p.checks ++ cs ∧ Chain 0 cs e ∧ e ≤ c.len ∧ c.len - e ≤ eps := by
  have he : p.set c = Coll.setNext { p with
      active := true
      len := c.len
      s := 0
      isColl := true
      atEntr := false
      atCent := false
      atExit := true } := by
    simp [Coll.set, ha, hj]
  obtain ⟨s1, s2, s3, s4, s5, s6⟩ := setNext_coll ({ p with
      active := true
      len := c.len
      s := 0
      isColl := true
      atEntr := false
      atCent := false
      atExit := true } : Coll K) rfl
  have hbin := (setNext_scatter ({ p with
      active := true
      len := c.len
      s := 0
      isColl := true
      atEntr := false
      atCent := false
      atExit := true } : Coll K)).2
  rw [← he] at s1 s2 s3 s4 s5 s6 hbin
  dsimp only at s3 s4 s5 s6 hbin
  obtain ⟨cs, e1, e2⟩ := bins_gen eps heps _ _ _ h s2 s1 (by rw [s5, s3, s4, hbin])
    (by rw [s3, s4, zero_add]; exact hl.le)
    (by
      intro pre d suf hl2
      rw [hbin, s3, s4, zero_add]
      exact hstep pre d suf hl2)
  rw [s3, zero_add] at e2
  exact ⟨cs, l.sum, by rw [e1, s6], e2, hl.le, hl.reach⟩

/-! ## C83: dividing a component -/

/-- Calls of `Increment` with the lengths `l`. -/
def increments (eps : K) : Divider K → List K → Divider K × List Bool
  | d, [] => (d, [])
  | d, ds :: l => ((increments eps (d.increment eps ds).1 l).1,
      (d.increment eps ds).2 :: (increments eps (d.increment eps ds).1 l).2)

/-- `DistanceToStepBoundary` respected by each increment. -/
def Within (eps : K) : Divider K → List K → Prop
  | _, [] => True
  | d, ds :: l => 0 ≤ ds ∧ ds ≤ d.distance ∧ Within eps (d.increment eps ds).1 l

theorem divider_gen (eps : K) (l : List K) : ∀ (d : Divider K) (j : Nat),
    eps < d.delta → d.next = ((j : K) + 1) * d.delta → (j : K) * d.delta - eps ≤ d.s →
    d.s < ((j : K) + 1) * d.delta - eps → Within eps d l →
    ((j : K) + ((increments eps d l).2.count true : Nat)) * d.delta - eps ≤ d.s + l.sum ∧
    d.s + l.sum < ((j : K) + ((increments eps d l).2.count true : Nat) + 1) * d.delta - eps := by
  induction l with
  | nil =>
    intro d j h1 h2 h3 h4 _
    simp only [increments, List.count_nil, List.sum_nil, add_zero, Nat.cast_zero]
    exact ⟨h3, h4⟩
  | cons ds l ih =>
    intro d j h1 h2 h3 h4 ⟨w1, w2, w3⟩
    simp only [Divider.distance] at w2
    by_cases hf : StepManager.fequal eps (d.s + ds) d.next = true
    · have he : d.increment eps ds = ({ d with s := d.s + ds, next := d.next + d.delta }, true) := by
        simp [Divider.increment, hf]
      simp only [he] at w3
      have hcl : d.next - eps ≤ d.s + ds := by
        simp only [StepManager.fequal, decide_eq_true_eq] at hf
        linarith [(abs_le.1 hf).1]
      obtain ⟨i1, i2⟩ := ih { d with s := d.s + ds, next := d.next + d.delta } (j + 1) h1
        (by dsimp only; rw [h2]; push_cast; ring)
        (by dsimp only; push_cast; linarith) (by dsimp only; push_cast; linarith) w3
      dsimp only at i1 i2
      simp only [increments, he, List.count_cons_self, List.sum_cons]
      push_cast at i1 i2 ⊢
      generalize ((List.count true _ : Nat) : K) = q at i1 i2 ⊢
      have a1 : (j : K) + 1 + q = j + (q + 1) := by ring
      rw [a1] at i1 i2
      rw [add_assoc] at i1 i2
      refine ⟨?_, ?_⟩
      · exact i1
      · exact i2
    · have he : d.increment eps ds = ({ d with s := d.s + ds }, false) := by
        simp [Divider.increment, hf]
      simp only [he] at w3
      have hgap : d.s + ds < d.next - eps := by
        simp only [StepManager.fequal, decide_eq_true_eq, not_le] at hf
        rw [abs_sub_comm, abs_of_nonneg (by linarith)] at hf
        linarith
      obtain ⟨i1, i2⟩ := ih { d with s := d.s + ds } j h1 h2 (by dsimp only; linarith)
        (by dsimp only; rw [← h2]; exact hgap) w3
      dsimp only at i1 i2
      have hcount : List.count true (increments eps d (ds :: l)).2 =
          List.count true (increments eps { d with s := d.s + ds } l).2 := by
        simp [increments, he]
      rw [hcount, List.sum_cons, ← add_assoc]
      exact ⟨i1, i2⟩

/-- C83: a component divided in `n` steps reports a step boundary exactly `n` times while it is passed,
after `k` boundaries the position being between the `k`-th and the next boundary. -/
theorem divider_boundaries (eps : K) (heps : 0 ≤ eps) (n : Nat) (hn : 0 < n) (d : Divider K)
    (hd : d.nstep = n) (hm : d.minStep ≤ 0) (len : K) (hlen : eps < len / n) (l : List K)
    (hw : Within eps (d.set len) l) :
    ∃ k : Nat, (increments eps (d.set len) l).2.count true = k ∧
      (k : K) * (len / n) - eps ≤ l.sum ∧ l.sum < ((k : K) + 1) * (len / n) - eps ∧
      (l.sum = len → k = n) := by
  have hn' : (0 : K) < n := by exact_mod_cast hn
  have hpos : 0 < len / n := by linarith
  have hlen0 : len ≠ 0 := by
    rintro rfl
    rw [zero_div] at hpos
    exact lt_irrefl _ hpos
  have he : d.set len = { d with delta := len / n, next := len / n, s := 0 } := by
    have h1 : ¬ len / (d.nstep : K) < d.minStep := by
      rw [hd]
      push_cast
      linarith
    simp only [Divider.set, ne_eq, hlen0, not_false_eq_true, if_true, h1, if_false]
    simp [hd]
  rw [he] at hw ⊢
  obtain ⟨i1, i2⟩ := divider_gen eps l _ 0 hlen (by simp) (by simp; exact heps) (by simpa using hlen) hw
  dsimp only at i1 i2
  refine ⟨_, rfl, by simpa using i1, by simpa using i2, ?_⟩
  intro hs
  rw [hs] at i1 i2
  simp only [Nat.cast_zero, zero_add] at i1 i2
  generalize List.count true _ = k at i1 i2
  have hlen2 : (n : K) * (len / n) = len := mul_div_cancel₀ _ hn'.ne'
  apply le_antisymm
  · by_contra hcon
    have h3 : (n : K) + 1 ≤ k := by exact_mod_cast (by omega : n + 1 ≤ k)
    have h4 : ((n : K) + 1) * (len / n) ≤ k * (len / n) := mul_le_mul_of_nonneg_right h3 hpos.le
    have h5 : ((n : K) + 1) * (len / n) = len + len / n := by rw [add_mul, hlen2, one_mul]
    linarith
  · by_contra hcon
    have h3 : (k : K) + 1 ≤ n := by exact_mod_cast (by omega : k + 1 ≤ n)
    have h4 : ((k : K) + 1) * (len / n) ≤ n * (len / n) := mul_le_mul_of_nonneg_right h3 hpos.le
    linarith

/-- C83 is violated for the minimum step: whenever the division is coarsened because the steps would be
shorter than the minimum, the adjusted steps are shorter than the minimum, too. -/
theorem divider_minimum_violated (d : Divider K) (len : K) (hlen : 0 < len) (hm : 0 < d.minStep)
    (h : len / (d.nstep : K) < d.minStep) : (d.set len).delta < d.minStep := by
  have he : (d.set len).delta = len / ((⌊len / d.minStep + 1⌋ : Int) : K) := by
    simp [Divider.set, hlen.ne', h]
  rw [he]
  have h1 : len / d.minStep + 1 < (⌊len / d.minStep + 1⌋ : Int) + 1 := Int.lt_floor_add_one _
  have h2 : len / d.minStep < ((⌊len / d.minStep + 1⌋ : Int) : K) := by linarith
  have h3 : 0 < len / d.minStep := div_pos hlen hm
  rw [div_lt_iff₀ (by linarith)]
  rw [div_lt_iff₀ hm] at h2
  linarith

/-! ## The statements for the step manager -/

theorem taken_embed {P Q : Type} (f : P → Q) (aP : P → Bool) (lP : P → K) (actP : K → P → P)
    (aQ : Q → Bool) (lQ : Q → K) (actQ : K → Q → Q) (h1 : ∀ p, aQ (f p) = aP p) (h2 : ∀ p, lQ (f p) = lP p)
    (h3 : ∀ d p, actQ d (f p) = f (actP d p)) (l : List K) : ∀ (p : P) (q : Q), Taken aQ lQ actQ (f p) l q →
    ∃ p', q = f p' ∧ Taken aP lP actP p l p' := by
  induction l with
  | nil =>
    intro p q h
    cases h
    exact ⟨p, rfl, Taken.nil _⟩
  | cons d l ih =>
    intro p q h
    cases h with
    | act _ _ _ _ ha h0 hl t =>
      rw [h3] at t
      obtain ⟨p', e1, e2⟩ := ih _ _ t
      exact ⟨p', e1, Taken.act _ _ _ _ (by rw [← h1]; exact ha) h0 (by rw [← h2]; exact hl) e2⟩
    | idle _ _ _ _ ha h0 t =>
      obtain ⟨p', e1, e2⟩ := ih _ _ t
      exact ⟨p', e1, Taken.idle _ _ _ _ (by rw [← h1]; exact ha) h0 e2⟩

section manager
variable (eps δ : K) (heps : 0 ≤ eps) (heps1 : eps < 1) (hδ0 : 0 < δ)
  (iset : List (Nat × Nat)) (m m' : StepManager.Manager (Proc K) Unit K)
  (hm : ∀ p ∈ m.procs, Ready δ iset p) (c : Comp K) (hc : 0 ≤ c.len) (hk : Tracker.Known iset c.ids)
  (n : Nat) (l : List (StepManager.Step (Proc K) K))
  (h : StepManager.track (V eps) eps n m c = some (m', l)) (i : Nat)
include heps heps1 hδ0 hm hc hk h

/-- C76 for the step manager. -/
theorem wake_tracked (w : Wake K) (hi : m.procs[i]? = some (.wake w)) :
    ∃ w', m'.procs[i]? = some (.wake w') ∧
      (c.wake = true → ∃ x, |x - (if w.exit then c.len else c.len / 2)| ≤ eps ∧
        w'.kicks = w.kicks ++ [(c.len, x)]) ∧
      (c.wake = false → w'.kicks = w.kicks) := by
  obtain ⟨hcov, ht⟩ := track_taken eps δ heps heps1 hδ0 iset m m' hm c hc hk n l h
  obtain ⟨p', e1, e2⟩ := ht i _ hi
  obtain ⟨w', rfl, t⟩ := taken_embed Proc.wake (fun w => w.active) Wake.limit (Wake.act eps)
    Proc.active (Proc.limit eps) (Proc.act eps) (fun _ => rfl) (fun _ => rfl) (fun _ _ => rfl) _ _ _ e2
  refine ⟨w', e1, fun hw => ?_, fun hw => wake_none eps w w' c hw _ t⟩
  obtain ⟨pre, suf, _, g1, g2⟩ := wake_once eps w w' c hw hc _ hcov t
  exact ⟨pre.sum, g1, g2⟩

/-- C77 for the step manager. -/
theorem rad_tracked (r : Rad K) (hi : m.procs[i]? = some (.rad r)) (k : Nat) (hk0 : 0 < k) (hr : r.ns = k)
    (hlen : eps < c.len / k) :
    ∃ r', m'.procs[i]? = some (.rad r') ∧
      (c.bend = true → r'.kicks = r.kicks ++ List.replicate k (c.len / k)) ∧
      (c.bend = false → r'.kicks = r.kicks) := by
  obtain ⟨hcov, ht⟩ := track_taken eps δ heps heps1 hδ0 iset m m' hm c hc hk n l h
  obtain ⟨p', e1, e2⟩ := ht i _ hi
  obtain ⟨r', rfl, t⟩ := taken_embed Proc.rad (fun r => r.active) Rad.limit (Rad.act eps)
    Proc.active (Proc.limit eps) (Proc.act eps) (fun _ => rfl) (fun _ => rfl) (fun _ _ => rfl) _ _ _ e2
  refine ⟨r', e1, fun hb => ?_, fun hb => rad_none eps r r' c hb _ t⟩
  obtain ⟨ks, g1, g2, g3, _⟩ := rad_all eps heps r r' c hb k hk0 hr hlen _ hcov t
  rw [g1, List.eq_replicate_iff.2 ⟨g2, g3⟩]

/-- C79 for the step manager. -/
theorem deltaT_tracked (p : DeltaT K) (hi : m.procs[i]? = some (.deltaT p)) :
    ∃ p' S, m'.procs[i]? = some (.deltaT p') ∧ p'.shift = p.shift + p.scale * S ∧
      (c.bend = true → c.len - eps ≤ S ∧ S ≤ c.len) ∧ (c.bend = false → S = 0) := by
  obtain ⟨hcov, ht⟩ := track_taken eps δ heps heps1 hδ0 iset m m' hm c hc hk n l h
  obtain ⟨p', e1, e2⟩ := ht i _ hi
  obtain ⟨p', rfl, t⟩ := taken_embed Proc.deltaT (fun r => r.active) DeltaT.limit DeltaT.act
    Proc.active (Proc.limit eps) (Proc.act eps) (fun _ => rfl) (fun _ => rfl) (fun _ _ => rfl) _ _ _ e2
  obtain ⟨S, g⟩ := deltaT_total eps p p' c hc _ hcov t
  exact ⟨p', S, e1, g⟩

/-- C81 for the step manager. -/
theorem coll_tracked (p : Coll K) (hi : m.procs[i]? = some (.coll p)) (ha : c.aperture = true)
    (hj : (p.scatter && c.jaw) = false) (hlen : eps < c.len / 2) :
    ∃ p' cs, m'.procs[i]? = some (.coll p') ∧ p'.checks = p.checks ++ cs ∧
      List.Forall₂ (fun c x => |c.2 - x| ≤ eps) cs (points p.mEntr p.mCent p.mExit c.len) := by
  obtain ⟨hcov, ht⟩ := track_taken eps δ heps heps1 hδ0 iset m m' hm c hc hk n l h
  obtain ⟨p', e1, e2⟩ := ht i _ hi
  obtain ⟨p', rfl, t⟩ := taken_embed Proc.coll (fun r => r.active) Coll.limit (Coll.act eps)
    Proc.active (Proc.limit eps) (Proc.act eps) (fun _ => rfl) (fun _ => rfl) (fun _ _ => rfl) _ _ _ e2
  obtain ⟨cs, g1, g2⟩ := coll_points eps heps p p' c ha hj hlen _ hcov t
  exact ⟨p', cs, e1, g1, g2.imp (fun _ _ g => g.1)⟩

end manager

end

/-! ## Examples and violations -/

/-- A magnet of length `len` with everything in it. -/
def magnet (len : ℚ) : Comp ℚ := ⟨len, 7, [3, 0], true, true, true, true, true, true, true⟩

/-- A wake process acting at the centre or at the exit. -/
def wakeP (exit : Bool) : Proc ℚ := .wake ⟨exit, 0, 0, 0, false, []⟩

/-- Synchrotron radiation with a number of steps or a maximum step. -/
def radP (ns : Int) (ds : ℚ) : Proc ℚ := .rad ⟨ns, ds, 0, 0, 0, false, []⟩

/-- Spin process. -/
def spinP (ns : Int) : Proc ℚ := .spin ⟨ns, 0, 0, 0, 0, false, []⟩

/-- Aperture checks at entrance, centre, exit, without scattering. -/
def checkP (e c x : Bool) : Proc ℚ := .coll ⟨e, c, x, false, 1, 0, 0, 0, false, false, false, false, false, []⟩

/-- Scattering in collimators with a bin size. -/
def scatterP (bin : ℚ) : Proc ℚ :=
  .coll ⟨false, false, true, true, bin, 0, 0, 0, false, false, false, false, false, []⟩

/-- Electron lens. -/
def helP : Proc ℚ := .hel ⟨0, false, 0, 0⟩

/-- Monitor. -/
def monP : Proc ℚ := .mon ⟨false, 0⟩

/-- Transport with integrators for the classes 0 and 3. -/
def transP : Proc ℚ := .transport ⟨Tracker.Trk.make [(0, 10), (3, 11)], false⟩

/-- Numbers reported by the processes after tracking. -/
inductive Report where
  | pairs (l : List (ℚ × ℚ))
  | nums (l : List ℚ)
  | spins (l : List (SpinEv ℚ))
  | count (n : Nat)
  | events (l : List (Tracker.Ev ℚ))
  deriving DecidableEq

/-- See `Report`. -/
def report : Proc ℚ → Report
  | .wake w => .pairs w.kicks
  | .rad r => .nums r.kicks
  | .spin p => .spins p.log
  | .deltaT p => .nums [p.shift]
  | .hel p => .count p.kicks
  | .mon p => .count p.files
  | .coll p => .pairs p.checks
  | .transport p => .events p.trk.log

/-- Reports after tracking one component, at most 50 passes of the loop. -/
def runOne (ps : List (Proc ℚ)) (c : Comp ℚ) : Option (List Report) :=
  (StepManager.track (V (1 / 1000000)) (1 / 1000000) 50 ⟨0, ps, ()⟩ c).map (fun r => r.1.procs.map report)

/-- The hypotheses of `trackAll_ends` for a full set of processes and a line of three components. -/
example : ∃ n m', StepManager.trackAll (V (1 / 1000000 : ℚ)) (1 / 1000000) n
    ⟨0, [transP, wakeP false, radP 3 0, spinP 1, scatterP (1 / 10), helP, monP], ()⟩
    [magnet 1, magnet 0, magnet 2] = some m' ∧ (∀ p ∈ m'.procs, Ready (1 / 10) [(0, 10), (3, 11)] p) ∧
    ∀ p, Proc.transport p ∈ m'.procs → p.failed = false := by
  refine trackAll_ends (1 / 1000000) (1 / 10) (by norm_num) (by norm_num) (by norm_num) (by norm_num)
    [(0, 10), (3, 11)] [magnet 1, magnet 0, magnet 2] ?_ _ ?_
  · intro c hc
    have hk : Tracker.Known [(0, 10), (3, 11)] [3, 0] := ⟨3, by decide, by decide⟩
    simp only [List.mem_cons, List.not_mem_nil, or_false] at hc
    rcases hc with rfl | rfl | rfl
    · exact ⟨by norm_num [magnet], hk⟩
    · exact ⟨by norm_num [magnet], hk⟩
    · exact ⟨by norm_num [magnet], hk⟩
  · intro p hp
    simp only [List.mem_cons, List.not_mem_nil, or_false] at hp
    rcases hp with rfl | rfl | rfl | rfl | rfl | rfl | rfl <;>
      simp [transP, wakeP, radP, spinP, scatterP, helP, monP, Ready, Static, Tracker.Trk.make]

/-- Wake at the centre, radiation in three pieces and checks at three places. -/
example : runOne [wakeP false, radP 3 0, checkP true true true] (magnet 3) =
    some [.pairs [(3, 3 / 2)], .nums [1, 1, 1], .pairs [(0, 0), (1, 3 / 2), (2, 3)]] := by
  decide +kernel

/-- Bins of a collimator undisturbed. -/
example : runOne [scatterP (1 / 10), transP] (magnet (1 / 4)) =
    some [.pairs [(0, 1 / 10), (1 / 10, 1 / 5), (1 / 5, 1 / 4)],
      .events [.entrance 7, .body 7 (1 / 10), .body 7 (1 / 10), .body 7 (1 / 20), .exit 7]] := by
  decide +kernel

/-- The hypotheses of `spin_once_partial` in a run: body in two pieces. -/
example : runOne [wakeP false, spinP 1] (magnet 3) =
    some [.pairs [(3, 3 / 2)], .spins [.entrance, .body (3 / 2), .body (3 / 2), .exit]] := by
  decide +kernel

/-- C77 is violated with a maximum step length: the wake process at the centre makes the first step
shorter than the first piece, and the magnet does not radiate at all. -/
theorem rad_max_violated :
    runOne [radP 0 2] (magnet 1) = some [.nums [1]] ∧
    runOne [wakeP false, radP 0 2] (magnet 1) = some [.pairs [(1, 1 / 2)], .nums []] := by
  decide +kernel

/-- The hypotheses of `rad_max_partial`: three pieces of one third. -/
example : runOne [radP 0 (2 / 5)] (magnet 1) = some [.nums [1 / 3, 1 / 3, 1 / 3]] := by decide +kernel

/-- C78 is violated when the apertures are checked at the entrance: the entrance fringe acts twice on the
spin. -/
theorem spin_entrance_violated :
    runOne [checkP true false false, spinP 1] (magnet 3) =
      some [.pairs [(0, 0)], .spins [.entrance, .body 0, .entrance, .body 3, .exit]] := by
  decide +kernel

/-- The hypotheses of `spin_hangs_violated`. -/
example (n : Nat) : StepManager.track (V (1 / 1000000 : ℚ)) (1 / 1000000) n ⟨0, [transP, spinP 2], ()⟩
    (magnet 3) = none :=
  spin_hangs_violated _ _ _ ⟨2, 0, 0, 0, 0, false, []⟩ (by simp [spinP]) rfl (by norm_num [magnet]) n

/-- C80 is violated: with aperture checks at the centre the electron lens kicks twice in one passage, and
the monitor process writes its file twice. -/
theorem whole_component_violated :
    runOne [checkP false true true, helP, monP] (magnet 3) =
      some [.pairs [(0, 3 / 2), (3 / 2, 3)], .count 2, .count 2] ∧
    runOne [helP, monP] (magnet 3) = some [.count 1, .count 1] := by
  decide +kernel

/-- C81, consequence for transport: checking at the entrance makes the tracker apply the entrance map
twice. -/
theorem entrance_check_violated :
    runOne [transP, checkP true false true] (magnet 3) =
      some [.events [.entrance 7, .body 7 0, .entrance 7, .body 7 3, .exit 7], .pairs [(0, 0), (0, 3)]] := by
  decide +kernel

/-- C82 is violated when a step is shortened by another process: with a wake at the centre of a collimator
as long as one bin only its second half is scattered; in a collimator of 0.25 with bins of 0.1 the last
part is left out. -/
theorem coll_bins_violated :
    runOne [wakeP false, scatterP (1 / 10)] (magnet (1 / 10)) =
      some [.pairs [(1 / 10, 1 / 20)], .pairs [(1 / 20, 1 / 10)]] ∧
    runOne [wakeP false, scatterP (1 / 10)] (magnet (1 / 4)) =
      some [.pairs [(1 / 4, 1 / 8)], .pairs [(0, 1 / 10)]] := by
  decide +kernel

/-- The time shift of a bend divided by a wake. -/
example : runOne [wakeP false, .deltaT ⟨5, 0, 0, false, 1⟩] (magnet 3) =
    some [.pairs [(3, 3 / 2)], .nums [16]] := by decide +kernel

/-- The hypotheses of `divider_boundaries`: four steps, one of them in two parts. -/
example : (increments (1 / 1000000 : ℚ) ((Divider.make 4 0).set 2) [1 / 2, 1 / 4, 1 / 4, 1 / 2, 1 / 2]).2 =
      [true, false, true, true, true] ∧
    Within (1 / 1000000 : ℚ) ((Divider.make 4 0).set 2) [1 / 2, 1 / 4, 1 / 4, 1 / 2, 1 / 2] := by
  refine ⟨by decide +kernel, ?_⟩
  simp only [Within]
  decide +kernel

/-- The hypotheses of `divider_minimum_violated`: minimum 3/10, steps of 1/4. -/
example : ((Divider.make 10 (3 / 10 : ℚ)).set 1).delta = 1 / 4 := by decide +kernel

end Verif.Processes
