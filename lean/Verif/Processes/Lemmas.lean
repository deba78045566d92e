import Mathlib.Tactic.Ring
import Mathlib.Tactic.Linarith
import Mathlib.Tactic.NormNum
import Mathlib.Tactic.FieldSimp
import Verif.StepManager.Properties
import Verif.Tracker.Properties
import Verif.Processes.Spec

/-!
# Well-formed process states and the step loop
-/

set_option linter.unusedSectionVars false
set_option linter.unusedSimpArgs false

namespace Verif.Processes
open Verif Verif.Processes.Spec

section
variable {K : Type} [Field K] [LinearOrder K] [IsStrictOrderedRing K] [FloorRing K]

theorem fequal_self (eps x : K) (heps : 0 ≤ eps) : StepManager.fequal eps x x = true := by
  simp [StepManager.fequal, heps]

/-- Settings of a process that tracking does not change: at least one step for radiation, one for spin,
bins of collimators not shorter than `δ`, a tracker with the integrators `iset`. -/
def Static (δ : K) (iset : List (Nat × Nat)) : Proc K → Prop
  | .rad r => 0 < r.ns
  | .spin p => p.ns = 1
  | .coll p => p.scatter = true → δ ≤ p.bin
  | .transport p => p.failed = false ∧ p.trk.iset = iset
  | _ => True

/-- A process ready for the next component. -/
def Ready (δ : K) (iset : List (Nat × Nat)) (p : Proc K) : Prop :=
  Static δ iset p ∧ match p with
    | .transport p => p.trk.state = .undefined ∨ p.trk.state = .finished
    | _ => True

/-- A process in a component of length `len` of which `s` has been done. -/
def Dyn (len s : K) : Proc K → Prop
  | .wake w => w.active = true → w.cur ≤ w.impulse
  | .rad r => r.active = true → 0 ≤ r.nk ∧ r.nk < r.ns ∧ 0 ≤ r.dL ∧ r.intS ≤ ((r.nk : K) + 1) * r.dL
  | .spin p => p.active = true → p.nk = 0 ∧ p.dL = len ∧ p.intS = s
  | .deltaT p => p.active = true → p.dL = len ∧ p.intS = s
  | .hel p => p.active = true → p.len = len
  | .mon _ => True
  | .coll p => p.active = true → (p.isColl = true → p.scatter = true) ∧ (p.isColl = false →
      p.s ≤ p.next ∧ 0 ≤ p.len ∧ p.atEntr = false ∧ (p.atCent = true → p.next ≤ p.len / 2) ∧
      (p.atExit = true → p.next ≤ p.len))
  | .transport p => (p.trk.state = .initialised ∨ p.trk.state = .tracking) ∧ p.trk.integrator ≠ none ∧
      p.trk.cur = s ∧ p.trk.tot = len

theorem setNext_scatter (p : Coll K) : p.setNext.scatter = p.scatter ∧ p.setNext.bin = p.bin := by
  simp only [Coll.setNext]
  split <;> split <;> (try split) <;> (try split) <;> exact ⟨rfl, rfl⟩

theorem set_dyn (δ : K) (iset : List (Nat × Nat)) (c : Comp K) (hc : 0 ≤ c.len)
    (hk : Tracker.Known iset c.ids) (p : Proc K) (hp : Ready δ iset p) :
    Static δ iset (p.set c) ∧ Dyn c.len 0 (p.set c) := by
  obtain ⟨hs, hr⟩ := hp
  cases p with
  | wake w =>
    refine ⟨trivial, ?_⟩
    simp only [Proc.set, Dyn, Wake.set]
    split
    · intro _
      dsimp only
      split
      · exact hc
      · linarith
    · intro h
      simp at h
  | rad r =>
    have hns : 0 < r.ns := hs
    refine ⟨hs, ?_⟩
    simp only [Proc.set, Dyn, Rad.set]
    intro _
    have h0 : ¬ r.ns = 0 := by omega
    simp only [h0, if_false]
    have hq : (0 : K) < (r.ns : K) := by exact_mod_cast hns
    have : 0 ≤ c.len / (r.ns : K) := div_nonneg hc hq.le
    refine ⟨le_refl _, hns, this, ?_⟩
    simpa using this
  | spin p =>
    have hns : p.ns = 1 := hs
    refine ⟨hs, ?_⟩
    simp only [Proc.set, Dyn, Spin.set]
    intro _
    exact ⟨trivial, by rw [hns]; simp, trivial⟩
  | deltaT p =>
    refine ⟨trivial, ?_⟩
    simp [Proc.set, Dyn, DeltaT.set]
  | hel p =>
    refine ⟨trivial, ?_⟩
    simp [Proc.set, Dyn, Hel.set]
  | mon p => exact ⟨trivial, trivial⟩
  | coll p =>
    have hb : p.scatter = true → δ ≤ p.bin := hs
    by_cases ha : c.aperture = true
    · by_cases hj : (p.scatter && c.jaw) = true
      · have hsc : p.scatter = true := by
          rw [Bool.and_eq_true] at hj
          exact hj.1
        simp only [Proc.set, Static, Dyn, Coll.set, ha, if_true, hj]
        refine ⟨?_, ?_⟩
        · rw [(setNext_scatter _).1, (setNext_scatter _).2]
          exact hb
        · intro _
          refine ⟨fun _ => ?_, ?_⟩
          · rw [(setNext_scatter _).1]
            exact hsc
          · intro h
            exfalso
            revert h
            simp [Coll.setNext]
      · have hj' : (p.scatter && c.jaw) = false := by simpa using hj
        simp only [Proc.set, Static, Dyn, Coll.set, ha, if_true, hj', Bool.false_eq_true, if_false]
        refine ⟨?_, ?_⟩
        · rw [(setNext_scatter _).1, (setNext_scatter _).2]
          exact hb
        · simp only [Coll.setNext]
          cases p.mEntr <;> cases p.mCent <;> cases p.mExit <;> simp <;>
            (try constructor) <;> (try constructor) <;> linarith
    · simp only [Proc.set, Static, Dyn, Coll.set, ha]
      exact ⟨hb, by simp⟩
  | transport p =>
    obtain ⟨hf, hi⟩ := hs
    have hst : p.trk.state = .undefined ∨ p.trk.state = .finished := hr
    obtain ⟨n, hn⟩ := (Tracker.prepare_spec p.trk c.ids c.id c.len hst).1 (by rw [hi]; exact hk)
    simp only [Proc.set, Static, Dyn, Transport.set, hn]
    exact ⟨⟨hf, hi⟩, Or.inl trivial, by simp, trivial, trivial⟩

theorem limit_nonneg (eps δ len s : K) (hδ : 0 < δ) (iset : List (Nat × Nat)) (hlen : 0 ≤ len) (hs : s ≤ len)
    (p : Proc K) (h1 : Static δ iset p) (h2 : Dyn len s p) (ha : p.active = true) : 0 ≤ p.limit eps := by
  cases p with
  | wake w =>
    have := h2 ha
    simp only [Proc.limit, Wake.limit]
    linarith
  | rad r =>
    obtain ⟨_, _, _, h⟩ := h2 ha
    simp only [Proc.limit, Rad.limit]
    linarith
  | spin p =>
    obtain ⟨a, b, c⟩ := h2 ha
    simp only [Proc.limit, Spin.limit, a, b, c]
    push_cast
    linarith
  | deltaT p =>
    obtain ⟨a, b⟩ := h2 ha
    simp only [Proc.limit, DeltaT.limit, a, b]
    linarith
  | hel p =>
    have a : p.len = len := h2 ha
    simp only [Proc.limit, Hel.limit, a]
    exact hlen
  | mon p =>
    simp only [Proc.limit]
    norm_num
  | coll p =>
    obtain ⟨a, b⟩ := h2 ha
    simp only [Proc.limit, Coll.limit]
    split
    · rename_i hc
      linarith [h1 (a hc)]
    · rename_i hc
      have := (b (by simpa using hc)).1
      linarith
  | transport p =>
    obtain ⟨a, b, c, d⟩ := h2
    obtain ⟨n, hn⟩ := Option.ne_none_iff_exists'.1 b
    have hu : ¬ p.trk.state = .undefined := by rcases a with a | a <;> rw [a] <;> simp
    simp only [Proc.limit, Transport.limit, Tracker.getRemainingLength, hu, if_false, hn]
    exact Tracker.remaining_nonneg eps p.trk (by rw [c, d]; exact hs)

theorem transport_limit (eps : K) (p : Transport K)
    (h : p.trk.state = .initialised ∨ p.trk.state = .tracking) (hi : p.trk.integrator ≠ none) :
    p.limit eps = Tracker.remaining eps p.trk := by
  obtain ⟨n, hn⟩ := Option.ne_none_iff_exists'.1 hi
  have hu : ¬ p.trk.state = .undefined := by rcases h with a | a <;> rw [a] <;> simp
  simp only [Transport.limit, Tracker.getRemainingLength, hu, if_false, hn]

theorem transport_act (eps : K) (heps : 0 ≤ eps) (heps1 : eps < 1) (p : Transport K) (ds : K)
    (h : p.trk.state = .initialised ∨ p.trk.state = .tracking) (hi : p.trk.integrator ≠ none)
    (hc : p.trk.cur ≤ p.trk.tot) (h0 : 0 ≤ ds) (hl : ds ≤ p.limit eps) :
    p.act eps ds = { p with trk := { Tracker.integrate eps p.trk ds with
      state := if |p.trk.tot - (p.trk.cur + ds)| ≤ eps then .finished else .tracking } } := by
  rw [transport_limit eps p h hi] at hl
  have := (Tracker.trackStep_ok eps heps heps1 p.trk ds h hi hc).1 ⟨h0, hl⟩
  simp only [Transport.act, this]

theorem setNext_noncoll (p : Coll K) (h : p.isColl = false) : p.setNext =
    if p.atEntr then { p with next := 0, atEntr := false }
    else if p.atCent then { p with next := p.len / 2, atCent := false }
    else if p.atExit then { p with next := p.len, atExit := false }
    else { p with active := false } := by
  simp only [Coll.setNext]
  split
  · simp [h]
  · split
    · simp [h]
    · split <;> simp [h]

theorem setNext_coll (p : Coll K) (h : p.isColl = true) :
    p.setNext.isColl = true ∧ p.setNext.active = true ∧ p.setNext.s = p.s ∧ p.setNext.len = p.len ∧
    p.setNext.next = (if p.len < p.s + p.bin then p.len else p.s + p.bin) ∧
    p.setNext.checks = p.checks := by
  simp only [Coll.setNext]
  split <;> (try split) <;> (try split) <;> simp [h]

/-- A step that does not end the component keeps a process well-formed. -/
theorem act_dyn (eps δ len s ds : K) (heps : 0 ≤ eps) (heps1 : eps < 1) (iset : List (Nat × Nat))
    (hs : s ≤ len) (h0 : 0 ≤ ds) (hnot : ¬ |len - (s + ds)| ≤ eps)
    (p : Proc K) (h1 : Static δ iset p) (h2 : Dyn len s p) (ha : p.active = true) (hl : ds ≤ p.limit eps) :
    Static δ iset (p.act eps ds) ∧ Dyn len (s + ds) (p.act eps ds) := by
  cases p with
  | wake w =>
    refine ⟨trivial, ?_⟩
    simp only [Proc.act, Dyn, Wake.act]
    simp only [Proc.limit, Wake.limit] at hl
    split
    · simp
    · intro _
      dsimp only
      linarith
  | rad r =>
    obtain ⟨a, b, c, d⟩ := h2 ha
    simp only [Proc.limit, Rad.limit] at hl
    refine ⟨by simp only [Proc.act, Static, Rad.act]; split <;> exact h1, ?_⟩
    simp only [Proc.act, Dyn, Rad.act]
    split
    · intro hact
      have hne : r.nk + 1 ≠ r.ns := by simpa using hact
      dsimp only
      refine ⟨by omega, by omega, c, ?_⟩
      push_cast
      linarith
    · intro _
      dsimp only
      exact ⟨a, b, c, by linarith⟩
  | spin p =>
    obtain ⟨a, b, c⟩ := h2 ha
    refine ⟨h1, ?_⟩
    simp only [Proc.act, Dyn, Spin.act]
    intro _
    exact ⟨a, b, by rw [c]⟩
  | deltaT p =>
    obtain ⟨a, b⟩ := h2 ha
    refine ⟨trivial, ?_⟩
    simp only [Proc.act, Dyn, DeltaT.act]
    intro _
    exact ⟨a, by rw [b]⟩
  | hel p =>
    refine ⟨trivial, ?_⟩
    simp only [Proc.act, Dyn, Hel.act]
    exact h2
  | mon p => exact ⟨trivial, trivial⟩
  | coll p =>
    obtain ⟨a, b⟩ := h2 ha
    simp only [Proc.limit, Coll.limit] at hl
    refine ⟨?_, ?_⟩
    · simp only [Proc.act, Static, Coll.act]
      split
      · rw [(setNext_scatter _).1, (setNext_scatter _).2]
        exact h1
      · exact h1
    · simp only [Proc.act, Dyn, Coll.act]
      rcases Bool.eq_false_or_eq_true p.isColl with hic | hic
      · have hsc := a hic
        split
        · intro _
          rw [(setNext_scatter _).1]
          refine ⟨fun _ => hsc, fun h => ?_⟩
          rw [(setNext_coll _ (by exact hic)).1] at h
          cases h
        · intro _
          dsimp only
          exact ⟨fun _ => hsc, fun h => by rw [hic] at h; cases h⟩
      · obtain ⟨b1, b2, b3, b4, b5⟩ := b hic
        simp only [hic, Bool.false_eq_true, if_false] at hl
        split
        · rw [setNext_noncoll _ (by exact hic)]
          dsimp only
          rw [if_neg (show ¬ p.atEntr = true by simp [b3])]
          by_cases hce : p.atCent = true
          · have := b4 hce
            rw [if_pos hce]
            intro _
            exact ⟨fun h => absurd h (by simp [hic]), fun _ => ⟨by dsimp only; linarith, b2, b3,
              fun h => (by simp at h), fun _ => by dsimp only; linarith⟩⟩
          · rw [if_neg hce]
            by_cases hex : p.atExit = true
            · have := b5 hex
              rw [if_pos hex]
              intro _
              exact ⟨fun h => absurd h (by simp [hic]), fun _ => ⟨by dsimp only; linarith, b2, b3,
                fun h => absurd h hce, fun h => (by simp at h)⟩⟩
            · rw [if_neg hex]
              intro h
              simp at h
        · intro _
          exact ⟨fun h => absurd h (by simp [hic]), fun _ => ⟨by dsimp only; linarith, b2, b3, b4, b5⟩⟩
  | transport p =>
    obtain ⟨a, b, c, d⟩ := h2
    have hact := transport_act eps heps heps1 p ds a b (by rw [c, d]; exact hs) h0 hl
    simp only [Proc.act, hact, Static, Dyn, Tracker.integrate, c, d, hnot, if_false]
    exact ⟨⟨h1.1, h1.2⟩, Or.inr trivial, b, trivial, trivial⟩

/-- The step that ends the component leaves a process ready for the next one. -/
theorem act_ready (eps δ len s ds : K) (heps : 0 ≤ eps) (heps1 : eps < 1) (iset : List (Nat × Nat))
    (hs : s ≤ len) (h0 : 0 ≤ ds) (hend : |len - (s + ds)| ≤ eps)
    (p : Proc K) (h1 : Static δ iset p) (h2 : Dyn len s p) (hl : ds ≤ p.limit eps) :
    Ready δ iset (p.act eps ds) := by
  cases p with
  | wake w => exact ⟨trivial, trivial⟩
  | rad r =>
    refine ⟨?_, trivial⟩
    simp only [Proc.act, Static, Rad.act]
    split <;> exact h1
  | spin p => exact ⟨h1, trivial⟩
  | deltaT p => exact ⟨trivial, trivial⟩
  | hel p => exact ⟨trivial, trivial⟩
  | mon p => exact ⟨trivial, trivial⟩
  | coll p =>
    refine ⟨?_, trivial⟩
    simp only [Proc.act, Static, Coll.act]
    split
    · rw [(setNext_scatter _).1, (setNext_scatter _).2]
      exact h1
    · exact h1
  | transport p =>
    obtain ⟨a, b, c, d⟩ := h2
    have hact := transport_act eps heps heps1 p ds a b (by rw [c, d]; exact hs) h0 hl
    simp only [Proc.act, hact, Ready, Static, Tracker.integrate, c, d, hend, if_true]
    exact ⟨⟨h1.1, h1.2⟩, Or.inr trivial⟩

/-- An inactive process is left alone. -/
theorem idle_dyn (len s s' : K) (p : Proc K) (h2 : Dyn len s p) (ha : p.active = false) : Dyn len s' p := by
  cases p with
  | wake w => exact h2
  | rad r => exact h2
  | spin p => intro h; simp only [Proc.active] at ha; rw [ha] at h; cases h
  | deltaT p => intro h; simp only [Proc.active] at ha; rw [ha] at h; cases h
  | hel p => exact h2
  | mon p => trivial
  | coll p => exact h2
  | transport p => simp [Proc.active] at ha

theorem idle_ready (δ : K) (iset : List (Nat × Nat)) (p : Proc K) (h1 : Static δ iset p)
    (ha : p.active = false) : Ready δ iset p := by
  cases p with
  | transport p => simp [Proc.active] at ha
  | wake w => exact ⟨h1, trivial⟩
  | rad r => exact ⟨h1, trivial⟩
  | spin p => exact ⟨h1, trivial⟩
  | deltaT p => exact ⟨h1, trivial⟩
  | hel p => exact ⟨h1, trivial⟩
  | mon p => exact ⟨h1, trivial⟩
  | coll p => exact ⟨h1, trivial⟩

/-! ## Termination -/

/-- The number of boundaries still ahead of a process. -/
def grid : Proc K → Nat
  | .wake w => if w.active then 1 else 0
  | .rad r => if r.active then (r.ns - r.nk).toNat else 0
  | .coll p => if p.isColl then 0 else
      if p.active then 1 + p.atEntr.toNat + p.atCent.toNat + p.atExit.toNat else 0
  | _ => 0

/-- One step of one process. -/
def stepOne (eps ds : K) (p : Proc K) : Proc K := if p.active then p.act eps ds else p

theorem grid_le (eps δ len s ds : K) (iset : List (Nat × Nat)) (p : Proc K) (h1 : Static δ iset p)
    (h2 : Dyn len s p) : grid (stepOne eps ds p) ≤ grid p := by
  simp only [stepOne]
  split
  · rename_i ha
    cases p with
    | wake w =>
      have ha' : w.active = true := ha
      simp only [grid, Proc.act, Wake.act, ha', if_true]
      split
      · simp
      · simp [ha']
    | rad r =>
      have ha' : r.active = true := ha
      obtain ⟨a, b, _, _⟩ := h2 ha'
      simp only [grid, Proc.act, Rad.act, ha', if_true]
      split <;> dsimp only <;> split <;> omega
    | coll p =>
      have ha' : p.active = true := ha
      obtain ⟨a, b⟩ := h2 ha'
      simp only [grid, Proc.act, Coll.act]
      rcases Bool.eq_false_or_eq_true p.isColl with hic | hic
      · split
        · rw [(setNext_coll _ (by exact hic)).1]; simp
        · simp [hic]
      · obtain ⟨_, _, b3, _⟩ := b hic
        split
        · rw [setNext_noncoll _ (by exact hic)]
          simp only [b3, Bool.false_eq_true, if_false, ha', if_true]
          cases hce : p.atCent <;> cases hex : p.atExit <;> simp [hic, ha', b3, hex]
        · simp [hic, ha', b3]
    | spin p => exact le_refl _
    | deltaT p => exact le_refl _
    | hel p => exact le_refl _
    | mon p => exact le_refl _
    | transport p => exact le_refl _
  · exact le_refl _

/-- A step as long as the limit of an active process ends the component, or passes a boundary of the
process, or is at least `δ`. -/
theorem limit_attained (eps δ len s ds : K) (heps : 0 ≤ eps) (hδ : δ ≤ 1000)
    (iset : List (Nat × Nat)) (hs0 : 0 ≤ s) (hds : s + ds ≤ len)
    (p : Proc K) (h1 : Static δ iset p) (h2 : Dyn len s p)
    (ha : p.active = true) (hl : ds = p.limit eps) :
    |len - (s + ds)| ≤ eps ∨ grid (stepOne eps ds p) < grid p ∨ δ ≤ ds := by
  have hstep : stepOne eps ds p = p.act eps ds := by simp [stepOne, ha]
  rw [hstep]
  cases p with
  | wake w =>
    right; left
    have ha' : w.active = true := ha
    simp only [Proc.limit, Wake.limit] at hl
    have he : w.cur + ds = w.impulse := by rw [hl]; ring
    simp only [Proc.act, Wake.act, he, fequal_self eps _ heps, if_true, grid, ha']
    simp
  | rad r =>
    right; left
    have ha' : r.active = true := ha
    obtain ⟨a, b, _, _⟩ := h2 ha'
    simp only [Proc.limit, Rad.limit] at hl
    have he : r.intS + ds = ((r.nk : K) + 1) * r.dL := by rw [hl]; ring
    simp only [Proc.act, Rad.act, he, fequal_self eps _ heps, if_true, grid, ha']
    split <;> omega
  | spin p =>
    left
    obtain ⟨a, b, c⟩ := h2 ha
    simp only [Proc.limit, Spin.limit, a, b, c] at hl
    rw [hl]
    push_cast
    rw [show len - (s + ((0 + 1) * len - s)) = 0 by ring, abs_zero]
    exact heps
  | deltaT p =>
    left
    obtain ⟨a, b⟩ := h2 ha
    simp only [Proc.limit, DeltaT.limit, a, b] at hl
    rw [hl, show len - (s + (len - s)) = 0 by ring, abs_zero]
    exact heps
  | hel p =>
    left
    have a : p.len = len := h2 ha
    simp only [Proc.limit, Hel.limit, a] at hl
    have : len - (s + ds) = 0 := by linarith
    rw [this, abs_zero]
    exact heps
  | mon p =>
    right; right
    simp only [Proc.limit] at hl
    rw [hl]
    exact hδ
  | coll p =>
    have ha' : p.active = true := ha
    obtain ⟨a, b⟩ := h2 ha'
    simp only [Proc.limit, Coll.limit] at hl
    rcases Bool.eq_false_or_eq_true p.isColl with hic | hic
    · right; right
      simp only [hic, if_true] at hl
      rw [hl]
      exact h1 (a hic)
    · right; left
      obtain ⟨_, _, b3, _⟩ := b hic
      simp only [hic, Bool.false_eq_true, if_false] at hl
      have he : p.s + ds = p.next := by rw [hl]; ring
      simp only [Proc.act, Coll.act, he, fequal_self eps _ heps, if_true, grid]
      rw [setNext_noncoll _ (by exact hic)]
      simp only [b3, Bool.false_eq_true, if_false, ha', if_true, hic]
      cases hce : p.atCent <;> cases hex : p.atExit <;> simp [hic, ha', b3, hex]
  | transport p =>
    left
    obtain ⟨a, b, c, d⟩ := h2
    rw [show (Proc.transport p).limit eps = p.limit eps from rfl, transport_limit eps p a b] at hl
    rw [hl]
    simp only [Tracker.remaining, Range.fequal, c, d, sub_zero, decide_eq_true_eq]
    split
    · rename_i h
      rw [add_zero]
      exact h
    · rw [show len - (s + (len - s)) = 0 by ring, abs_zero]
      exact heps

theorem doProcs_map (eps ds : K) (b : Unit) (ps : List (Proc K)) :
    StepManager.doProcs (V eps) ds b ps = (b, ps.map (stepOne eps ds)) := by
  induction ps generalizing b with
  | nil => rfl
  | cons p ps ih =>
    simp only [StepManager.doProcs, List.map_cons, stepOne]
    by_cases ha : p.active = true
    · have : (V eps).active p = true := ha
      rw [if_pos this, if_pos ha]
      simp only [ih]
      rfl
    · have : ¬ (V eps).active p = true := ha
      rw [if_neg this, if_neg ha]
      simp only [ih]

theorem sum_grid_lt (f : Proc K → Proc K) (ps : List (Proc K)) (hle : ∀ p ∈ ps, grid (f p) ≤ grid p) :
    ((ps.map f).map grid).sum ≤ (ps.map grid).sum ∧
    ((∃ p ∈ ps, grid (f p) < grid p) → ((ps.map f).map grid).sum < (ps.map grid).sum) := by
  induction ps with
  | nil => simp
  | cons p ps ih =>
    obtain ⟨i1, i2⟩ := ih (fun q hq => hle q (List.mem_cons_of_mem _ hq))
    have hp := hle p (by simp)
    simp only [List.map_cons, List.sum_cons]
    refine ⟨by omega, ?_⟩
    rintro ⟨q, hq, hlt⟩
    rw [List.mem_cons] at hq
    rcases hq with rfl | hq
    · omega
    · have := i2 ⟨q, hq, hlt⟩
      omega

theorem step_bounds (eps δ len s : K) (hδ0 : 0 < δ) (iset : List (Nat × Nat))
    (hlen : 0 ≤ len) (hs : s ≤ len) (ps : List (Proc K))
    (hps : ∀ p ∈ ps, Static δ iset p ∧ Dyn len s p) :
    0 ≤ StepManager.calcStep (V eps) (len - s) ps ∧
    s + StepManager.calcStep (V eps) (len - s) ps ≤ len ∧
    ∀ p ∈ ps, p.active = true → StepManager.calcStep (V eps) (len - s) ps ≤ p.limit eps := by
  obtain ⟨c1, c2, c3⟩ := StepManager.calcStep_spec (V eps) (len - s) ps
  refine ⟨?_, by linarith, c2⟩
  rcases c3 with c3 | ⟨p, hp, ha, c3⟩
  · rw [c3]; linarith
  · rw [c3]
    exact limit_nonneg eps δ len s hδ0 iset hlen hs p (hps p hp).1 (hps p hp).2 ha

theorem loop_stop (eps len s : K) (n : Nat) (ps : List (Proc K))
    (hend : |len - (s + StepManager.calcStep (V eps) (len - s) ps)| ≤ eps) :
    ∃ l, StepManager.loop (V eps) eps len (n + 1) s () ps =
      some ((), ps.map (stepOne eps (StepManager.calcStep (V eps) (len - s) ps)), l) := by
  rw [StepManager.loop]
  simp only [StepManager.fequal, hend, decide_true, if_true, doProcs_map, Option.some.injEq,
    Prod.mk.injEq, true_and]
  exact ⟨_, rfl⟩

/-- The loop of the step manager ends and leaves all processes ready for the next component. -/
theorem loop_total (eps δ len : K) (heps : 0 ≤ eps) (heps1 : eps < 1) (hδ0 : 0 < δ) (hδ : δ ≤ 1000)
    (iset : List (Nat × Nat)) (hlen : 0 ≤ len) (n : Nat) :
    ∀ (N : Nat) (s : K) (ps : List (Proc K)), 0 ≤ s → s ≤ len → len - s ≤ N * δ →
      (ps.map grid).sum + N ≤ n → (∀ p ∈ ps, Static δ iset p ∧ Dyn len s p) →
      ∃ ps' l, StepManager.loop (V eps) eps len (n + 1) s () ps = some ((), ps', l) ∧
        ∀ p ∈ ps', Ready δ iset p := by
  induction n with
  | zero =>
    intro N s ps hs0 hs hN hn hps
    obtain ⟨d0, d1, d2⟩ := step_bounds eps δ len s hδ0 iset hlen hs ps hps
    have hN0 : N = 0 := by omega
    rw [hN0] at hN
    have hs' : s = len := by
      have : len - s ≤ 0 := by simpa using hN
      linarith
    have hend : |len - (s + StepManager.calcStep (V eps) (len - s) ps)| ≤ eps := by
      have : len - (s + StepManager.calcStep (V eps) (len - s) ps) = 0 := by linarith
      rw [this, abs_zero]; exact heps
    obtain ⟨l, hl⟩ := loop_stop eps len s 0 ps hend
    refine ⟨_, l, hl, ?_⟩
    · intro p hp
      rw [List.mem_map] at hp
      obtain ⟨q, hq, rfl⟩ := hp
      simp only [stepOne]
      split
      · rename_i ha
        exact act_ready eps δ len s _ heps heps1 iset hs d0 hend q (hps q hq).1 (hps q hq).2 (d2 q hq ha)
      · rename_i ha
        exact idle_ready δ iset q (hps q hq).1 (by simpa using ha)
  | succ n ih =>
    intro N s ps hs0 hs hN hn hps
    obtain ⟨d0, d1, d2⟩ := step_bounds eps δ len s hδ0 iset hlen hs ps hps
    by_cases hend : |len - (s + StepManager.calcStep (V eps) (len - s) ps)| ≤ eps
    · obtain ⟨l, hl⟩ := loop_stop eps len s (n + 1) ps hend
      refine ⟨_, l, hl, ?_⟩
      · intro p hp
        rw [List.mem_map] at hp
        obtain ⟨q, hq, rfl⟩ := hp
        simp only [stepOne]
        split
        · rename_i ha
          exact act_ready eps δ len s _ heps heps1 iset hs d0 hend q (hps q hq).1 (hps q hq).2 (d2 q hq ha)
        · rename_i ha
          exact idle_ready δ iset q (hps q hq).1 (by simpa using ha)
    · have hdyn : ∀ p ∈ ps.map (stepOne eps (StepManager.calcStep (V eps) (len - s) ps)),
          Static δ iset p ∧ Dyn len (s + StepManager.calcStep (V eps) (len - s) ps) p := by
        intro p hp
        rw [List.mem_map] at hp
        obtain ⟨q, hq, rfl⟩ := hp
        simp only [stepOne]
        split
        · rename_i ha
          exact act_dyn eps δ len s _ heps heps1 iset hs d0 hend q (hps q hq).1 (hps q hq).2 ha (d2 q hq ha)
        · rename_i ha
          exact ⟨(hps q hq).1, idle_dyn len s _ q (hps q hq).2 (by simpa using ha)⟩
      obtain ⟨g1, g2⟩ := sum_grid_lt (stepOne eps (StepManager.calcStep (V eps) (len - s) ps)) ps
        (fun p hp => grid_le eps δ len s _ iset p (hps p hp).1 (hps p hp).2)
      have hrec : ∃ ps' l, StepManager.loop (V eps) eps len (n + 1)
          (s + StepManager.calcStep (V eps) (len - s) ps) ()
          (ps.map (stepOne eps (StepManager.calcStep (V eps) (len - s) ps))) = some ((), ps', l) ∧
          ∀ p ∈ ps', Ready δ iset p := by
        obtain ⟨_, _, c3⟩ := StepManager.calcStep_spec (V eps) (len - s) ps
        rcases c3 with c3 | ⟨p, hp, ha, c3⟩
        · exfalso
          apply hend
          rw [c3, show len - (s + (len - s)) = 0 by ring, abs_zero]
          exact heps
        · rcases limit_attained eps δ len s _ heps hδ iset hs0 d1 p (hps p hp).1 (hps p hp).2 ha c3 with
            h | h | h
          · exact absurd h hend
          · have := g2 ⟨p, hp, h⟩
            exact ih N _ _ (by linarith) d1 (by linarith) (by omega) hdyn
          · cases N with
            | zero =>
              exfalso
              have : len - s ≤ 0 := by simpa using hN
              linarith
            | succ N =>
              refine ih N _ _ (by linarith) d1 ?_ (by omega) hdyn
              push_cast at hN
              linarith
      obtain ⟨ps', l, e1, e2⟩ := hrec
      refine ⟨ps', ⟨ps, StepManager.calcStep (V eps) (len - s) ps⟩ :: l, ?_, e2⟩
      rw [StepManager.loop]
      simp only [StepManager.fequal, hend, decide_false, Bool.false_eq_true, if_false, doProcs_map, e1]

/-! ## The steps as seen by one process -/

/-- Lengths of steps. -/
def steps (l : List (StepManager.Step (Proc K) K)) : List K := l.map (fun st => st.ds)

theorem loop_taken (eps δ len : K) (heps : 0 ≤ eps) (heps1 : eps < 1) (hδ0 : 0 < δ)
    (iset : List (Nat × Nat)) (hlen : 0 ≤ len) (n : Nat) :
    ∀ (s : K) (ps ps' : List (Proc K)) (b : Unit) (l : List (StepManager.Step (Proc K) K)), s ≤ len →
      (∀ p ∈ ps, Static δ iset p ∧ Dyn len s p) →
      StepManager.loop (V eps) eps len n s () ps = some (b, ps', l) →
      (l ≠ [] ∧ s + (steps l).sum ≤ len ∧ len - (s + (steps l).sum) ≤ eps ∧
        ∀ pre suf, steps l = pre ++ suf → pre ≠ [] → suf ≠ [] → eps < len - (s + pre.sum)) ∧
      ∀ (i : Nat) (p : Proc K), ps[i]? = some p →
        ∃ p', ps'[i]? = some p' ∧ Taken Proc.active (Proc.limit eps) (Proc.act eps) p (steps l) p' := by
  induction n with
  | zero =>
    intro s ps ps' b l _ _ h
    simp [StepManager.loop] at h
  | succ n ih =>
    intro s ps ps' b l hs hps h
    obtain ⟨d0, d1, d2⟩ := step_bounds eps δ len s hδ0 iset hlen hs ps hps
    rw [StepManager.loop] at h
    simp only [StepManager.fequal, doProcs_map] at h
    generalize hds : StepManager.calcStep (V eps) (len - s) ps = ds at h d0 d1 d2
    by_cases hend : |len - (s + ds)| ≤ eps
    · simp only [hend, decide_true, if_true, Option.some.injEq, Prod.mk.injEq] at h
      obtain ⟨_, rfl, rfl⟩ := h
      refine ⟨⟨by simp, by simpa [steps] using d1, ?_, ?_⟩, ?_⟩
      · have := (abs_le.1 hend).2
        simpa [steps] using this
      · intro pre suf he h1 h2
        exfalso
        have hlen1 := congrArg List.length he
        simp only [steps, List.map_cons, List.map_nil, List.length_cons, List.length_nil,
          List.length_append] at hlen1
        have := List.length_pos_iff.2 h1
        have := List.length_pos_iff.2 h2
        omega
      · intro i p hp
        refine ⟨stepOne eps ds p, by rw [List.getElem?_map, hp]; rfl, ?_⟩
        have hm : p ∈ ps := List.mem_of_getElem? hp
        simp only [steps, List.map_cons, List.map_nil, stepOne]
        split
        · rename_i ha
          exact Taken.act _ _ _ _ ha d0 (d2 p hm ha) (Taken.nil _)
        · rename_i ha
          exact Taken.idle _ _ _ _ (by simpa using ha) d0 (Taken.nil _)
    · have hdyn : ∀ p ∈ ps.map (stepOne eps ds), Static δ iset p ∧ Dyn len (s + ds) p := by
        intro p hp
        rw [List.mem_map] at hp
        obtain ⟨q, hq, rfl⟩ := hp
        simp only [stepOne]
        split
        · rename_i ha
          exact act_dyn eps δ len s _ heps heps1 iset hs d0 hend q (hps q hq).1 (hps q hq).2 ha (d2 q hq ha)
        · rename_i ha
          exact ⟨(hps q hq).1, idle_dyn len s _ q (hps q hq).2 (by simpa using ha)⟩
      simp only [hend, decide_false, Bool.false_eq_true, if_false] at h
      split at h
      · rename_i b2 ps2 l2 h2
        simp only [Option.some.injEq, Prod.mk.injEq] at h
        obtain ⟨_, rfl, rfl⟩ := h
        obtain ⟨⟨i1, i2, i3, i4⟩, i5⟩ := ih (s + ds) _ _ _ _ d1 hdyn h2
        have hsteps : ∀ st : StepManager.Step (Proc K) K, st.ds = ds → steps (st :: l2) = ds :: steps l2 := by
          intro st h; simp [steps, h]
        rw [hsteps _ rfl]
        refine ⟨⟨by simp, ?_, ?_, ?_⟩, ?_⟩
        · rw [List.sum_cons]; linarith
        · rw [List.sum_cons]; linarith
        · intro pre suf he h1 h2
          cases pre with
          | nil => exact absurd rfl h1
          | cons x pre =>
            rw [List.cons_append, List.cons.injEq] at he
            obtain ⟨rfl, he⟩ := he
            rw [List.sum_cons]
            by_cases hpre : pre = []
            · subst hpre
              rw [not_le] at hend
              have : 0 ≤ len - (s + ds) := by linarith
              rw [abs_of_nonneg this] at hend
              simpa using hend
            · have := i4 pre suf he hpre h2
              linarith
        · intro i p hp
          have hm : p ∈ ps := List.mem_of_getElem? hp
          obtain ⟨p', e1, e2⟩ := i5 i (stepOne eps ds p) (by rw [List.getElem?_map, hp]; rfl)
          refine ⟨p', e1, ?_⟩
          simp only [stepOne] at e2
          split at e2
          · rename_i ha
            exact Taken.act _ _ _ _ ha d0 (d2 p hm ha) e2
          · rename_i ha
            exact Taken.idle _ _ _ _ (by simpa using ha) d0 e2
      · cases h

end

end Verif.Processes
