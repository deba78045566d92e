import Mathlib.Algebra.Order.Ring.Rat
import Mathlib.Algebra.Field.Rat
import Verif.Collimation.Lemmas

/-!
# Properties of collimation
-/

set_option linter.unusedSectionVars false
set_option linter.unusedSimpArgs false

namespace Verif.Collimation
open Verif Verif.Collimation.Spec

variable {K : Type} [Field K] [LinearOrder K] [IsStrictOrderedRing K]

/-! ## C45 -/

theorem clamp_recorded (length : K) (p : Part K) (z : K) : clamp length p z = recorded length p z := by
  have h : (if p.ct + z < 0 then 0 else p.ct + z) = max 0 (p.ct + z) := by
    split
    · rename_i h; rw [max_eq_left h.le]
    · rename_i h; rw [max_eq_right (not_lt.1 h)]
  simp only [clamp, recorded, h]
  congr 1
  split
  · rename_i h; rw [min_eq_left (le_of_lt h)]
  · rename_i h; rw [min_eq_right (not_lt.1 h)]

/-- Collimation at a component that is not a collimator: exactly the particles inside the aperture stay, in order; the
losses are counted; the index list follows the bunch; the exception is thrown exactly when the fraction lost since the
start reaches the threshold.  If all are inside nothing changes.  The positions where the lost particles are searched
for must be those of particles copied at entry (`hi`), which C46 is about. -/
theorem hard_edge (fuel : Nat) (c : Ctx K) (st : State K) (hc : c.isCollimator = false) (ha : Aligned st)
    (hi : st.inputArray.length = st.bunch.length) (hb : 0 < st.binSize) (hL : 0 ≤ c.length)
    (hf : c.length ≤ fuel * st.binSize) :
    ∃ st' exc, doCollimation (fuel + 1) c st = .ok (st', exc) ∧
      st'.bunch = st.bunch.filter (fun p => c.ap p.x p.y c.s) ∧
      st'.nlost = st.nlost + (st.bunch.filter fun p => !c.ap p.x p.y c.s).length ∧
      (st'.pindex = st.pindex.map fun l => ((l.zip st.bunch).filter fun q => c.ap q.2.x q.2.y c.s).map (·.1)) ∧
      ((∀ p ∈ st.bunch, c.ap p.x p.y c.s) → st' = st ∧ exc = none) ∧
      ((∃ p ∈ st.bunch, ¬ c.ap p.x p.y c.s) →
        (exc ≠ none ↔ st.lossThreshold ≤ (st'.nlost : K) / (st.nstart : K))) := by
  have hpart : (st.bunch.filter fun p => c.ap p.x p.y c.s).length + (st.bunch.filter fun p => !c.ap p.x p.y c.s).length =
      st.bunch.length := by
    have := List.length_eq_length_filter_add (l := st.bunch) (fun p => c.ap p.x p.y c.s)
    omega
  by_cases hl : ∃ p ∈ st.bunch, c.ap p.x p.y c.s = false
  · obtain ⟨st', exc, d, e, h, -⟩ := hard_core hc ha hi hb hL hf hl
    refine ⟨st', exc, e, h.bunch, ?_, h.pindex, ?_, fun _ => ?_⟩
    · have := h.nlost
      rw [h.bunch] at this
      omega
    · intro hall
      obtain ⟨p, hp, ho⟩ := hl
      rw [hall p hp] at ho
      cases ho
    · rw [h.exc]
      split <;> simp_all
  · have hall : ∀ p ∈ st.bunch, c.ap p.x p.y c.s = true := fun p hp => by
      by_contra hx
      exact hl ⟨p, hp, by simpa using hx⟩
    have hn : firstLoss c st.binSize st.bunch = none := by
      unfold firstLoss
      rw [List.findIdx?_eq_none_iff]
      intro p hp
      simp [inside, hc, hall p hp]
    refine ⟨st, none, by rw [doCollimation, hn], ?_, ?_, ?_, fun _ => ⟨rfl, rfl⟩, fun ⟨p, hp, ho⟩ => absurd (hall p hp) ho⟩
    · rw [List.filter_eq_self.2 hall]
    · have : st.bunch.filter (fun p => c.ap p.x p.y c.s) = st.bunch := List.filter_eq_self.2 hall
      rw [this] at hpart
      omega
    · cases hp : st.pindex with
      | none => rfl
      | some l =>
        rw [Option.map_some, List.filter_eq_self.2]
        · rw [List.map_fst_zip (by rw [ha l hp])]
        · intro q hq
          exact hall q.2 (List.of_mem_zip hq).2

/-- Collimation in a collimator: a particle that was inside a bin before is left alone; one that was outside is
handed, moved back, to the scattering, and stays as the scattering leaves it unless it is absorbed; order and index list
are kept, absorbed particles are counted. -/
theorem collimator (fuel : Nat) (c : Ctx K) (st : State K) (hc : c.isCollimator = true) (ha : Aligned st) :
    let outside (p : Part K) : Bool := !c.ap (p.x - st.binSize * p.xp) (p.y - st.binSize * p.yp) c.s
    let result (k : Nat) (p : Part K) := c.scatter k { p with x := p.x - st.binSize * p.xp, y := p.y - st.binSize * p.yp }
    let becomes (k : Nat) (p : Part K) : Option (Part K) :=
      if outside p then (if (result k p).2.1 then none else some (result k p).1) else some p
    ∃ st' exc, doCollimation fuel c st = .ok (st', exc) ∧
      st'.bunch = st.bunch.zipIdx.filterMap (fun q => becomes q.2 q.1) ∧
      st'.nlost + st'.bunch.length = st.nlost + st.bunch.length ∧
      (st'.pindex = st.pindex.map fun l =>
        ((l.zip st.bunch.zipIdx).filter fun q => (becomes q.2.2 q.2.1).isSome).map (·.1)) ∧
      st'.disposed = st.disposed ++ (st.bunch.zipIdx.filter fun q => outside q.1).flatMap (fun q => (result q.2 q.1).2.2) ∧
      ((∀ p ∈ st.bunch, outside p = false) → st' = st ∧ exc = none) ∧
      ((∃ p ∈ st.bunch, outside p = true) →
        (exc ≠ none ↔ st.lossThreshold ≤ (st'.nlost : K) / (st.nstart : K))) := by
  intro outside result becomes
  have hout : ∀ p, outside p = !inside c st.binSize p := fun p => by simp [outside, inside, hc]
  have hback : ∀ p, back c st.binSize p = { p with x := p.x - st.binSize * p.xp, y := p.y - st.binSize * p.yp } :=
    fun p => by simp [back, hc]
  have hfate : ∀ k p, sel (fate c st.binSize k (back c st.binSize p)) = becomes k p := by
    intro k p
    by_cases hi : inside c st.binSize p = true
    · simp [fate, back_inside, hi, sel, forward_back, becomes, hout]
    · rw [Bool.not_eq_true] at hi
      simp only [fate, back_inside, hi, hc, becomes, hout, result, ← hback]
      cases ht : (c.scatter k (back c st.binSize p)).2.1 <;> simp [sel]
  have hfD : ∀ k p, fateD c k (back c st.binSize p) = if outside p then (result k p).2.2 else [] := by
    intro k p
    by_cases hi : inside c st.binSize p = true
    · simp [fateD, back_inside, hi, hout]
    · rw [Bool.not_eq_true] at hi
      simp [fateD, back_inside, hi, hout, hc, result, ← hback]
  have hflat : ∀ l : List (Part K × Nat), (l.flatMap fun q => if outside q.1 then (result q.2 q.1).2.2 else []) =
      (l.filter fun q => outside q.1).flatMap fun q => (result q.2 q.1).2.2 := by
    intro l
    induction l with
    | nil => rfl
    | cons q l ih =>
      rw [List.flatMap_cons, ih, List.filter_cons]
      split <;> simp
  cases e : firstLoss c st.binSize st.bunch with
  | none =>
    have hall : ∀ p ∈ st.bunch, outside p = false := fun p hp => by rw [hout, firstLoss_none e p hp]; rfl
    have hb : ∀ q ∈ st.bunch.zipIdx, becomes q.2 q.1 = some q.1 := fun q hq => by
      simp [becomes, hall q.1 (List.fst_mem_of_mem_zipIdx hq)]
    refine ⟨st, none, by rw [doCollimation, e], ?_, rfl, ?_, ?_, fun _ => ⟨rfl, rfl⟩, ?_⟩
    · rw [List.filterMap_congr hb]
      simp
    · cases hp : st.pindex with
      | none => rfl
      | some l =>
        rw [Option.map_some, List.filter_eq_self.2, List.map_fst_zip (by rw [ha l hp]; simp)]
        intro q hq
        rw [hb q.2 (List.of_mem_zip hq).2]
        rfl
    · rw [List.filter_eq_nil_iff.2]
      · simp
      · intro q hq
        simp [hall q.1 (List.fst_mem_of_mem_zipIdx hq)]
    · rintro ⟨p, hp, ho⟩
      rw [hall p hp] at ho
      cases ho
  | some first =>
    rcases sort_back c st first e with ⟨-, l, h1, h2⟩ | ⟨r, er, hr⟩
    · have := ha l h1
      omega
    · have hcount : r.kept.length + r.lost.length = st.bunch.length := by
        rw [hr.kept, hr.lost, filterMap_count]
        simp
      unfold doCollimation
      rw [e]
      simp only [er, Outcome.bind]
      rw [if_neg (by simp [hc])]
      refine ⟨_, _, rfl, ?_, ?_, ?_, ?_, ?_, ?_⟩
      · show r.kept = _
        rw [hr.kept, zipIdx_map_back, List.filterMap_map]
        exact List.filterMap_congr fun q _ => hfate q.2 q.1
      · show st.nlost + r.lost.length + r.kept.length = _
        omega
      · show r.pindex = _
        rw [hr.pindex]
        cases hp : st.pindex with
        | none => rfl
        | some l =>
          rw [Option.map_some, Option.map_some]
          congr 1
          rw [List.drop_of_length_le (by rw [ha l hp]; simp), List.append_nil, zipIdx_map_back, List.zip_map_right,
            List.filter_map, List.map_map]
          simp only [Function.comp_def, Prod.map_fst, Prod.map_snd, id_eq, hfate]
      · show st.disposed ++ r.disposed ++ [] = _
        rw [List.append_nil, hr.disposed, zipIdx_map_back, List.flatMap_map]
        congr 1
        rw [← hflat]
        congr 1
        funext q
        exact hfD q.2 q.1
      · intro hall
        obtain ⟨⟨p, hp, ho⟩, -⟩ := firstLoss_some e
        have := hall p (List.mem_of_getElem? hp)
        rw [hout, ho] at this
        cases this
      · intro _
        show (ite _ _ _ ≠ none) ↔ _
        split <;> simp_all

/-! ### Many components -/

/-- Through components, at each of which the bunch is moved and collimated once; an exception ends it. -/
def journey (fuel : Nat) : List (Ctx K × (Part K → Part K)) → State K → Outcome Unit (State K)
  | [], st => .ok st
  | (c, move) :: l, st =>
    let st := enter c st
    (doCollimation (fuel + 1) c { st with bunch := st.bunch.map move }).bind fun r =>
      if r.2 = none then journey fuel l r.1 else .ok r.1

/-- The index list gives for each particle of the bunch the place it had in the bunch at the start. -/
def Traces (start : List (Part K)) (st : State K) : Prop :=
  ∀ l, st.pindex = some l → l.length = st.bunch.length ∧
    ∀ q ∈ l.zip st.bunch, ∃ p, start[q.1]? = some p ∧ q.2.id = p.id

theorem zip_filterMap_length {α β : Type} (f : α → Option β) : ∀ (l : List Nat) (ps : List α), l.length = ps.length →
    (((l.zip ps).filter fun q => (f q.2).isSome).map (·.1)).length = (ps.filterMap f).length ∧
    ∀ q ∈ (((l.zip ps).filter fun q => (f q.2).isSome).map (·.1)).zip (ps.filterMap f), ∃ a, (q.1, a) ∈ l.zip ps ∧ f a = some q.2
  | [], [], _ => by simp
  | [], _ :: _, h => by simp at h
  | _ :: _, [], h => by simp at h
  | i :: l, a :: ps, h => by
    obtain ⟨h1, h2⟩ := zip_filterMap_length f l ps (by simpa using h)
    rw [List.zip_cons_cons, List.filter_cons, List.filterMap_cons]
    cases hf : f a with
    | none =>
      simp only [hf, Option.isSome_none, Bool.false_eq_true, if_false]
      exact ⟨h1, fun q hq => by
        obtain ⟨b, hb, e⟩ := h2 q hq
        exact ⟨b, List.mem_cons_of_mem _ hb, e⟩⟩
    | some b =>
      simp only [hf, Option.isSome_some, if_true, List.map_cons, List.length_cons, h1, true_and, List.zip_cons_cons]
      intro q hq
      rcases List.mem_cons.1 hq with rfl | hq
      · exact ⟨a, List.mem_cons_self, hf⟩
      · obtain ⟨b, hb, e⟩ := h2 q hq
        exact ⟨b, List.mem_cons_of_mem _ hb, e⟩

theorem traces_step {start : List (Part K)} {st st' : State K} {α : Type} (g : List α) (f : α → Option (Part K)) (old : α → Part K)
    (hg : st.bunch = g.map old) (ht : Traces start st) (hid : ∀ a q, f a = some q → q.id = (old a).id)
    (hb : st'.bunch = g.filterMap f)
    (hp : st'.pindex = st.pindex.map fun l => ((l.zip g).filter fun q => (f q.2).isSome).map (·.1)) : Traces start st' := by
  intro l hl
  rw [hp, Option.map_eq_some_iff] at hl
  obtain ⟨l0, h0, rfl⟩ := hl
  obtain ⟨t1, t2⟩ := ht l0 h0
  obtain ⟨z1, z2⟩ := zip_filterMap_length f l0 g (by rw [t1, hg, List.length_map])
  rw [hb]
  refine ⟨z1, fun q hq => ?_⟩
  obtain ⟨a, ha, e⟩ := z2 q hq
  have : (q.1, old a) ∈ l0.zip st.bunch := by
    rw [hg, List.zip_map_right]
    exact List.mem_map.2 ⟨(q.1, a), ha, rfl⟩
  obtain ⟨p, hp, hpid⟩ := t2 _ this
  exact ⟨p, hp, (hid a q.2 e).trans hpid⟩

/-- From the start, through any components with one collimation point each: survivors and losses add up to the bunch at
the start, and the index list tells where each survivor was in it. -/
theorem journey_accounts (fuel : Nat) (st0 : State K) (start : List (Part K)) (hb : 0 < st0.binSize)
    (l : List (Ctx K × (Part K → Part K)))
    (hl : ∀ c ∈ l, 0 ≤ c.1.length ∧ c.1.length ≤ fuel * st0.binSize ∧ (∀ p, (c.2 p).id = p.id) ∧
      ∀ k p, (c.1.scatter k p).1.id = p.id) :
    ∃ st, journey fuel l (initialise st0 start) = .ok st ∧ st.nlost + st.bunch.length = start.length ∧
      Traces start st ∧ (st.pindex = none ↔ st0.pindex = none) := by
  have key : ∀ (l : List (Ctx K × (Part K → Part K))) (st : State K), (∀ c ∈ l, 0 ≤ c.1.length ∧
      c.1.length ≤ fuel * st0.binSize ∧ (∀ p, (c.2 p).id = p.id) ∧ ∀ k p, (c.1.scatter k p).1.id = p.id) →
      st.binSize = st0.binSize → Traces start st →
      ∃ st', journey fuel l st = .ok st' ∧ st'.nlost + st'.bunch.length = st.nlost + st.bunch.length ∧ Traces start st' ∧
        (st'.pindex = none ↔ st.pindex = none) := by
    intro l
    induction l with
    | nil => exact fun st _ _ h => ⟨st, rfl, rfl, h, Iff.rfl⟩
    | cons cm l ih =>
      obtain ⟨c, move⟩ := cm
      intro st hl hbin ht
      obtain ⟨g1, g2, g3, g4⟩ := hl (c, move) List.mem_cons_self
      have hl' := fun c hc => hl c (List.mem_cons_of_mem _ hc)
      -- the state that is collimated
      generalize hS : ({ enter c st with bunch := (enter c st).bunch.map move } : State K) = S
      have eb : S.bunch = st.bunch.map move := by
        rw [← hS]
        simp only [enter]
        split <;> rfl
      have ep : S.pindex = st.pindex := by
        rw [← hS]
        simp only [enter]
        split <;> rfl
      have en : S.nlost = st.nlost := by
        rw [← hS]
        simp only [enter]
        split <;> rfl
      have ebin : S.binSize = st0.binSize := by
        rw [← hS, ← hbin]
        simp only [enter]
        split <;> rfl
      have htS : Traces start S := by
        intro l hl
        rw [ep] at hl
        obtain ⟨a, b⟩ := ht l hl
        refine ⟨by rw [eb, List.length_map, a], fun q hq => ?_⟩
        rw [eb, List.zip_map_right] at hq
        obtain ⟨r, hr, rfl⟩ := List.mem_map.1 hq
        obtain ⟨p, hp, hid⟩ := b r hr
        exact ⟨p, hp, (g3 _).trans hid⟩
      have hal : Aligned S := fun l hl => (htS l hl).1
      have step : ∃ st' exc, doCollimation (fuel + 1) c S = .ok (st', exc) ∧ st'.binSize = st0.binSize ∧
          st'.nlost + st'.bunch.length = S.nlost + S.bunch.length ∧ Traces start st' ∧
          (st'.pindex = none ↔ S.pindex = none) := by
        cases hc : c.isCollimator with
        | false =>
          have hin : S.inputArray.length = S.bunch.length := by
            rw [eb, ← hS]
            simp [enter, hc]
          obtain ⟨st', exc, e, h1, h2, h3, h4, -⟩ := hard_edge fuel c S hc hal hin (by rw [ebin]; exact hb) g1
            (by rw [ebin]; exact g2)
          have hbin' : st'.binSize = st0.binSize := by
            by_cases hx : ∃ p ∈ S.bunch, c.ap p.x p.y c.s = false
            · obtain ⟨st'', exc', d, e', h, -⟩ := hard_core hc hal hin (by rw [ebin]; exact hb) g1 (by rw [ebin]; exact g2) hx
              rw [e] at e'
              simp only [Outcome.ok.injEq, Prod.mk.injEq] at e'
              rw [e'.1, h.bin, ebin]
            · rw [(h4 fun p hp => by
                by_contra hy
                exact hx ⟨p, hp, by simpa using hy⟩).1, ebin]
          refine ⟨st', exc, e, hbin', ?_, ?_, ?_⟩
          · have := List.length_eq_length_filter_add (l := S.bunch) (fun p => c.ap p.x p.y c.s)
            rw [h1, h2]
            omega
          · refine traces_step S.bunch (fun p => if c.ap p.x p.y c.s then some p else none) id (by simp) htS ?_ ?_ ?_
            · intro a q hq
              split at hq
              · cases hq
                rfl
              · cases hq
            · rw [h1, ← List.filterMap_eq_filter]
              congr 1
            · rw [h3]
              congr 1
              funext l
              congr 2
              funext q
              cases c.ap q.2.x q.2.y c.s <;> simp
          · rw [h3]
            simp
        | true =>
          obtain ⟨st', exc, e, h1, h2, h3, h4, h5, h6⟩ := collimator (fuel + 1) c S hc hal
          have hbin' : st'.binSize = st0.binSize := by
            rw [← ebin]
            have e' := e
            unfold doCollimation at e'
            split at e'
            · simp only [Outcome.ok.injEq, Prod.mk.injEq] at e'
              rw [e'.1]
            · rename_i first hfl
              rcases sort_back c S first hfl with ⟨-, l, h1, h2⟩ | ⟨r, er, hr⟩
              · have := hal l h1
                omega
              · rw [er] at e'
                simp only [Outcome.bind] at e'
                rw [if_neg (by simp [hc])] at e'
                simp only [Outcome.ok.injEq, Prod.mk.injEq] at e'
                rw [← e'.1]
          refine ⟨st', exc, e, hbin', h2, ?_, by rw [h3]; simp⟩
          refine traces_step S.bunch.zipIdx _ Prod.fst (by simp) htS ?_ h1 h3
          rintro ⟨p, k⟩ q hq
          simp only at hq
          split at hq
          · split at hq
            · cases hq
            · rw [Option.some.injEq] at hq
              rw [← hq, g4]
          · cases hq
            rfl
      obtain ⟨st', exc, e, a, b, t, p⟩ := step
      have hcnt : S.bunch.length = st.bunch.length := by rw [eb, List.length_map]
      rw [journey]
      simp only [hS]
      rw [e]
      simp only [Outcome.bind]
      by_cases hx : exc = none
      · rw [if_pos hx]
        obtain ⟨st'', e2, b2, t2, p2⟩ := ih st' hl' a t
        exact ⟨st'', e2, by omega, t2, by rw [p2, p, ep]⟩
      · rw [if_neg hx]
        exact ⟨st', rfl, by omega, t, by rw [p, ep]⟩
  obtain ⟨st, e, a, b, c⟩ := key l (initialise st0 start) hl rfl (by
    intro l hl
    have hl' : st0.pindex.map (fun _ => List.range start.length) = some l := hl
    rw [Option.map_eq_some_iff] at hl'
    obtain ⟨_, -, rfl⟩ := hl'
    refine ⟨by simp [initialise], fun q hq => ?_⟩
    have hq' : q ∈ (List.range start.length).zip start := hq
    rw [List.mem_iff_getElem] at hq'
    obtain ⟨n, hn, rfl⟩ := hq'
    simp at hn
    exact ⟨start[n], by simp [hn], by simp⟩)
  refine ⟨st, e, by rw [a]; simp [initialise], b, ?_⟩
  rw [c]
  simp [initialise]

/-! ## C46 -/

/-- At the first point where particles of a component are lost, each record is of a lost particle as it was copied at
entry, tracked again to the first step where it is outside.  The second point is the matter of
`second_loss_violated`. -/
theorem loss_records_partial (fuel N : Nat) (c : Ctx K) (st : State K) (hc : c.isCollimator = false) (ha : Aligned st)
    (hi : st.inputArray.length = st.bunch.length) (hb : 0 < st.binSize) (hL : 0 < c.length)
    (hf : c.length ≤ fuel * st.binSize) (hl : ∃ p ∈ st.bunch, ¬ c.ap p.x p.y c.s)
    (hN : N ≤ fuel) (h1 : ((N : K) - 1) * st.binSize < c.length) (h2 : c.length ≤ N * st.binSize) :
    ∃ st' exc d, doCollimation (fuel + 1) c st = .ok (st', exc) ∧ st'.disposed = st.disposed ++ d ∧
      ∀ e ∈ d, ∃ m : Nat, m < N ∧ e.pos = m * st.binSize ∧ ∃ p ∈ lostInputs c st, insideAfter c st.binSize m p = false ∧
        (∀ k < m, insideAfter c st.binSize k p = true) ∧
        e.p = recorded c.length (after c.track st.binSize m p) (m * st.binSize) := by
  obtain ⟨st', exc, d, e, h, -, h3⟩ := hard_core hc ha hi hb hL.le hf (by simpa using hl)
  simp only [clamp_recorded] at h3
  exact ⟨st', exc, d, e, h.disposed, (h3 N hL hN h1 h2).2.1⟩

/-- Losses at a second point of a component: the copies made at entry are gone, reading them is undefined. -/
theorem second_loss_violated (fuel fuel' : Nat) (c c' : Ctx K) (st : State K) (hc : c.isCollimator = false)
    (ha : Aligned st) (hi : st.inputArray.length = st.bunch.length) (hb : 0 < st.binSize) (hL : 0 ≤ c.length)
    (hf : c.length ≤ fuel * st.binSize) (hl : ∃ p ∈ st.bunch, ¬ c.ap p.x p.y c.s)
    (hc' : c'.isCollimator = false) (hL' : c'.length ≠ 0)
    (hl' : ∃ p ∈ st.bunch, c.ap p.x p.y c.s ∧ ¬ c'.ap p.x p.y c'.s) :
    ((doCollimation (fuel + 1) c st).bind fun r => doCollimation fuel' c' r.1) = .ub := by
  obtain ⟨st', exc, d, e, h, -⟩ := hard_core hc ha hi hb hL hf (by simpa using hl)
  rw [e]
  show doCollimation fuel' c' st' = .ub
  obtain ⟨p, hp, hin, ho⟩ := hl'
  have hp' : p ∈ st'.bunch := by
    rw [h.bunch]
    exact List.mem_filter.2 ⟨hp, hin⟩
  cases ef : firstLoss c' st'.binSize st'.bunch with
  | none =>
    have := firstLoss_none ef p hp'
    rw [inside, if_neg (by simp [hc'])] at this
    exact absurd this ho
  | some first =>
    unfold doCollimation
    rw [ef]
    rcases sort_back c' st' first ef with ⟨eu, -⟩ | ⟨r, er, hr⟩
    · simp only [eu, Outcome.bind]
    · have hpos : r.positions ≠ [] := by
        rw [hr.positions, back_hard hc']
        simp only [ser_hard hc']
        obtain ⟨k, hk⟩ := List.getElem?_of_mem hp'
        have hm : (p, k) ∈ st'.bunch.zipIdx 0 := by
          rw [List.mem_zipIdx_iff_getElem?]
          exact hk
        intro hnil
        rw [List.map_eq_nil_iff] at hnil
        have : (p, k) ∈ (st'.bunch.zipIdx 0).filter fun q => !c'.ap q.1.x q.1.y c'.s :=
          List.mem_filter.2 ⟨hm, by simpa using ho⟩
        rw [hnil] at this
        cases this
      simp only [er, Outcome.bind]
      rw [if_pos ⟨by simpa using hpos, by simp [hc'], hL'⟩, h.input]
      cases hx : r.positions with
      | nil => exact absurd hx hpos
      | cons n l => simp [pick]

/-! ## C111 -/

/-- At a component with a length, every lost particle found outside at one of the steps is recorded, once. -/
theorem each_loss_recorded_partial (fuel N : Nat) (c : Ctx K) (st : State K) (hc : c.isCollimator = false)
    (ha : Aligned st) (hi : st.inputArray.length = st.bunch.length) (hb : 0 < st.binSize) (hL : 0 < c.length)
    (hf : c.length ≤ fuel * st.binSize) (hl : ∃ p ∈ st.bunch, ¬ c.ap p.x p.y c.s)
    (hN : N ≤ fuel) (h1 : ((N : K) - 1) * st.binSize < c.length) (h2 : c.length ≤ N * st.binSize)
    (hfound : ∀ p ∈ lostInputs c st, ∃ m < N, insideAfter c st.binSize m p = false) :
    ∃ st' exc d, doCollimation (fuel + 1) c st = .ok (st', exc) ∧ st'.disposed = st.disposed ++ d ∧
      st'.nlost = st.nlost + d.length ∧
      ∀ p ∈ lostInputs c st, ∃ e ∈ d, ∃ m : Nat, m < N ∧ e.pos = m * st.binSize ∧
        e.p = recorded c.length (after c.track st.binSize m p) (m * st.binSize) := by
  have hlw : ∀ p ∈ lostInputs c st, lostWithin c st.binSize N p = true := by
    intro p hp
    obtain ⟨m, hm, ho⟩ := hfound p hp
    rw [lostWithin, Bool.not_eq_true', List.all_eq_false]
    exact ⟨m, List.mem_range.2 hm, by simp [ho]⟩
  obtain ⟨st', exc, d, e, h, -, h3⟩ := hard_core hc ha hi hb hL.le hf (by simpa using hl)
  simp only [clamp_recorded] at h3
  obtain ⟨g1, g2, g3⟩ := h3 N hL hN h1 h2
  refine ⟨st', exc, d, e, h.disposed, ?_, fun p hp => ?_⟩
  · rw [g1, List.filter_eq_self.2 hlw]
    have hn := h.nlost
    rw [h.bunch] at hn
    have : (lostInputs c st).length = (st.bunch.filter fun p => !c.ap p.x p.y c.s).length := by
      have hz : (st.inputArray.zip st.bunch).map (·.2) = st.bunch := List.map_snd_zip (by omega)
      unfold lostInputs
      rw [List.length_map]
      conv_rhs => rw [← hz, List.filter_map, List.length_map]
      rfl
    have := List.length_eq_length_filter_add (l := st.bunch) (fun p => c.ap p.x p.y c.s)
    omega
  · obtain ⟨e, he, m, a, b, cc, -⟩ := g3 p hp (hlw p hp)
    exact ⟨e, he, m, a, b, cc⟩

/-- At a component without length no loss is recorded. -/
theorem zero_length_violated (fuel : Nat) (c : Ctx K) (st : State K) (hc : c.isCollimator = false) (ha : Aligned st)
    (hi : st.inputArray.length = st.bunch.length) (hb : 0 < st.binSize) (hL : c.length = 0)
    (hl : ∃ p ∈ st.bunch, ¬ c.ap p.x p.y c.s) :
    ∃ st' exc, doCollimation (fuel + 1) c st = .ok (st', exc) ∧ st.nlost < st'.nlost ∧ st'.disposed = st.disposed := by
  have hf : c.length ≤ fuel * st.binSize := by
    rw [hL]
    positivity
  obtain ⟨st', exc, d, e, h, h0, -⟩ := hard_core hc ha hi hb hL.ge hf (by simpa using hl)
  refine ⟨st', exc, e, ?_, by rw [h.disposed, h0 hL, List.append_nil]⟩
  have hn := h.nlost
  rw [h.bunch] at hn
  obtain ⟨p, hp, ho⟩ := hl
  have : (st.bunch.filter fun p => c.ap p.x p.y c.s).length < st.bunch.length := by
    rw [List.length_filter_lt_length_iff_exists]
    exact ⟨p, hp, ho⟩
  omega

/-! ### A beam pipe -/

/-- A particle at `x` with slope `xp`. -/
def part (x xp : ℚ) (id : Int) : Part ℚ := ⟨x, xp, 0, 0, 0, 0, id⟩

/-- A drift of length 1/4 with half width 1, checked at its end. -/
def pipe (s : ℚ) : Ctx ℚ where
  ap := fun x _ _ => decide (-1 < x ∧ x < 1)
  isCollimator := false
  s := s
  length := 1 / 4
  scatter := fun _ p => (p, false, [])
  track := fun _ d p => straight d p

/-- Bunch before and after the drift. -/
def piped (l : List (Part ℚ)) : State ℚ :=
  ⟨l.map (straight (1 / 4)), some (List.range l.length), l.length, 0, 1, l, 1 / 10, []⟩

/-- A loss in the last step of a component is counted and not recorded. -/
theorem last_step_violated : ∃ st' : State ℚ, doCollimation 9 (pipe (1 / 4)) (piped [part 0 0 1, part 0 (9 / 2) 2]) =
    .ok (st', none) ∧ st'.nlost = 1 ∧ st'.disposed = [] := by
  refine ⟨⟨[part 0 0 1], some [0], 2, 1, 1, [], 1 / 10, []⟩, ?_, rfl, rfl⟩
  decide +kernel

/-- Two particles of three are lost, one after each step. -/
def three : State ℚ := piped [part 0 0 1, part 0 8 2, part 2 0 3]

example : (Aligned three ∧ three.inputArray.length = three.bunch.length ∧ (0 : ℚ) < three.binSize) ∧
    (0 ≤ (pipe (1 / 4)).length ∧ (pipe (1 / 4)).length ≤ ((8 : ℕ) : ℚ) * three.binSize) ∧
    three.bunch.filter (fun p => (pipe (1 / 4)).ap p.x p.y (1 / 4)) = [part 0 0 1] ∧
    doCollimation 9 (pipe (1 / 4)) three = .ok (⟨[part 0 0 1], some [0], 3, 2, 1, [], 1 / 10,
      [⟨0, part 2 0 3⟩, ⟨2 / 10, { part (16 / 10) 8 2 with ct := 2 / 10 }⟩]⟩, none) := by
  refine ⟨⟨?_, by decide +kernel, by decide +kernel⟩, by decide +kernel, by decide +kernel, by decide +kernel⟩
  intro l hl
  rw [show three.pindex = some [0, 1, 2] from by decide +kernel, Option.some.injEq] at hl
  subst hl
  decide +kernel

example : ((3 : ℕ) - 1 : ℚ) * three.binSize < (pipe (1 / 4)).length ∧ (pipe (1 / 4)).length ≤ ((3 : ℕ) : ℚ) * three.binSize ∧
    lostInputs (pipe (1 / 4)) three = [part 0 8 2, part 2 0 3] ∧
    ∀ p ∈ lostInputs (pipe (1 / 4)) three, ∃ m < 3, insideAfter (pipe (1 / 4)) three.binSize m p = false := by
  refine ⟨by decide +kernel, by decide +kernel, by decide +kernel, ?_⟩
  rw [show lostInputs (pipe (1 / 4)) three = [part 0 8 2, part 2 0 3] from by decide +kernel]
  simp only [List.mem_cons, List.not_mem_nil, or_false, forall_eq_or_imp, forall_eq]
  exact ⟨⟨2, by omega, by decide +kernel⟩, ⟨0, by omega, by decide +kernel⟩⟩

/-- Losses at the entrance and at the exit of one component. -/
example : let c := { pipe 0 with ap := fun x _ s => decide (-1 < x ∧ x < 1 - s) }
    let c' := { c with s := 1 / 4 }
    ((doCollimation 9 c (piped [part 0 0 1, part 2 0 2, part (9 / 10) 0 3])).bind fun r => doCollimation 9 c' r.1) =
      .ub := by decide +kernel

/-- A block with jaws at ±1, with scattering that moves straight through it and absorbs particles beyond 3. -/
def block : Ctx ℚ where
  ap := fun x _ _ => decide (-1 < x ∧ x < 1)
  isCollimator := true
  s := 1 / 10
  length := 1
  scatter := fun _ p => (straight (1 / 10) p, decide (3 < p.x), if 3 < p.x then [⟨0, p⟩] else [])
  track := fun _ d p => straight d p

example : doCollimation 9 block { three with bunch := [part 0 1 1, part 2 1 2, part 4 0 3] } =
    .ok (⟨[part 0 1 1, part 2 1 2], some [0, 1], 3, 1, 1, [], 1 / 10, [⟨0, part 4 0 3⟩]⟩, none) := by decide +kernel

/-- Through the pipe and through the block. -/
example : (match journey 8 [(pipe (1 / 4), straight (1 / 4)), (block, id)] (initialise { three with pindex := some [] }
      [part 0 0 1, part 0 8 2, part (9 / 10) (1 / 10) 3, part 2 0 4]) with
    | .ok st => (st.nlost, st.bunch, st.pindex) | _ => (0, [], none)) =
      (2, [part 0 0 1, part (9 / 10 + 1 / 40) (1 / 10) 3], some [0, 2]) := by decide +kernel

/-! ## C112 -/

/-- The turn counts the visits of the component where tracking began. -/
theorem turns (a : String × K) (l : List (String × K)) :
    l.foldl countTurn (countTurn (none, 0) a) = (some a, 1 + l.count a) := by
  have : ∀ n, l.foldl countTurn (some a, n) = (some a, n + l.count a) := by
    induction l with
    | nil => intro n; rfl
    | cons b l ih =>
      intro n
      rw [List.foldl_cons]
      by_cases h : b = a
      · subst h
        have : countTurn (some b, n) b = (some b, n + 1) := by simp [countTurn]
        rw [this, ih, List.count_cons_self]
        congr 1
        omega
      · have h' : ¬ (b.1 = a.1 ∧ b.2 = a.2) := fun x => h (Prod.ext x.1 x.2)
        have : countTurn (some a, n) b = (some a, n) := by simp [countTurn, h']
        rw [this, ih, List.count_cons_of_ne (by simpa using h)]
  exact this 1

/-- In a ring without a second component of the same name and position the turn is the number of times around it. -/
theorem ring_turns (a : String × K) (l : List (String × K)) (h : a ∉ l) (n : Nat) :
    ((List.replicate (n + 1) (a :: l)).flatten.foldl countTurn (none, 0)).2 = n + 1 := by
  rw [List.replicate_succ, List.flatten_cons, List.cons_append, List.foldl_cons, turns, List.count_append]
  have : ∀ m, (List.replicate m (a :: l)).flatten.count a = m := by
    intro m
    induction m with
    | zero => simp
    | succ m ih =>
      rw [List.replicate_succ, List.flatten_cons, List.count_append, ih, List.count_cons_self, List.count_eq_zero_of_not_mem h]
      omega
  rw [this, List.count_eq_zero_of_not_mem h]
  show 1 + (0 + n) = n + 1
  omega

example : ((List.replicate 3 [("a", (0 : ℚ)), ("b", 1), ("a", 2)]).flatten.foldl countTurn (none, 0)).2 = 3 := by
  decide +kernel

/-- A second run with the same process does not begin at turn one: nothing is reset between runs. -/
theorem second_run_violated : ∃ r₁ r₂ : List (String × ℚ),
    ((r₁ ++ r₂.take 1).foldl countTurn (none, 0)).2 ≠ ((r₂.take 1).foldl countTurn (none, 0)).2 :=
  ⟨[("a", 0), ("b", 1)], [("a", 0), ("b", 1)], by decide +kernel⟩

/-! ## C113 -/

theorem runSteps_inactive (L s : K) (p : Points K) (h : p.active = false) (l : List K) : runSteps L s p l = some [] := by
  cases l <;> simp [runSteps, h]

/-- The points to come. -/
def pending (L : K) (p : Points K) : List K := p.nextS :: requested L p.entr p.cent p.exit

theorem setNextS_cases (L : K) (p : Points K) (ha : p.active = true) :
    (requested L p.entr p.cent p.exit = [] ∧ (setNextS L p).active = false) ∨
    (requested L p.entr p.cent p.exit = pending L (setNextS L p) ∧ (setNextS L p).active = true) := by
  obtain ⟨e, m, x, n, a⟩ := p
  cases e <;> cases m <;> cases x <;> simp_all [setNextS, requested, pending]

theorem runSteps_pending (L : K) (hL : 0 < L) : ∀ (l : List K) (s : K) (p : Points K) (pos : List K), p.active = true →
    (pending L p).Pairwise (· < ·) → (∀ q ∈ pending L p, q ≤ L) → s ≤ p.nextS → s < L → s + l.sum = L →
    runSteps L s p l = some pos → pos = pending L p
  | [], s, p, pos, _, _, _, _, h5, h6, _ => by
    simp at h6
    exact absurd h6 h5.ne
  | ds :: l, s, p, pos, ha, h2, h3, h4, h5, h6, h => by
    rw [runSteps, if_neg (by simp [ha])] at h
    split at h
    · cases h
    · rename_i hle
      rw [not_lt] at hle
      rw [List.sum_cons] at h6
      by_cases heq : s + ds = p.nextS
      · simp only [doProcess, if_pos heq, if_true] at h
        rcases setNextS_cases L p ha with ⟨hr, hin⟩ | ⟨hr, hac⟩
        · rw [runSteps_inactive _ _ _ hin, Option.map_some, Option.some.injEq] at h
          rw [← h, pending, hr, heq]
        · rw [Option.map_eq_some_iff] at h
          obtain ⟨q, hq, rfl⟩ := h
          rw [pending, hr] at h2 h3
          rw [List.pairwise_cons] at h2
          have hnext : p.nextS < (setNextS L p).nextS := h2.1 _ (by simp [pending])
          have := runSteps_pending L hL l (s + ds) (setNextS L p) q hac h2.2 (fun q hq => h3 q (List.mem_cons_of_mem _ hq))
            (by rw [heq]; exact hnext.le) (by rw [heq]; exact lt_of_lt_of_le hnext (h3 _ (by simp [pending])))
            (by rw [← h6]; ring) hq
          rw [this, ← hr, heq]
          rfl
      · simp only [doProcess, if_neg heq, Bool.false_eq_true, if_false] at h
        have hlt : s + ds < p.nextS := lt_of_le_of_ne (by linarith) heq
        rw [Option.map_id'] at h
        exact runSteps_pending L hL l (s + ds) p pos ha h2 h3 hlt.le
          (lt_of_lt_of_le hlt (h3 _ (by simp [pending]))) (by rw [← h6]; ring) h

/-- Whatever the steps through a component of positive length, as long as none is longer than the process allows:
hard-edge collimation is done at the points asked for, once each and in order. -/
theorem collimation_points (L : K) (hL : 0 < L) (e m x : Bool) (old : K) (l : List K) (pos : List K) (hs : l.sum = L)
    (h : runSteps L 0 (begin_ L e m x old) l = some pos) : pos = requested L e m x := by
  have h1 : 0 < L / 2 := by linarith [half_pos hL]
  have h2 : L / 2 < L := half_lt_self hL
  cases e <;> cases m <;> cases x
  · rw [runSteps_inactive _ _ _ (by simp [begin_, setNextS])] at h
    cases h
    simp [requested]
  all_goals
    have := runSteps_pending L hL l 0 _ pos (by simp [begin_, setNextS])
      (by simp [begin_, setNextS, pending, requested, h1, h2, hL])
      (by simp [begin_, setNextS, pending, requested, h2.le, hL.le])
      (by simp [begin_, setNextS, h1.le, hL.le]) hL (by simpa using hs) h
    rw [this]
    simp [begin_, setNextS, pending, requested]

example : runSteps (1 : ℚ) 0 (begin_ 1 true true true 7) [0, 1 / 4, 1 / 4, 1 / 2] = some [0, 1 / 2, 1] ∧
    [0, 1 / 4, 1 / 4, 1 / 2].sum = (1 : ℚ) := by decide +kernel

/-! ## C114 -/

/-- A transparent jaw, as long as the particle is not seen inside the aperture: the particle moves straight over the
length to go, whatever the path lengths drawn. -/
theorem transparent_straight_partial (md : Medium K) (ht : Transparent md) (ap : Aper K) (hap : ∀ x y z, ap x y z = false) :
    ∀ (fuel k : Nat) (z togo : K) (p : Part K) (r : Part K × Bool × List (Disposal K)), 0 ≤ togo →
    1 < md.e0 * (1 + p.dp) → md.e0 / 100 ≤ md.e0 * (1 + p.dp) → -(95 / 100) ≤ p.dp →
    scatterLoop md ap fuel k z togo p = some r → r = (straight togo p, false, [])
  | 0, _, _, _, _, _, _, _, _, _, h => by simp [scatterLoop] at h
  | fuel + 1, k, z, togo, p, r, h0, h1, h2, h3, h => by
    rw [scatterLoop] at h
    by_cases hg : togo > 0
    · rw [if_pos hg] at h
      simp only [ht.loss, ht.straggle, ht.scatter, hap, not_le.2 h1, not_lt.2 h2, if_false, Bool.false_eq_true, false_and,
        ite_self] at h
      have hx : ¬ (p.dp < -(95 / 100) ∨ p.dp < -1) := by
        rintro (hx | hx)
        · exact absurd hx (not_lt.2 h3)
        · have : (-1 : K) ≤ -(95 / 100) := by norm_num
          linarith
      by_cases hi : togo > md.pathLength k
      · rw [if_pos hi, if_neg (not_lt.2 hi.le), if_neg hx] at h
        have := transparent_straight_partial md ht ap hap fuel (k + 1) _ _ _ r (by linarith) (by exact h1) (by exact h2)
          (by exact h3) h
        rw [this]
        simp only [straight, Prod.mk.injEq, Part.mk.injEq, and_true, true_and]
        constructor <;> ring
      · rw [if_neg hi] at h
        by_cases hgt : md.pathLength k > togo
        · rw [if_pos hgt, Option.some.injEq] at h
          rw [← h]
          rfl
        · rw [if_neg hgt, if_neg hx] at h
          have := transparent_straight_partial md ht ap hap fuel (k + 1) _ _ _ r (by linarith) (by exact h1) (by exact h2)
            (by exact h3) h
          rw [this]
          simp only [straight, Prod.mk.injEq, Part.mk.injEq, and_true, true_and]
          constructor <;> ring
    · rw [if_neg hg, Option.some.injEq] at h
      have : togo = 0 := le_antisymm (not_lt.1 hg) h0
      rw [← h, this]
      simp [straight]

/-- A vacuum with paths of length `l`. -/
def vacuum (l : ℚ) : Medium ℚ := ⟨7000, fun _ => l, fun _ p _ => p, fun _ p _ => p, fun _ p => some p, fun _ => 1⟩

theorem vacuum_transparent (l : ℚ) : Transparent (vacuum l) := ⟨fun _ _ _ => rfl, fun _ _ _ => rfl, fun _ _ => rfl⟩

example : scatterLoop (vacuum (1 / 4)) (fun _ _ _ => false) 9 0 0 1 (part 2 (1 / 2) 1) =
    some (straight 1 (part 2 (1 / 2) 1), false, []) ∧ (1 : ℚ) < (vacuum (1 / 4)).e0 * (1 + (part 2 (1 / 2) 1).dp) := by
  decide +kernel

/-- A particle that comes out of the jaw is moved over the length to go before the last step, and so too far: here twice
the length. -/
theorem escape_violated : ∃ (md : Medium ℚ) (ap : Aper ℚ) (p : Part ℚ), Transparent md ∧
    scatterLoop md ap 9 0 0 1 p = some (straight 2 p, false, []) ∧ straight 2 p ≠ straight 1 p :=
  ⟨vacuum 3, fun x _ _ => decide (-1 < x ∧ x < 1), part (3 / 2) (-1) 1, vacuum_transparent _, by decide +kernel,
    by decide +kernel⟩

/-- In the last bin, which is shorter, particles are moved back by a whole bin and forward by the length of that bin:
here a particle in the jaw of a transparent collimator changes its place. -/
theorem last_bin_violated : ∃ (c : Ctx ℚ) (st st' : State ℚ), c.isCollimator = true ∧
    (∀ k p, (c.scatter k p).2.1 = false → c.scatter k p = (straight (1 / 20) p, false, [])) ∧
    doCollimation 9 c st = .ok (st', none) ∧ st'.nlost = 0 ∧ st'.bunch ≠ st.bunch :=
  ⟨{ block with scatter := fun _ p => (straight (1 / 20) p, false, []), s := 1 / 4 },
    { three with bunch := [part 3 1 1], pindex := none },
    { three with bunch := [part (59 / 20) 1 1], pindex := none, inputArray := [], nlost := 0 }, rfl, fun _ _ _ => rfl,
    by decide +kernel, rfl, by decide +kernel⟩

/-! ## C115 -/

/-- In a jaw that does not deflect: a particle that loses all its energy is recorded where it is, if none is lost in
other ways. -/
theorem stopped_position_partial (md : Medium K) (hu : Undeflecting md) (ap : Aper K) (hs : ∀ k p, md.scatter k p ≠ none) :
    ∀ (fuel k : Nat) (z togo : K) (p : Part K) (r : Part K × Bool × List (Disposal K)),
    (∀ k p s, -(95 / 100) ≤ p.dp → 1 < md.e0 * (1 + (md.energyLoss k p s).dp) → -(95 / 100) ≤ (md.energyLoss k p s).dp) →
    -(95 / 100) ≤ p.dp →
    scatterLoop md ap fuel k z togo p = some r →
    ∀ d ∈ r.2.2, d.p.x = p.x + (d.pos - z) * p.xp ∧ d.p.y = p.y + (d.pos - z) * p.yp
  | 0, _, _, _, _, _, _, _, h => by simp [scatterLoop] at h
  | fuel + 1, k, z, togo, p, r, hd, hp, h => by
    rw [scatterLoop] at h
    by_cases hg : togo > 0
    · rw [if_pos hg] at h
      simp only [hu.straggle, hu.parallel, mul_one] at h
      generalize hst : (if togo > md.pathLength k then md.pathLength k else togo) = step at h
      generalize hq : md.energyLoss k ({ p with x := p.x + step * p.xp, y := p.y + step * p.yp } : Part K) step = q at h
      have hpos : q.x = p.x + step * p.xp ∧ q.y = p.y + step * p.yp ∧ q.xp = p.xp ∧ q.yp = p.yp := by
        rw [← hq]
        exact hu.loss _ _ _
      obtain ⟨q1, q2, q3, q4⟩ := hpos
      split at h
      · rw [Option.some.injEq] at h
        rw [← h]
        intro d hd
        simp only [List.mem_singleton] at hd
        rw [hd]
        simp only [q1, q2]
        constructor <;> ring
      · rename_i he
        have hq95 : -(95 / 100) ≤ q.dp := by
          rw [← hq]
          refine hd k _ step hp ?_
          rw [hq]
          exact not_le.1 he
        split at h
        · rw [Option.some.injEq] at h
          rw [← h]
          simp
        · split at h
          · rw [Option.some.injEq] at h
            rw [← h]
            simp
          · split at h
            · rw [Option.some.injEq] at h
              rw [← h]
              simp
            · have hsc : (if togo > md.pathLength k then md.scatter k q else some q) = some q := by
                split
                · cases hx : md.scatter k q with
                  | none => exact absurd hx (hs k q)
                  | some t => rw [hu.scatter k q t hx]
                · rfl
              rw [hsc] at h
              simp only at h
              rw [if_neg] at h
              · have ih := stopped_position_partial md hu ap hs fuel (k + 1) _ _ q r hd hq95 h
                intro d hdm
                obtain ⟨i1, i2⟩ := ih d hdm
                rw [i1, i2, q1, q2, q3, q4]
                constructor <;> ring
              · rintro (hx | hx)
                · exact absurd hx (not_lt.2 hq95)
                · have : (-1 : K) ≤ -(95 / 100) := by norm_num
                  linarith
    · rw [if_neg hg, Option.some.injEq] at h
      rw [← h]
      simp

/-- A jaw where half of the momentum is lost in each step. -/
def absorber : Medium ℚ where
  e0 := 7
  pathLength _ := 1 / 8
  energyLoss _ p s := { p with dp := if s ≤ 0 then p.dp else if p.dp < -(3 / 4) then -1 else p.dp - 1 / 2 }
  straggle _ p _ := p
  scatter _ p := some p
  zfac _ := 1

example : (scatterLoop absorber (fun _ _ _ => false) 9 0 0 1 (part 2 (1 / 2) 1)).map (fun r => r.2.2.map fun d => (d.pos, d.p.x)) =
    some [(1 / 4, 2 + 1 / 8)] := by decide +kernel

example : Undeflecting absorber ∧ (∀ k p, absorber.scatter k p ≠ none) ∧
    ∀ k p s, -(95 / 100) ≤ p.dp → 1 < absorber.e0 * (1 + (absorber.energyLoss k p s).dp) →
      -(95 / 100) ≤ (absorber.energyLoss k p s).dp := by
  refine ⟨⟨fun _ _ _ => ⟨rfl, rfl, rfl, rfl⟩, fun _ _ _ => rfl, fun _ p q h => (Option.some.inj h).symm, fun _ => rfl⟩,
    fun _ _ h => (by cases h), fun k p s _ h => ?_⟩
  have : absorber.e0 = 7 := rfl
  rw [this] at h
  linarith

/-- A particle lost in an interaction is recorded one step beyond its place; the record may be beyond the end of the
collimator. -/
theorem absorbed_position_violated : ∃ (md : Medium ℚ) (ap : Aper ℚ) (p q : Part ℚ) (d : Disposal ℚ), Undeflecting md ∧
    scatterLoop md ap 9 0 0 1 p = some (q, true, [d]) ∧ d.p.x ≠ p.x + d.pos * p.xp ∧ 1 < d.pos := by
  refine ⟨{ vacuum (3 / 4) with scatter := fun _ _ => none }, fun _ _ _ => false, part 2 1 1,
    { part (11 / 4) 1 1 with ct := 3 / 4 }, ⟨3 / 2, { part (11 / 4) 1 1 with ct := 3 / 4 }⟩, ?_, by decide +kernel,
    by decide +kernel, by decide +kernel⟩
  exact ⟨fun _ _ _ => ⟨rfl, rfl, rfl, rfl⟩, fun _ _ _ => rfl, fun _ _ _ h => (nomatch h), fun _ => rfl⟩

/-- A particle absorbed because little of its energy is left is not recorded. -/
theorem absorbed_unrecorded_violated : ∃ (md : Medium ℚ) (p q : Part ℚ), Undeflecting md ∧
    scatterLoop md (fun _ _ _ => false) 9 0 0 1 p = some (q, true, []) := by
  refine ⟨{ vacuum 3 with energyLoss := fun _ p _ => { p with dp := -(995 / 1000) } }, part 2 1 1,
    { part 3 1 1 with dp := -(995 / 1000) }, ?_, by decide +kernel⟩
  exact ⟨fun _ _ _ => ⟨rfl, rfl, rfl, rfl⟩, fun _ _ _ => rfl, fun _ p q h => (Option.some.inj h).symm, fun _ => rfl⟩

/-! ## C116 -/

/-- As long as the process makes its index lists itself each is deleted once, in order. -/
theorem own_lists_partial (l : List IdxOp) (h : .give ∉ l) :
    (lifetime l).freed = (List.range (lifetime l).made).map .own := by
  have key : ∀ (l : List IdxOp) (hp : Heap), .give ∉ l →
      ((hp.ptr = .null ∧ hp.freed = (List.range hp.made).map .own) ∨
        (∃ k, hp.ptr = .own k ∧ hp.made = k + 1 ∧ hp.freed = (List.range k).map .own)) →
      ((l.foldl idxStep hp).ptr = .null ∧ (l.foldl idxStep hp).freed = (List.range (l.foldl idxStep hp).made).map .own) ∨
        (∃ k, (l.foldl idxStep hp).ptr = .own k ∧ (l.foldl idxStep hp).made = k + 1 ∧
          (l.foldl idxStep hp).freed = (List.range k).map .own) := by
    intro l
    induction l with
    | nil => exact fun _ _ h => h
    | cons o l ih =>
      intro hp hn hi
      rw [List.foldl_cons]
      refine ih _ (fun hx => hn (List.mem_cons_of_mem _ hx)) ?_
      cases o with
      | give => exact absurd List.mem_cons_self hn
      | on =>
        rcases hi with ⟨a, b⟩ | ⟨k, a, b, c⟩
        · right
          exact ⟨hp.made, by simp [idxStep, a], by simp [idxStep, a], by simp [idxStep, a, b]⟩
        · right
          exact ⟨k, by simp [idxStep, a], by simp [idxStep, a, b], by simp [idxStep, a, c]⟩
      | off =>
        rcases hi with ⟨a, b⟩ | ⟨k, a, b, c⟩
        · left
          exact ⟨by simp [idxStep, a], by simp [idxStep, a, b]⟩
        · left
          exact ⟨by simp [idxStep, a], by simp [idxStep, a, b, c, List.range_succ]⟩
  rcases key l ⟨.null, 0, []⟩ h (.inl ⟨rfl, rfl⟩) with ⟨a, b⟩ | ⟨k, a, b, c⟩
  · simp [lifetime, destroy, a, b]
  · simp [lifetime, destroy, a, b, c, List.range_succ]

example : (lifetime [.on, .on, .off, .on]).freed = [.own 0, .own 1] ∧ (lifetime [.on, .on, .off, .on]).made = 2 := by decide

/-- A list of the user is deleted by the process. -/
theorem user_list_violated : ∃ l, .user ∈ (lifetime l).freed := ⟨[.give], by decide⟩

/-- A list of the process is never deleted if the user gives one after. -/
theorem leak_violated : ∃ l, .own 0 ∉ (lifetime l).freed ∧ 0 < (lifetime l).made := ⟨[.on, .give], by decide⟩

end Verif.Collimation
