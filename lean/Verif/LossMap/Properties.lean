import Mathlib.Algebra.Order.Ring.Rat
import Mathlib.Algebra.Field.Rat
import Verif.LossMap.Lemmas

/-!
# Properties of loss maps
-/

set_option linter.unusedSectionVars false

namespace Verif.LossMap
open Verif Verif.LossMap.Spec

variable {K : Type} [Field K] [LinearOrder K]

theorem lost_one {fuel : Nat} {warm : List (K × K)} [IsStrictOrderedRing K] {ls : List (Comp K × K × Int)}
    {dead sorted : List (LossData K)} (hd : disposeAll fuel warm ls = some dead) (hs : SortedFrom dead sorted) :
    (∀ d ∈ sorted, d.lost = 1) ∧ sorted.length = ls.length := by
  have hf := disposeAll_forall hd
  refine ⟨fun d h => ?_, by rw [hs.1.length_eq, hf.length_eq]⟩
  obtain ⟨l, -, r⟩ := forall2_mem hf d (hs.1.mem_iff.1 h)
  exact r.2.2.2.1

/-! ## C44: every lost particle is counted once -/

variable [IsStrictOrderedRing K]

/-- With bins of ten centimetres the counts sum up to the number of losses. -/
theorem tencm_total_partial (fuel : Nat) (warm : List (K × K)) (ls : List (Comp K × K × Int))
    (dead sorted : List (LossData K)) (hd : disposeAll fuel warm ls = some dead) (hs : SortedFrom dead sorted) :
    ∃ out, finalise .tencm sorted [] = .ok out ∧ (out.map (·.lost)).sum = ls.length := by
  obtain ⟨h1, hn⟩ := lost_one hd hs
  cases sorted with
  | nil => exact ⟨[], rfl, by simpa using hn⟩
  | cons it l =>
    refine ⟨_, finalise_cons .tencm it l h1, ?_⟩
    rw [grp_total .tencm l [] _ fun x hx => h1 x (List.mem_cons_of_mem _ hx), ← hn]
    simp [start, h1 it (by simp)]
    omega

/-- In the other two modes they sum up to one more. -/
theorem nearest_total_violated (m : Mode) (hm : m ≠ .tencm) (fuel : Nat) (warm : List (K × K))
    (ls : List (Comp K × K × Int)) (hne : ls ≠ [])
    (dead sorted : List (LossData K)) (hd : disposeAll fuel warm ls = some dead) (hs : SortedFrom dead sorted) :
    ∃ out, finalise m sorted [] = .ok out ∧ (out.map (·.lost)).sum = ls.length + 1 := by
  obtain ⟨h1, hn⟩ := lost_one hd hs
  cases sorted with
  | nil => exact absurd (List.length_eq_zero_iff.1 hn.symm) hne
  | cons it l =>
    refine ⟨_, finalise_cons m it l h1, ?_⟩
    rw [grp_total m l [] _ fun x hx => h1 x (List.mem_cons_of_mem _ hx), ← hn]
    have : (start m it).lost = 2 := by
      cases m
      · simp [start, h1 it (by simp)]
      · simp [start, h1 it (by simp)]
      · exact absurd rfl hm
    simp [this]
    omega

/-- For components in a line with a name each, every entry of the bins of ten centimetres counts the losses in its
component and interval, no two entries are the same, and every loss has an entry. -/
theorem tencm_counts_partial (fuel : Nat) (warm : List (K × K)) (ls : List (Comp K × K × Int))
    (hl : Line (ls.map (·.1))) (hp : ∀ l ∈ ls, 0 ≤ l.2.1 ∧ l.2.1 ≤ l.1.len)
    (dead sorted : List (LossData K)) (hd : disposeAll fuel warm ls = some dead) (hs : SortedFrom dead sorted) :
    ∃ out, finalise .tencm sorted [] = .ok out ∧
      (∀ o ∈ out, o.lost = lostIn ls o.elementName o.interval (o.interval + 1 / 10)) ∧
      (out.map fun o => (o.elementName, o.interval)).Nodup ∧
      ∀ l ∈ ls, ∃ o ∈ out, o.elementName = l.1.qname ∧ o.interval ≤ l.2.1 ∧ l.2.1 < o.interval + 1 / 10 := by
  obtain ⟨h1, hn⟩ := lost_one hd hs
  have hf := disposeAll_forall hd
  cases sorted with
  | nil =>
    have : ls = [] := List.length_eq_zero_iff.1 hn.symm
    subst this
    exact ⟨[], rfl, by simp, by simp, by simp⟩
  | cons it t =>
    obtain ⟨F, o, e, hi⟩ := finalise_inv .tencm it t h1 (contig_of_sorted .tencm (by simp) hd hs hl hp)
    refine ⟨F ++ [o], e, fun q hq => ?_, hi.nodup, fun l hll => ?_⟩
    · rw [hi.count q hq]
      have hx : excess .tencm it (keyOf .tencm q) = 0 := by simp [excess]
      rw [hx, Nat.add_zero]
      obtain ⟨d, hdm, hk⟩ := hi.src q hq
      obtain ⟨l0, -, r0⟩ := forall2_mem hf d (hs.1.mem_iff.1 hdm)
      obtain ⟨-, -, -, -, k0, ik0, -, -⟩ := r0
      have hq2 : q.interval = (k0 : K) / 10 := by
        rw [← ik0]
        exact (congrArg Prod.snd hk).symm
      unfold lostIn
      rw [forall2_count hf (q := fun d => decide (keyOf .tencm d = keyOf .tencm q)) ?_]
      · unfold cnt
        exact hs.1.countP_eq _
      · rintro l d ⟨n, -, -, -, k, ik, a, b⟩
        rw [decide_eq_decide]
        simp only [keyOf, Prod.mk.injEq, n]
        constructor
        · rintro ⟨g1, g2, g3⟩
          refine ⟨g1, ?_⟩
          rw [hq2] at g2 g3 ⊢
          rw [ik] at a b ⊢
          rw [interval_unique a b g2 g3]
        · rintro ⟨g1, g2⟩
          exact ⟨g1, by rw [← g2]; exact a, by rw [← g2]; exact b⟩
    · obtain ⟨d, hdm, n, -, -, -, k, ik, a, b⟩ := forall2_mem' hf l hll
      obtain ⟨q, hq, hk⟩ := hi.all d (hs.1.mem_iff.2 hdm)
      refine ⟨q, hq, ?_⟩
      have e1 : q.elementName = d.elementName := congrArg Prod.fst hk
      have e2 : q.interval = d.interval := congrArg Prod.snd hk
      rw [e1, e2, n]
      exact ⟨rfl, a, b⟩

/-- By elements the counts are those of the elements, apart from one too many in the entry of the first record. -/
theorem nearest_counts_partial (fuel : Nat) (warm : List (K × K)) (ls : List (Comp K × K × Int))
    (hl : Line (ls.map (·.1))) (hp : ∀ l ∈ ls, 0 ≤ l.2.1 ∧ l.2.1 ≤ l.1.len)
    (dead : List (LossData K)) (h : LossData K) (t : List (LossData K)) (hd : disposeAll fuel warm ls = some dead)
    (hs : SortedFrom dead (h :: t)) :
    ∃ out, finalise .nearestelement (h :: t) [] = .ok out ∧
      (∀ o ∈ out, o.lost = lostAt ls o.elementName + if o.elementName = h.elementName then 1 else 0) ∧
      (out.map fun o => o.elementName).Nodup ∧ ∀ l ∈ ls, ∃ o ∈ out, o.elementName = l.1.qname := by
  obtain ⟨h1, hn⟩ := lost_one hd hs
  have hf := disposeAll_forall hd
  obtain ⟨F, o, e, hi⟩ := finalise_inv .nearestelement h t h1 (contig_of_sorted .nearestelement (by simp) hd hs hl hp)
  refine ⟨F ++ [o], e, fun q hq => ?_, ?_, fun l hll => ?_⟩
  · rw [hi.count q hq]
    congr 1
    · unfold lostAt
      rw [forall2_count hf (q := fun d => decide (keyOf .nearestelement d = keyOf .nearestelement q)) ?_]
      · unfold cnt
        exact hs.1.countP_eq _
      · rintro l d ⟨n, -⟩
        simp [keyOf, n]
    · simp [excess, keyOf]
  · have := hi.nodup
    have e2 : (F ++ [o]).map (keyOf .nearestelement) = ((F ++ [o]).map fun o => o.elementName).map fun n => (n, (0 : K)) := by
      rw [List.map_map]
      rfl
    rw [e2] at this
    exact List.Pairwise.of_map _ (fun a b h e => h (by rw [e])) this
  · obtain ⟨d, hdm, n, -⟩ := forall2_mem' hf l hll
    obtain ⟨q, hq, hk⟩ := hi.all d (hs.1.mem_iff.2 hdm)
    exact ⟨q, hq, (congrArg Prod.fst hk).trans n⟩

/-- By positions the counts are those of the positions along the lattice, apart from one too many in the entry of the
first record. -/
theorem precise_counts_partial (fuel : Nat) (warm : List (K × K)) (ls : List (Comp K × K × Int))
    (hl : Line (ls.map (·.1))) (hp : ∀ l ∈ ls, 0 ≤ l.2.1 ∧ l.2.1 ≤ l.1.len)
    (dead : List (LossData K)) (h : LossData K) (t : List (LossData K)) (hd : disposeAll fuel warm ls = some dead)
    (hs : SortedFrom dead (h :: t)) :
    ∃ out, finalise .precise (h :: t) [] = .ok out ∧
      (∀ o ∈ out, o.lost = lostThere ls o.position + if o.position = h.position then 1 else 0) ∧
      (out.map fun o => o.position).Nodup ∧ ∀ l ∈ ls, ∃ o ∈ out, o.position = l.1.s + l.2.1 := by
  obtain ⟨h1, hn⟩ := lost_one hd hs
  have hf := disposeAll_forall hd
  obtain ⟨F, o, e, hi⟩ := finalise_inv .precise h t h1 (contig_precise hd hs hl hp)
  refine ⟨F ++ [o], e, fun q hq => ?_, ?_, fun l hll => ?_⟩
  · rw [hi.count q hq]
    congr 1
    · unfold lostThere
      rw [forall2_count hf (q := fun d => decide (keyOf .precise d = keyOf .precise q)) ?_]
      · unfold cnt
        exact hs.1.countP_eq _
      · rintro l d ⟨-, -, pd, -⟩
        simp [keyOf, pd, add_comm]
    · simp [excess, keyOf]
  · have := hi.nodup
    have e2 : (F ++ [o]).map (keyOf .precise) = ((F ++ [o]).map fun o => o.position).map fun n => ("", n) := by
      rw [List.map_map]
      rfl
    rw [e2] at this
    exact List.Pairwise.of_map _ (fun a b h e => h (by rw [e])) this
  · obtain ⟨d, hdm, -, -, pd, -⟩ := forall2_mem' hf l hll
    obtain ⟨q, hq, hk⟩ := hi.all d (hs.1.mem_iff.2 hdm)
    exact ⟨q, hq, ((congrArg Prod.snd hk).trans pd).trans (add_comm _ _)⟩

/-- `Dispose` ends for a position from zero on, within the passes for it. -/
theorem dispose_ends (warm : List (K × K)) (c : Comp K) (pos : K) (p : Int) (fuel : Nat) (h0 : 0 ≤ pos)
    (h1 : pos < (fuel : K) / 10) : ∃ d, record fuel warm c pos p = some d ∧ d.position = c.s + pos ∧
      d.interval ≤ pos ∧ pos < d.interval + 1 / 10 := by
  obtain ⟨i, hi⟩ := findInterval_ends pos fuel 0 (by simpa using h0) (by simpa using h1)
  have h2 := findInterval_spec pos fuel 0 i hi
  obtain ⟨k, -, a, b⟩ := h2
  rw [Nat.cast_zero, zero_div] at hi
  refine ⟨_, by simp only [record, hi, Option.map_some]; rfl, ?_, a, b⟩
  exact add_comm _ _

/-- A loss at a position below zero keeps `Dispose` from ending. -/
theorem dispose_negative_violated (warm : List (K × K)) (c : Comp K) (pos : K) (p : Int) (h : pos < 0) (fuel : Nat) :
    record fuel warm c pos p = none := by
  have := findInterval_negative pos h fuel 0
  rw [Nat.cast_zero, zero_div] at this
  simp [record, this]

/-! ### Witnesses -/

/-- The entries, none if there is no result. -/
def okD (r : Outcome Unit (List (LossData ℚ))) : List (LossData ℚ) := match r with | .ok o => o | _ => []

/-- The records, none if `Dispose` does not end. -/
def deadOf (ls : List (Comp ℚ × ℚ × Int)) : List (LossData ℚ) := (disposeAll 3 [] ls).getD []

def qf1 : Comp ℚ := ⟨"Quadrupole.QF", "QF", "Quadrupole", 0, 1⟩
def qf2 : Comp ℚ := ⟨"Quadrupole.QF", "QF", "Quadrupole", 10, 1⟩
def drA : Comp ℚ := ⟨"Drift.A", "A", "Drift", 0, 1⟩
def drB : Comp ℚ := ⟨"Drift.B", "B", "Drift", 1, 1⟩
def mkM : Comp ℚ := ⟨"Marker.M", "M", "Marker", 0, 0⟩

/-- Two components of the same name at different places, with a loss in each: the map has one entry, at the first place,
for both. -/
theorem tencm_same_name_violated : ∃ dead out, disposeAll 3 [] [(qf1, 1 / 20, 1), (qf2, 1 / 20, 2)] = some dead ∧
    SortedFrom dead dead ∧ finalise .tencm dead [] = .ok out ∧ out.map (fun o => (o.s, o.lost)) = [(0, 2)] := by
  refine ⟨deadOf [(qf1, 1 / 20, 1), (qf2, 1 / 20, 2)],
    okD (finalise .tencm (deadOf [(qf1, 1 / 20, 1), (qf2, 1 / 20, 2)]) []),
    by decide +kernel, ⟨.refl _, by decide +kernel⟩, by decide +kernel, by decide +kernel⟩

/-- A second `Finalise` does not give the counts again. -/
theorem finalise_twice_violated : ∃ dead out out',
    disposeAll 3 [] [(drA, 0, 1), (drB, 0, 2), (drB, 0, 3), (drB, 0, 4)] = some dead ∧ SortedFrom dead dead ∧
      finalise .tencm dead [] = .ok out ∧ finalise .tencm dead out = .ok out' ∧
      out.map (fun o => (o.elementName, o.lost)) = [("Drift.A", 1), ("Drift.B", 3)] ∧
      out'.map (fun o => (o.elementName, o.lost)) = [("Drift.A", 2), ("Drift.B", 3), ("Drift.B", 1)] := by
  let ls : List (Comp ℚ × ℚ × Int) := [(drA, 0, 1), (drB, 0, 2), (drB, 0, 3), (drB, 0, 4)]
  refine ⟨deadOf ls, okD (finalise .tencm (deadOf ls) []),
    okD (finalise .tencm (deadOf ls) (okD (finalise .tencm (deadOf ls) []))),
    by decide +kernel, ⟨.refl _, by decide +kernel⟩, by decide +kernel, by decide +kernel, by decide +kernel,
    by decide +kernel⟩

/-- With a component of no length before another, one order that `sort` may produce splits an interval. -/
theorem tencm_marker_violated : ∃ dead out, disposeAll 3 [] [(drA, 0, 1), (mkM, 0, 2), (drA, 1 / 20, 3)] = some dead ∧
    SortedFrom dead dead ∧ finalise .tencm dead [] = .ok out ∧
    out.map (fun o => (o.elementName, o.interval, o.lost)) =
        [("Drift.A", 0, 1), ("Marker.M", 0, 1), ("Drift.A", 0, 1)] := by
  refine ⟨deadOf [(drA, 0, 1), (mkM, 0, 2), (drA, 1 / 20, 3)],
    okD (finalise .tencm (deadOf [(drA, 0, 1), (mkM, 0, 2), (drA, 1 / 20, 3)]) []),
    by decide +kernel, ⟨.refl _, by decide +kernel⟩, by decide +kernel, by decide +kernel⟩

/-- A case meeting the hypotheses of the counts. -/
example : ∃ dead, disposeAll 3 [] [(drA, 0, 1), (drA, 1 / 20, 2), (drB, 1 / 5, 3)] = some dead ∧ SortedFrom dead dead ∧
    Line ([(drA, (0 : ℚ), (1 : Int)), (drA, 1 / 20, 2), (drB, 1 / 5, 3)].map (·.1)) ∧
    ∀ l ∈ [(drA, (0 : ℚ), (1 : Int)), (drA, 1 / 20, 2), (drB, 1 / 5, 3)], 0 ≤ l.2.1 ∧ l.2.1 ≤ l.1.len := by
  refine ⟨deadOf [(drA, 0, 1), (drA, 1 / 20, 2), (drB, 1 / 5, 3)], by decide +kernel, ⟨.refl _, by decide +kernel⟩, ?_,
    by decide +kernel⟩
  unfold Line
  decide +kernel

/-! ## C109: kind of a loss -/

omit [IsStrictOrderedRing K] in
theorem temp_fold (c : Comp K) : ∀ (warm : List (K × K)) (t : Temp),
    warm.foldl (fun t r => if c.type ≠ "Collimator" ∧ c.s ≥ r.1 ∧ c.s ≤ r.2 then Temp.warm else t) t =
      if c.type ≠ "Collimator" ∧ ∃ r ∈ warm, r.1 ≤ c.s ∧ c.s ≤ r.2 then Temp.warm else t
  | [], t => by simp
  | r :: w, t => by
    rw [List.foldl_cons, temp_fold c w]
    by_cases h : c.type = "Collimator"
    · simp [h]
    · by_cases h1 : r.1 ≤ c.s ∧ c.s ≤ r.2
      · simp [h, h1]
      · have h2 : ¬ (c.type ≠ "Collimator" ∧ c.s ≥ r.1 ∧ c.s ≤ r.2) := fun x => h1 x.2
        rw [if_neg h2]
        have h3 : (∃ r' ∈ r :: w, r'.1 ≤ c.s ∧ c.s ≤ r'.2) ↔ ∃ r' ∈ w, r'.1 ≤ c.s ∧ c.s ≤ r'.2 := by
          simp only [List.mem_cons, exists_eq_or_imp, h1, false_or]
        simp only [h3]

/-- The kind of a loss is decided by the type of the component and where the component begins. -/
theorem temperature_spec (warm : List (K × K)) (c : Comp K) :
    (temperature warm c = .collimator ↔ c.type = "Collimator") ∧
    (temperature warm c = .warm ↔ c.type ≠ "Collimator" ∧ ∃ r ∈ warm, r.1 ≤ c.s ∧ c.s ≤ r.2) ∧
    (temperature warm c = .cold ↔ c.type ≠ "Collimator" ∧ ∀ r ∈ warm, ¬ (r.1 ≤ c.s ∧ c.s ≤ r.2)) := by
  unfold temperature
  simp only [temp_fold]
  by_cases h : c.type = "Collimator"
  · simp [h]
  · by_cases h1 : ∃ r ∈ warm, r.1 ≤ c.s ∧ c.s ≤ r.2
    · rw [if_pos ⟨h, h1⟩]
      refine ⟨by simp [h], by simp [h, h1], ?_⟩
      obtain ⟨r, hr, hc⟩ := h1
      simp only [reduceCtorEq, false_iff, not_and, not_forall]
      exact fun _ => ⟨r, hr, by simpa using hc⟩
    · rw [if_neg (fun x => h1 x.2), if_neg h]
      refine ⟨by simp [h], by simp [h1], ?_⟩
      simp only [true_iff]
      exact ⟨h, fun r hr hc => h1 ⟨r, hr, hc⟩⟩

/-- For components that lie in one region or outside all, the kind is that of the place of the loss. -/
theorem temperature_place_partial (warm : List (K × K)) (c : Comp K) (pos : K) (hc : c.type ≠ "Collimator")
    (h0 : 0 ≤ pos) (h1 : pos ≤ c.len)
    (hr : ∀ r ∈ warm, (r.1 ≤ c.s ∧ c.s + c.len ≤ r.2) ∨ c.s + c.len < r.1 ∨ r.2 < c.s) :
    temperature warm c = .warm ↔ ∃ r ∈ warm, r.1 ≤ c.s + pos ∧ c.s + pos ≤ r.2 := by
  rw [(temperature_spec warm c).2.1]
  constructor
  · rintro ⟨-, r, hrm, a, b⟩
    refine ⟨r, hrm, by linarith, ?_⟩
    rcases hr r hrm with h | h | h <;> linarith
  · rintro ⟨r, hrm, a, b⟩
    refine ⟨hc, r, hrm, ?_⟩
    rcases hr r hrm with h | h | h
    · exact ⟨h.1, by linarith⟩
    · exact absurd h (by linarith)
    · exact absurd h (by linarith)

/-- A loss in a warm region, in a component that begins before it, is called cold. -/
theorem temperature_place_violated :
    let c : Comp ℚ := ⟨"Drift.D", "D", "Drift", 0, 10⟩
    ∃ d, record 100 [(5, 8)] c 6 1 = some d ∧ 5 ≤ d.position ∧ d.position ≤ 8 ∧ d.temperature = .cold := by
  refine ⟨⟨"Drift.D", 1, 0, 6, 6, 10, 1, .cold, 0⟩, by decide +kernel, by decide +kernel, by decide +kernel, rfl⟩

/-! ## C110: detailed losses -/

/-- All losses handed over, one after the other. -/
def detailedAll (ids : List (String → Bool)) : List (Comp K × K × Int × Int) → List (LossData K) → List (LossData K)
  | [], dead => dead
  | l :: ls, dead => detailedAll ids ls (disposeDetailed ids dead l.1 l.2.1 l.2.2.1 l.2.2.2)

/-- The losses recorded are those in components whose name matches a pattern, in order, with place, particle and turn. -/
theorem detailed_filter (ids : List (String → Bool)) : ∀ (ls : List (Comp K × K × Int × Int)) (dead : List (LossData K)),
    (detailedAll ids ls dead).map (fun d => (d.elementName, d.s, d.position, d.p, d.turn)) =
      dead.map (fun d => (d.elementName, d.s, d.position, d.p, d.turn)) ++
      (ls.filter fun l => ids.any fun m => m l.1.name).map fun l => (l.1.name, l.1.s, l.2.1, l.2.2.1, l.2.2.2)
  | [], dead => by simp [detailedAll]
  | l :: ls, dead => by
    rw [detailedAll, detailed_filter ids ls]
    unfold disposeDetailed
    rw [List.filter_cons]
    split <;> simp

/-- The headings of the table are not those of its columns: `id` stands under `type` and `turn` under `id`. -/
theorem detailed_columns_violated : detailedHeader ≠ detailedRow ∧ detailedRow[7]? = some "id" ∧
    detailedHeader[7]? = some "type" ∧ detailedRow[8]? = some "turn" ∧ detailedHeader[8]? = some "id" := by
  decide

example : detailedAll [fun s => s == "TCP"] [((⟨"Collimator.TCP", "TCP", "Collimator", 1, 1⟩ : Comp ℚ), 0, 4, 2),
    ((⟨"Drift.D", "D", "Drift", 2, 1⟩ : Comp ℚ), 0, 5, 2)] [] ≠ [] := by decide +kernel

end Verif.LossMap
