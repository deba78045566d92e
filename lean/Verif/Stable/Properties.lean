import Mathlib.Data.List.Basic
import Verif.Stable.Spec

/-! # Properties of the selection of stable orbits (C367, C368) -/

namespace Verif.Stable

open Verif Spec

variable {P : Type}

/-- Particles with their numbers, sent through one component, and through many. -/
def sendOne (e : Elem P) (q : P × Nat) : Option (P × Nat) := if e.inside (e.before q.1) then some (e.after (e.before q.1), q.2) else none

def send : List (Elem P) → List (P × Nat) → List (P × Nat)
  | [], L => L
  | e :: l, L => send l (L.filterMap (sendOne e))

theorem send_nil (l : List (Elem P)) : send l [] = [] := by
  induction l with
  | nil => rfl
  | cons e l ih => exact ih

def Inv (n : Nat) (st : St P) (L : List (P × Nat)) : Prop := st.bunch = L.map (·.1) ∧ st.index = L.map (·.2) ∧ st.nlost + L.length = n

theorem zip_maps (L : List (P × Nat)) (f : P → P) : ((L.map (·.1)).map f).zip (L.map (·.2)) = L.map fun q => (f q.1, q.2) := by
  induction L with
  | nil => rfl
  | cons a L ih => simp only [List.map_cons, List.zip_cons_cons, ih]

theorem filterMap_send (e : Elem P) (L : List (P × Nat)) :
    L.filterMap (sendOne e) = ((L.map fun q => (e.before q.1, q.2)).filter fun q => e.inside q.1).map fun q => (e.after q.1, q.2) := by
  induction L with
  | nil => rfl
  | cons a L ih =>
    rw [List.filterMap_cons, List.map_cons, List.filter_cons, ih]
    unfold sendOne
    by_cases h : e.inside (e.before a.1) = true
    · simp only [h, if_true, List.map_cons]
    · simp only [h, if_false]
      rfl

theorem pass_spec (n : Nat) (e : Elem P) (st : St P) (L : List (P × Nat)) (h : Inv n st L) :
    (L ≠ [] ∧ L.filterMap (sendOne e) = [] ∧ pass n e st = .throw .loss) ∨ ((L = [] ∨ L.filterMap (sendOne e) ≠ []) ∧ ∃ st', pass n e st = .ok st' ∧ Inv n st' (L.filterMap (sendOne e))) := by
  obtain ⟨h1, h2, h3⟩ := h
  unfold pass collimate
  simp only [h1, h2, zip_maps, List.length_map]
  by_cases ha : (((L.map (·.1)).map e.before).all e.inside) = true
  · right
    have hall : ∀ q ∈ L, e.inside (e.before q.1) = true := by
      intro q hq
      rw [List.all_eq_true] at ha
      exact ha _ (List.mem_map.mpr ⟨_, List.mem_map.mpr ⟨q, hq, rfl⟩, rfl⟩)
    have hf : L.filterMap (sendOne e) = L.map fun q => (e.after (e.before q.1), q.2) := by
      rw [filterMap_send, List.filter_eq_self.mpr]
      · rw [List.map_map]
        rfl
      · intro q hq
        obtain ⟨r, hr, rfl⟩ := List.mem_map.mp hq
        exact hall r hr
    refine ⟨?_, ?_⟩
    · rw [hf]
      cases L with
      | nil => exact Or.inl rfl
      | cons a L => exact Or.inr (by simp)
    · rw [if_pos ha]
      refine ⟨_, rfl, ?_, ?_, ?_⟩
      · rw [hf]; simp only [List.map_map]; rfl
      · rw [hf]; simp only [List.map_map]; rfl
      · rw [hf, List.length_map]; exact h3
  · rw [if_neg ha, if_neg (Nat.lt_irrefl _)]
    have hlen : (L.filterMap (sendOne e)).length = ((L.map fun q => (e.before q.1, q.2)).filter fun q => e.inside q.1).length := by
      rw [filterMap_send, List.length_map]
    have hle : ((L.map fun q => (e.before q.1, q.2)).filter fun q => e.inside q.1).length ≤ L.length := by
      refine (List.length_filter_le _ _).trans ?_
      rw [List.length_map]
    by_cases hz : ((L.map fun q => (e.before q.1, q.2)).filter fun q => e.inside q.1).length = 0
    · left
      refine ⟨?_, ?_, ?_⟩
      · rintro rfl
        exact ha rfl
      · exact List.length_eq_zero_iff.mp (hlen.trans hz)
      · rw [if_pos (by omega)]
        rfl
    · right
      refine ⟨Or.inr ?_, ?_⟩
      · intro he
        rw [he] at hlen
        exact hz hlen.symm
      · rw [if_neg (by omega)]
        refine ⟨_, rfl, ?_, ?_, ?_⟩
        · rw [filterMap_send]; simp only [List.map_map]; rfl
        · rw [filterMap_send]
          have hd : (L.map (·.2)).drop L.length = [] := List.drop_eq_nil_of_le (by rw [List.length_map])
          simp only [List.map_map, hd, List.append_nil]
          rfl
        · rw [hlen]
          simp only
          omega

theorem turn_spec (n : Nat) (l : List (Elem P)) : ∀ (st : St P) (L : List (P × Nat)), Inv n st L →
    (L ≠ [] ∧ send l L = [] ∧ turn n l st = .throw .loss) ∨ ((L = [] ∨ send l L ≠ []) ∧ ∃ st', turn n l st = .ok st' ∧ Inv n st' (send l L)) := by
  induction l with
  | nil =>
    intro st L h
    right
    refine ⟨?_, st, rfl, h⟩
    by_cases hL : L = []
    · exact Or.inl hL
    · exact Or.inr hL
  | cons e l ih =>
    intro st L h
    rw [turn, send]
    rcases pass_spec n e st L h with ⟨h1, h2, h3⟩ | ⟨h1, st1, h2, h3⟩
    · left
      exact ⟨h1, by rw [h2, send_nil], by rw [h3]; rfl⟩
    · rw [h2]
      rcases ih st1 _ h3 with ⟨g1, g2, g3⟩ | ⟨g1, st2, g2, g3⟩
      · left
        refine ⟨?_, g2, g3⟩
        rintro rfl
        exact g1 rfl
      · right
        refine ⟨?_, st2, g2, g3⟩
        rcases h1 with rfl | h1
        · exact Or.inl rfl
        · rcases g1 with g1 | g1
          · exact absurd g1 h1
          · exact Or.inr g1

/-- The particles after `k` turns. -/
def sendTurns (ring : List (Elem P)) : Nat → List (P × Nat) → List (P × Nat)
  | 0, L => L
  | k + 1, L => sendTurns ring k (send ring L)

theorem sendTurns_nil (ring : List (Elem P)) (k : Nat) : sendTurns ring k [] = [] := by
  induction k with
  | zero => rfl
  | succ k ih => rw [sendTurns, send_nil, ih]

theorem turns_spec (n : Nat) (ring : List (Elem P)) (k : Nat) : ∀ (st : St P) (L : List (P × Nat)), Inv n st L →
    (L ≠ [] ∧ sendTurns ring k L = [] ∧ turns n ring k st = .throw .loss) ∨
    ((L = [] ∨ sendTurns ring k L ≠ []) ∧ ∃ st', turns n ring k st = .ok st' ∧ Inv n st' (sendTurns ring k L)) := by
  induction k with
  | zero =>
    intro st L h
    right
    refine ⟨?_, st, rfl, h⟩
    by_cases hL : L = []
    · exact Or.inl hL
    · exact Or.inr hL
  | succ k ih =>
    intro st L h
    rw [turns, sendTurns]
    rcases turn_spec n ring st L h with ⟨h1, h2, h3⟩ | ⟨h1, st1, h2, h3⟩
    · left
      exact ⟨h1, by rw [h2, sendTurns_nil], by rw [h3]; rfl⟩
    · rw [h2]
      rcases ih st1 _ h3 with ⟨g1, g2, g3⟩ | ⟨g1, st2, g2, g3⟩
      · left
        refine ⟨?_, g2, g3⟩
        rintro rfl
        exact g1 (send_nil ring)
      · right
        refine ⟨?_, st2, g2, g3⟩
        rcases h1 with rfl | h1
        · exact Or.inl rfl
        · rcases g1 with g1 | g1
          · exact absurd g1 h1
          · exact Or.inr g1

theorem mem_send (ring : List (Elem P)) : ∀ (L : List (P × Nat)) (q : P) (i : Nat), (q, i) ∈ send ring L ↔ ∃ p, (p, i) ∈ L ∧ around ring p = some q := by
  induction ring with
  | nil =>
    intro L q i
    simp only [send, around, Option.some.injEq]
    constructor
    · exact fun h => ⟨q, h, rfl⟩
    · rintro ⟨p, h, rfl⟩
      exact h
  | cons e l ih =>
    intro L q i
    rw [send, ih]
    constructor
    · rintro ⟨p, hp, hq⟩
      obtain ⟨⟨p0, j⟩, h0, h1⟩ := List.mem_filterMap.mp hp
      unfold sendOne at h1
      split at h1
      · rename_i hin
        simp only [Option.some.injEq, Prod.mk.injEq] at h1
        obtain ⟨rfl, rfl⟩ := h1
        exact ⟨p0, h0, by rw [around, if_pos hin]; exact hq⟩
      · exact absurd h1 (by simp)
    · rintro ⟨p, hp, hq⟩
      rw [around] at hq
      split at hq
      · rename_i hin
        exact ⟨_, List.mem_filterMap.mpr ⟨(p, i), hp, by unfold sendOne; rw [if_pos hin]⟩, hq⟩
      · exact absurd hq (by simp)

theorem mem_sendTurns (ring : List (Elem P)) (k : Nat) : ∀ (L : List (P × Nat)) (i : Nat), (∃ q, (q, i) ∈ sendTurns ring k L) ↔ ∃ p, (p, i) ∈ L ∧ Stays ring k p := by
  induction k with
  | zero =>
    intro L i
    simp [sendTurns, Stays]
  | succ k ih =>
    intro L i
    rw [sendTurns, ih]
    constructor
    · rintro ⟨p, hp, hs⟩
      obtain ⟨p0, h0, h1⟩ := (mem_send ring L p i).mp hp
      exact ⟨p0, h0, p, h1, hs⟩
    · rintro ⟨p, hp, q, hq, hs⟩
      exact ⟨q, (mem_send ring L q i).mpr ⟨p, hp, hq⟩, hs⟩

theorem send_sublist (ring : List (Elem P)) : ∀ L : List (P × Nat), ((send ring L).map (·.2)).Sublist (L.map (·.2)) := by
  induction ring with
  | nil => exact fun L => List.Sublist.refl _
  | cons e l ih =>
    intro L
    rw [send]
    refine (ih _).trans ?_
    rw [filterMap_send]
    have h1 : ((((L.map fun q => (e.before q.1, q.2)).filter fun q => e.inside q.1).map fun q => (e.after q.1, q.2)).map (·.2)) =
        ((L.map fun q => (e.before q.1, q.2)).filter fun q => e.inside q.1).map (·.2) := by
      rw [List.map_map]; rfl
    have h2 : L.map (·.2) = (L.map fun q => (e.before q.1, q.2)).map (·.2) := by rw [List.map_map]; rfl
    rw [h1, h2]
    exact List.Sublist.map _ List.filter_sublist

theorem sendTurns_sublist (ring : List (Elem P)) (k : Nat) : ∀ L : List (P × Nat), ((sendTurns ring k L).map (·.2)).Sublist (L.map (·.2)) := by
  induction k with
  | zero => exact fun L => List.Sublist.refl _
  | succ k ih => exact fun L => (ih _).trans (send_sublist ring L)

theorem initial_inv (bunch : List P) : Inv bunch.length (initial bunch) bunch.zipIdx := by
  refine ⟨?_, ?_, ?_⟩
  · rw [show (fun q : P × Nat => q.1) = Prod.fst from rfl, List.zipIdx_map_fst]; rfl
  · rw [show (fun q : P × Nat => q.2) = Prod.snd from rfl, List.zipIdx_map_snd, ← List.range_eq_range']; rfl
  · show 0 + _ = _
    rw [List.length_zipIdx, Nat.zero_add]

/-- **C367.** If some particle stays for all turns (or there are no particles), the list holds in increasing order exactly the numbers of the particles that do, whatever it held before. -/
theorem listed_stable (ring : List (Elem P)) (nturns : Int) (hn : 0 < nturns) (bunch : List P) (index : List Nat) (h : bunch = [] ∨ ∃ p ∈ bunch, Stays ring nturns.toNat p) :
    ∃ l, listed ring nturns bunch index = .ok l ∧ l.Pairwise (· < ·) ∧ ∀ i, i ∈ l ↔ ∃ p, bunch[i]? = some p ∧ Stays ring nturns.toNat p := by
  unfold listed
  obtain ⟨k, hk⟩ : ∃ k, nturns.toNat = k + 1 := ⟨nturns.toNat - 1, by omega⟩
  rw [hk] at h ⊢
  simp only
  have hmem := mem_sendTurns ring (k + 1) bunch.zipIdx
  rcases turns_spec bunch.length ring (k + 1) (initial bunch) bunch.zipIdx (initial_inv bunch) with ⟨h1, h2, -⟩ | ⟨-, st, h2, h3⟩
  · exfalso
    rcases h with rfl | ⟨p, hp, hs⟩
    · exact h1 rfl
    · obtain ⟨i, hi⟩ := List.mem_iff_getElem?.mp hp
      have := (hmem i).mpr ⟨p, List.mem_zipIdx_iff_getElem?.mpr hi, hs⟩
      rw [h2] at this
      simp at this
  · refine ⟨st.index, by rw [h2]; rfl, ?_, ?_⟩
    · rw [h3.2.1]
      refine List.Pairwise.sublist (sendTurns_sublist ring (k + 1) bunch.zipIdx) ?_
      rw [← (initial_inv bunch).2.1]
      exact List.pairwise_lt_range
    · intro i
      rw [h3.2.1, List.mem_map]
      constructor
      · rintro ⟨⟨q, j⟩, hq, rfl⟩
        obtain ⟨p, hp, hs⟩ := (hmem j).mp ⟨q, hq⟩
        exact ⟨p, List.mem_zipIdx_iff_getElem?.mp hp, hs⟩
      · rintro ⟨p, hp, hs⟩
        obtain ⟨q, hq⟩ := (hmem i).mpr ⟨p, List.mem_zipIdx_iff_getElem?.mpr hp, hs⟩
        exact ⟨(q, i), hq, rfl⟩

/-- **C368, violated.** If no particle of the bunch stays, the function throws. -/
theorem none_violated (ring : List (Elem P)) (nturns : Int) (hn : 0 < nturns) (bunch : List P) (index : List Nat) (hb : bunch ≠ []) (h : ∀ p ∈ bunch, ¬ Stays ring nturns.toNat p) :
    (selectStable ring nturns bunch index).list = .throw .loss := by
  show listed ring nturns bunch index = _
  unfold listed
  obtain ⟨k, hk⟩ : ∃ k, nturns.toNat = k + 1 := ⟨nturns.toNat - 1, by omega⟩
  rw [hk] at h ⊢
  simp only
  rcases turns_spec bunch.length ring (k + 1) (initial bunch) bunch.zipIdx (initial_inv bunch) with ⟨-, -, h3⟩ | ⟨h1, st, h2, h3⟩
  · rw [h3]; rfl
  · exfalso
    rcases h1 with h1 | h1
    · apply hb
      have := congrArg List.length h1
      rw [List.length_zipIdx] at this
      exact List.length_eq_zero_iff.mp this
    · obtain ⟨⟨q, i⟩, hq⟩ := List.exists_mem_of_ne_nil _ h1
      obtain ⟨p, hp, hs⟩ := (mem_sendTurns ring (k + 1) bunch.zipIdx i).mp ⟨q, hq⟩
      exact h p (List.mem_of_getElem? (List.mem_zipIdx_iff_getElem?.mp hp)) hs

/-- **C368, violated.** The caller's list is deleted when the function returns. -/
theorem deleted_violated (ring : List (Elem P)) (nturns : Int) (bunch : List P) (index : List Nat) : (selectStable ring nturns bunch index).deleted = true := by
  show decide (Collimation.Ptr.user ∈ (Collimation.lifetime [.give]).freed) = true
  decide

/-- **C368, violated.** Without turns the list is what it was before, though every particle stays. -/
theorem no_turns_violated (ring : List (Elem P)) (nturns : Int) (hn : nturns ≤ 0) (bunch : List P) (index : List Nat) :
    listed ring nturns bunch index = .ok index ∧ ∀ p, Stays ring nturns.toNat p := by
  unfold listed
  rw [Int.toNat_of_nonpos hn]
  exact ⟨rfl, fun _ => trivial⟩

/-- Cases: particles move by one in each turn in an aperture of 5; numbers 3, 1 and 4 for two turns and for four. -/
def sampleRing : List (Elem Nat) := [⟨id, fun p => decide (p < 5), fun p => p + 1⟩]

example : listed sampleRing 2 [3, 1, 4] [7] = .ok [0, 1] := by decide
example : listed sampleRing 4 [3, 1, 4] [7] = .ok [1] := by decide
example : (selectStable sampleRing 9 [3, 1, 4] [7]).list = .throw .loss := by decide

/-- The first case meets the hypothesis: number 1 stays for two turns. -/
example : ∃ p ∈ [3, 1, 4], Stays sampleRing 2 p := ⟨1, by simp, 2, rfl, 3, rfl, trivial⟩

end Verif.Stable
