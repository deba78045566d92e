import Mathlib.Data.List.Perm.Basic
import Verif.Bunch.Mpi

/-!
# Lemmas on the exchange of particles
-/

namespace Verif.Bunch
open Verif

variable {K : Type}

/-- A particle whose id got lost. -/
def noId (p : Mem K) : Mem K := ⟨p.v, none⟩

theorem unpack_pack (p : Mem K) : unpack 6 (pack 6 p) = .ok (noId p) := by
  have h : unpackLoop (pack 6 p) 6 0 (fun _ => none) = .ok p.v := by
    simp only [unpackLoop, pack, List.range, List.range.loop, List.map, List.getElem?_cons_zero,
      List.getElem?_cons_succ]
    simp only [Nat.lt_add_one, dite_true, Nat.reduceLT, Nat.reduceAdd]
    refine congrArg Outcome.ok (funext fun i => ?_)
    match i with
    | ⟨0, _⟩ => rfl
    | ⟨1, _⟩ => rfl
    | ⟨2, _⟩ => rfl
    | ⟨3, _⟩ => rfl
    | ⟨4, _⟩ => rfl
    | ⟨5, _⟩ => rfl
  simp [unpack, h, Outcome.bind, noId]

theorem unpackLoop_ub (cells : List (Option K)) : ∀ (fuel j : Nat) (v : Coord → Option K), j ≤ 6 → 6 < j + fuel →
    unpackLoop cells fuel j v = .ub
  | 0, j, _, h, h' => by omega
  | fuel + 1, j, v, h, h' => by
    unfold unpackLoop
    by_cases hj : j < 6
    · rw [dif_pos hj]
      cases cells[j]? with
      | none => rfl
      | some x => exact unpackLoop_ub cells fuel (j + 1) _ (by omega) (by omega)
    · rw [dif_neg hj]

theorem unpack_ub (coords : Nat) (h : 6 < coords) (cells : List (Option K)) : unpack coords cells = .ub := by
  simp [unpack, unpackLoop_ub cells coords 0 _ (by omega) (by omega), Outcome.bind]

theorem unpackAll_pack (l : List (Mem K)) : unpackAll 6 (l.map (pack 6)) = .ok (l.map noId) := by
  induction l with
  | nil => rfl
  | cons p l ih => simp [unpackAll, unpack_pack, ih, Outcome.bind]

theorem unpackAll_ub (coords : Nat) (h : 6 < coords) (l : List (List (Option K))) (hl : l ≠ []) :
    unpackAll coords l = .ub := by
  cases l with
  | nil => exact absurd rfl hl
  | cons c l => simp [unpackAll, unpack_ub coords h, Outcome.bind]

theorem sendNodes_eq (ppn : Nat) (l : List (Mem K)) (ns : List Nat) :
    sendNodes 6 ppn (l.map (pack 6)) ns = .ok (ns.map fun n => ((l.drop (ppn * n)).take ppn).map noId) := by
  induction ns with
  | nil => rfl
  | cons n ns ih => simp [sendNodes, ← List.map_drop, ← List.map_take, unpackAll_pack, ih, Outcome.bind]

theorem slices (ppn : Nat) (l : List (Mem K)) (k : Nat) :
    ((List.range k).map fun n => (l.drop (ppn * n)).take ppn).flatten = l.take (ppn * k) := by
  induction k with
  | zero => simp
  | succ k ih =>
    rw [List.range_succ, List.map_append, List.flatten_append, ih, Nat.mul_succ]
    simp only [List.map_cons, List.map_nil, List.flatten_cons, List.flatten_nil, List.append_nil]
    rw [List.take_add]

theorem distribute_eq (size : Nat) (l : List (Mem K)) :
    distribute 6 size l = .ok ((l.drop (l.length / size * (size - 1))).map noId,
      (List.range (size - 1)).map fun n => ((l.drop (l.length / size * n)).take (l.length / size)).map noId) := by
  simp only [distribute, sendNodes_eq, ← List.map_drop, unpackAll_pack, Outcome.bind]

theorem gatherLoop_eq (nodes : List (List (Mem K))) : gatherLoop 6 nodes = .ok (nodes.flatten.map noId) := by
  induction nodes with
  | nil => rfl
  | cons n l ih => simp [gatherLoop, unpackAll_pack, ih, Outcome.bind]

end Verif.Bunch
