import Verif.Material.Spec
import Mathlib.Tactic.Ring
import Mathlib.Tactic.FieldSimp
import Mathlib.Tactic.Linarith

/-!
# Lemmas on mixtures
-/

set_option linter.unusedSectionVars false

namespace Verif.Material
open Verif Verif.Material.Spec

section
variable {K : Type} [Field K] [LinearOrder K]

theorem sum_div (l : List (K × Mat K)) (f : K × Mat K → K) (c : K) : (l.map fun x => f x / c).sum = (l.map f).sum / c := by
  induction l with
  | nil => simp
  | cons x l ih => simp only [List.map_cons, List.sum_cons, ih]; rw [add_div]

theorem sum_mul (l : List (K × Mat K)) (f : K × Mat K → K) (c : K) : (l.map fun x => c * f x).sum = c * (l.map f).sum := by
  induction l with
  | nil => simp
  | cons x l ih => simp only [List.map_cons, List.sum_cons, ih]; rw [mul_add]

theorem sum_add (l : List (K × Mat K)) (f g : K × Mat K → K) :
    (l.map fun x => f x + g x).sum = (l.map f).sum + (l.map g).sum := by
  induction l with
  | nil => simp
  | cons x l ih => simp only [List.map_cons, List.sum_cons, ih]; ring

theorem components_length (d : Dict K) (ns : List Str) (qs : List K) (h : ns.length = qs.length) (l : List (K × Mat K))
    (hl : components d ns qs = .ok l) : l.map (·.1) = qs ∧ l.length = ns.length ∧
      ∀ i (hi : i < l.length) (hj : i < ns.length), d ns[i] = some (some l[i].2) := by
  induction ns generalizing qs l with
  | nil =>
    cases qs with
    | nil => rw [components] at hl; injection hl with hl; subst hl; simp; simp
    | cons q qs => simp at h
  | cons n ns ih =>
    cases qs with
    | nil => simp at h
    | cons q qs =>
      rw [components] at hl
      unfold Dict.mat at hl
      cases hd : d n with
      | none => rw [hd] at hl; cases hl
      | some o =>
        cases o with
        | none => rw [hd] at hl; cases hl
        | some m =>
          rw [hd] at hl
          simp only [Outcome.bind] at hl
          cases hc : components d ns qs with
          | ok l' =>
            rw [hc] at hl
            simp only at hl
            injection hl with hl
            subst hl
            obtain ⟨h1, h2, h3⟩ := ih qs (by simpa using h) l' hc
            refine ⟨by simp [h1], by simp [h2], ?_⟩
            intro i hi hj
            cases i with
            | zero => simpa using hd
            | succ i => simpa using h3 i (by simpa using hi) (by simpa using hj)
          | throw e => rw [hc] at hl; cases hl
          | ub => rw [hc] at hl; cases hl

theorem components_ok (d : Dict K) (ns : List Str) (qs : List K) (h : ns.length = qs.length) (ms : List (Mat K))
    (hm : ns.map d = ms.map fun m => some (some m)) : components d ns qs = .ok (qs.zip ms) := by
  induction ns generalizing qs ms with
  | nil =>
    cases qs with
    | nil => rfl
    | cons q qs => simp at h
  | cons n ns ih =>
    cases qs with
    | nil => simp at h
    | cons q qs =>
      cases ms with
      | nil => simp at hm
      | cons m ms =>
        simp only [List.map_cons, List.cons.injEq] at hm
        rw [components, Dict.mat, hm.1]
        simp only [Outcome.bind]
        rw [ih qs (by simpa using h) ms hm.2]
        rfl

theorem splitNames_ne (s : Str) : splitNames s ≠ [] := by
  cases s with
  | nil => simp [splitNames]
  | cons c s =>
    rw [splitNames]
    cases c == ' ' <;> cases splitNames s <;> simp

theorem splitNames_word (w : Str) (hw : ' ' ∉ w) (s : Str) : splitNames (w ++ ' ' :: s) = w :: splitNames s := by
  induction w with
  | nil => simp [splitNames]
  | cons c w ih =>
    rw [List.cons_append, splitNames, ih (fun h => hw (List.mem_cons_of_mem _ h))]
    have : (c == ' ') = false := by
      rw [beq_eq_false_iff_ne]
      exact fun h => hw (h ▸ List.mem_cons_self)
    rw [this]

theorem splitNames_last (w : Str) (hw : ' ' ∉ w) : splitNames w = [w] := by
  induction w with
  | nil => simp [splitNames]
  | cons c w ih =>
    rw [splitNames, ih (fun h => hw (List.mem_cons_of_mem _ h))]
    have : (c == ' ') = false := by
      rw [beq_eq_false_iff_ne]
      exact fun h => hw (h ▸ List.mem_cons_self)
    rw [this]

/-- Words joined by single blanks. -/
theorem splitNames_join (ws : List Str) (hne : ws ≠ []) (hw : ∀ w ∈ ws, ' ' ∉ w) :
    splitNames (List.intercalate [' '] ws) = ws := by
  induction ws with
  | nil => exact absurd rfl hne
  | cons w ws ih =>
    cases ws with
    | nil => simp [List.intercalate, splitNames_last w (hw w List.mem_cons_self)]
    | cons v ws =>
      have : List.intercalate [' '] (w :: v :: ws) = w ++ ' ' :: List.intercalate [' '] (v :: ws) := by
        simp [List.intercalate, List.intersperse]
      rw [this, splitNames_word w (hw w List.mem_cons_self), ih (by simp) (fun x hx => hw x (List.mem_cons_of_mem _ hx))]

theorem pick_lt (r : K) (v : List K) (h : v ≠ []) : pick r v < v.length := by
  induction v generalizing r with
  | nil => exact absurd rfl h
  | cons a l ih =>
    cases l with
    | nil => simp [pick]
    | cons b l =>
      rw [pick]
      split
      · simp
      · have := ih (r - a) (by simp)
        simp only [List.length_cons] at this ⊢
        omega

end

section
variable {K : Type} [Field K] [LinearOrder K] [IsStrictOrderedRing K]

theorem pick_selected (v : List K) (r : K) (h0 : 0 < r) (h1 : r ≤ v.sum) : Selected v r (pick r v) := by
  induction v generalizing r with
  | nil => simp at h1; exact absurd h0 (not_lt.2 h1)
  | cons a l ih =>
    cases l with
    | nil => exact ⟨by simp [pick], by simpa [pick] using h0, by simpa [pick] using h1⟩
    | cons b l =>
      rw [pick]
      split
      · rename_i h
        refine ⟨by simp, by simpa using h0, ?_⟩
        simp only [Nat.zero_add, List.take_succ_cons, List.take_zero, List.sum_cons, List.sum_nil, add_zero]
        linarith
      · rename_i h
        obtain ⟨i1, i2, i3⟩ := ih (r - a) (by linarith) (by rw [List.sum_cons] at h1; linarith)
        refine ⟨by simp only [List.length_cons] at i1 ⊢; omega, ?_, ?_⟩
        · rw [List.take_succ_cons, List.sum_cons]; linarith
        · rw [List.take_succ_cons, List.sum_cons]; linarith

end

end Verif.Material
