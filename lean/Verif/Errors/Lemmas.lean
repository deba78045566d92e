import Verif.Errors.Spec
import Verif.StringPattern.Lemmas
import Mathlib.Tactic.Ring

/-!
# Lemmas on alignment errors
-/

set_option linter.unusedSectionVars false

namespace Verif.Errors
open Verif.Errors.Spec Verif.StringPattern

variable {K G : Type} [Field K] [LinearOrder K] [IsStrictOrderedRing K] [Group G]

theorem draw_eq (eps : K) (he : 0 ≤ eps) (sqrt : K → K) (hs : ∀ x, sqrt (x * x) = |x|) (g : Nat → K)
    (rms mean : Fin 3 → K) (a : Fin 3) (k : Nat) :
    draw eps sqrt g (mean a) (rms a * rms a) k =
      (if Active eps rms a then mean a + |rms a| * g k else mean a, k + if Active eps rms a then 1 else 0) := by
  have h0 : 0 ≤ rms a * rms a := mul_self_nonneg _
  by_cases h : Active eps rms a
  · have h1 : eps < rms a * rms a := h
    have h2 : ¬ |rms a * rms a - 0| ≤ eps := by rw [sub_zero, abs_of_nonneg h0]; exact not_le.2 h1
    have h3 : rms a * rms a ≠ 0 := ne_of_gt (lt_of_le_of_lt he h1)
    rw [draw, fequal, normal, if_neg (by simpa using h2), if_neg h3, hs, if_pos h, if_pos h]
  · have h1 : rms a * rms a ≤ eps := not_lt.1 h
    have h2 : |rms a * rms a - 0| ≤ eps := by rw [sub_zero, abs_of_nonneg h0]; exact h1
    rw [draw, fequal, if_pos (by simpa using h2), if_neg h, if_neg h, Nat.add_zero]

theorem before_eq (eps : K) (rms : Fin 3 → K) :
    before eps rms 0 = 0 ∧ before eps rms 1 = (if Active eps rms 0 then 1 else 0) ∧
    before eps rms 2 = (if Active eps rms 0 then 1 else 0) + (if Active eps rms 1 then 1 else 0) ∧
    before eps rms 3 = (if Active eps rms 0 then 1 else 0) + (if Active eps rms 1 then 1 else 0) +
      (if Active eps rms 2 then 1 else 0) := by
  have hr : List.finRange 3 = [0, 1, 2] := by decide
  unfold before
  rw [hr]
  by_cases h0 : Active eps rms 0 <;> by_cases h1 : Active eps rms 1 <;> by_cases h2 : Active eps rms 2 <;>
    simp [h0, h1, h2]

theorem place_transform (t : G) (f : Frame G) : place (f.transform t) = t * place f := by
  unfold Frame.transform place
  cases f.localT <;> simp

theorem transform_names (t : G) (f : Frame G) : (f.transform t).type = f.type ∧ (f.transform t).name = f.name := by
  unfold Frame.transform
  cases f.localT <;> simp

theorem rotate_view (eps : K) (r : K → G) (e : K) (f : Frame G) :
    view (f.rotate eps r e) = (f.type, f.name, turn eps r e * place f) := by
  unfold Frame.rotate turn fequal view
  by_cases h : |e| ≤ eps
  · simp [h]
  · simp [h, place_transform, (transform_names (r e) f).1, (transform_names (r e) f).2]

/-- A selected element. -/
theorem treat_eq (eps : K) (he : 0 ≤ eps) (sqrt : K → K) (hs : ∀ x, sqrt (x * x) = |x|) (mv : Moves K G) (g : Nat → K)
    (rms mean : Fin 3 → K) (clear trans : Bool) (f : Frame G) (m : Nat) :
    let s : Settings K := ⟨fun a => rms a * rms a, mean, clear⟩
    let r := treat eps sqrt mv g s trans f (m * before eps rms 3)
    view r.1 = (f.type, f.name, (if trans then shift eps mv rms mean g m else turns eps mv rms mean g m) *
      (if clear then 1 else place f)) ∧
    r.2.1 = (m + 1) * before eps rms 3 ∧
    r.2.2 = ⟨f.type ++ '.' :: f.name, trans,
      error eps rms mean m 0 g, error eps rms mean m 1 g, error eps rms mean m 2 g⟩ := by
  intro s r
  obtain ⟨b0, b1, b2, b3⟩ := before_eq eps rms
  have e0 : error eps rms mean m 0 g =
      (if Active eps rms 0 then mean 0 + |rms 0| * g (m * before eps rms 3) else mean 0) := by
    show (if Active eps rms 0 then mean 0 + |rms 0| * g (m * before eps rms 3 + before eps rms 0) else mean 0) = _
    rw [b0, Nat.add_zero]
  have e1 : error eps rms mean m 1 g =
      (if Active eps rms 1 then mean 1 + |rms 1| * g (m * before eps rms 3 + if Active eps rms 0 then 1 else 0)
        else mean 1) := by
    show (if Active eps rms 1 then mean 1 + |rms 1| * g (m * before eps rms 3 + before eps rms 1) else mean 1) = _
    rw [b1]
  have e2 : error eps rms mean m 2 g =
      (if Active eps rms 2 then mean 2 + |rms 2| * g (m * before eps rms 3 + (if Active eps rms 0 then 1 else 0) +
        if Active eps rms 1 then 1 else 0) else mean 2) := by
    show (if Active eps rms 2 then mean 2 + |rms 2| * g (m * before eps rms 3 + before eps rms 2) else mean 2) = _
    rw [b2, Nat.add_assoc]
  have d0 := draw_eq eps he sqrt hs g rms mean 0 (m * before eps rms 3)
  have d1 := draw_eq eps he sqrt hs g rms mean 1 (m * before eps rms 3 + if Active eps rms 0 then 1 else 0)
  have d2 := draw_eq eps he sqrt hs g rms mean 2 (m * before eps rms 3 + (if Active eps rms 0 then 1 else 0) +
        if Active eps rms 1 then 1 else 0)
  rw [← e0] at d0; rw [← e1] at d1; rw [← e2] at d2
  have hf : view (if clear then f.clear else f) = (f.type, f.name, if clear then 1 else place f) := by
    cases clear <;> rfl
  have hf1 : (if clear then f.clear else f).type = f.type := congrArg (·.1) hf
  have hf2 : (if clear then f.clear else f).name = f.name := congrArg (·.2.1) hf
  have hf3 : place (if clear then f.clear else f) = if clear then 1 else place f := congrArg (·.2.2) hf
  refine ⟨?_, ?_, ?_⟩
  · show view (treat eps sqrt mv g s trans f (m * before eps rms 3)).1 = _
    unfold treat
    simp only [show s.m = mean from rfl, show s.v = fun a => rms a * rms a from rfl, show s.clear = clear from rfl, d0, d1, d2]
    cases trans
    · simp only [Bool.false_eq_true, if_false]
      rw [rotate_view]
      have h1 := rotate_view eps (mv.rot 0) (error eps rms mean m 0 g) (if clear then f.clear else f)
      have h2 := rotate_view eps (mv.rot 1) (error eps rms mean m 1 g)
        (Frame.rotate eps (mv.rot 0) (error eps rms mean m 0 g) (if clear then f.clear else f))
      have h11 := congrArg (·.1) h1
      have h12 := congrArg (·.2.1) h1
      have h13 := congrArg (·.2.2) h1
      have h21 := congrArg (·.1) h2
      have h22 := congrArg (·.2.1) h2
      have h23 := congrArg (·.2.2) h2
      simp only [view] at h11 h12 h13 h21 h22 h23
      rw [h21, h22, h23, h11, h12, h13, hf1, hf2, hf3]
      simp only [turns, mul_assoc]
    · simp only [if_true, view]
      rw [place_transform, (transform_names _ _).1, (transform_names _ _).2, hf1, hf2, hf3]
      rfl
  · show (treat eps sqrt mv g s trans f (m * before eps rms 3)).2.1 = _
    unfold treat
    simp only [show s.m = mean from rfl, show s.v = fun a => rms a * rms a from rfl, d0, d1, d2]
    rw [b3]; ring
  · show (treat eps sqrt mv g s trans f (m * before eps rms 3)).2.2 = _
    unfold treat
    simp only [show s.m = mean from rfl, show s.v = fun a => rms a * rms a from rfl, d0, d1, d2]
    rfl

/-- The whole beamline. -/
theorem applyErrors_eq (eps : K) (he : 0 ≤ eps) (sqrt : K → K) (hs : ∀ x, sqrt (x * x) = |x|) (mv : Moves K G)
    (g : Nat → K) (rms mean : Fin 3 → K) (clear trans : Bool) (p : Str) (l : List (Option (Frame G))) (m : Nat) :
    let s : Settings K := ⟨fun a => rms a * rms a, mean, clear⟩
    let r := applyErrors eps sqrt mv g s trans p l (m * before eps rms 3)
    (∀ j, (r.1[j]?).map (fun o => o.map view) = moved clear
      (fun i => if trans then shift eps mv rms mean g (m + i) else turns eps mv rms mean g (m + i)) p l j) ∧
    r.2.1 = (m + (l.filter (wanted p)).length) * before eps rms 3 := by
  intro s
  induction l generalizing m with
  | nil => exact ⟨fun j => by simp [applyErrors, moved], by simp [applyErrors]⟩
  | cons o l ih =>
    cases o with
    | none =>
      obtain ⟨h1, h2⟩ := ih m
      refine ⟨fun j => ?_, ?_⟩
      · cases j with
        | zero => simp [applyErrors, moved]
        | succ j =>
          have := h1 j
          simp only [applyErrors, List.getElem?_cons_succ] at this ⊢
          rw [this]
          simp [moved, wanted]
      · simp only [applyErrors]
        rw [h2]
        simp [wanted]
    | some f =>
      have hw : selects p f = wanted p (some f) := rfl
      by_cases hsel : wanted p (some f) = true
      · have htr := treat_eq eps he sqrt hs mv g rms mean clear trans f m
        simp only at htr
        obtain ⟨t1, t2, t3⟩ := htr
        obtain ⟨h1, h2⟩ := ih (m + 1)
        simp only [applyErrors, hw, hsel, if_true]
        have t2' : (treat eps sqrt mv g s trans f (m * before eps rms 3)).2.1 = (m + 1) * before eps rms 3 := t2
        rw [t2']
        refine ⟨fun j => ?_, ?_⟩
        · cases j with
          | zero =>
            simp only [List.getElem?_cons_zero, Option.map_some]
            rw [t1]
            simp [moved, hsel]
          | succ j =>
            have := h1 j
            simp only [List.getElem?_cons_succ] at this ⊢
            rw [this]
            simp only [moved, List.getElem?_cons_succ, List.take_succ_cons, List.filter_cons, hsel, if_true,
              List.length_cons]
            congr 1
            funext o
            congr 1
            funext f'
            have : m + 1 + ((l.take j).filter (wanted p)).length = m + (((l.take j).filter (wanted p)).length + 1) := by
              omega
            rw [this]
        · rw [h2]
          simp only [List.filter_cons, hsel, if_true, List.length_cons]
          congr 1; omega
      · have hsel' : wanted p (some f) = false := by simpa using hsel
        obtain ⟨h1, h2⟩ := ih m
        simp only [applyErrors, hw, hsel', Bool.false_eq_true, if_false]
        refine ⟨fun j => ?_, ?_⟩
        · cases j with
          | zero => simp [moved, hsel', view]
          | succ j =>
            have := h1 j
            simp only [List.getElem?_cons_succ] at this ⊢
            rw [this]
            simp [moved, hsel']
        · rw [h2]
          simp [hsel']

/-- The log has one line for each wanted element with the numbers applied to it. -/
theorem log_eq (eps : K) (he : 0 ≤ eps) (sqrt : K → K) (hs : ∀ x, sqrt (x * x) = |x|) (mv : Moves K G)
    (g : Nat → K) (rms mean : Fin 3 → K) (clear trans : Bool) (p : Str) (l : List (Option (Frame G))) (m : Nat) :
    let s : Settings K := ⟨fun a => rms a * rms a, mean, clear⟩
    (applyErrors eps sqrt mv g s trans p l (m * before eps rms 3)).2.2 =
      ((l.filterMap id).filter fun f => wanted p (some f)).mapIdx fun i f =>
        ⟨f.type ++ '.' :: f.name, trans,
          error eps rms mean (m + i) 0 g, error eps rms mean (m + i) 1 g, error eps rms mean (m + i) 2 g⟩ := by
  intro s
  induction l generalizing m with
  | nil => simp [applyErrors]
  | cons o l ih =>
    cases o with
    | none => simp only [applyErrors]; rw [ih m]; simp
    | some f =>
      have hw : selects p f = wanted p (some f) := rfl
      by_cases hsel : wanted p (some f) = true
      · have htr := treat_eq eps he sqrt hs mv g rms mean clear trans f m
        simp only at htr
        obtain ⟨t1, t2, t3⟩ := htr
        simp only [applyErrors, hw, hsel, if_true]
        have t2' : (treat eps sqrt mv g s trans f (m * before eps rms 3)).2.1 = (m + 1) * before eps rms 3 := t2
        rw [t2', ih (m + 1), t3]
        simp only [List.filterMap_cons, id, List.filter_cons, hsel, if_true, List.mapIdx_cons, Nat.add_zero]
        congr 1
        congr 1
        funext i f'
        rw [show m + 1 + i = m + (i + 1) from by omega]
      · have hsel' : wanted p (some f) = false := by simpa using hsel
        simp only [applyErrors, hw, hsel', Bool.false_eq_true, if_false]
        rw [ih m]
        simp [hsel']

/-- Matching against a literal name. -/
theorem matches_literal (p s : Str) (hstar : '*' ∉ p) (hbar : '|' ∉ p) (hs : s ≠ []) :
    (construct ('*' :: '.' :: p)).matches s =
      (match findAfter ('.' :: p) s with | none => false | some r => r.isEmpty) := by
  have hb : '|' ∉ '*' :: '.' :: p := by simp [hbar]
  have hd : '*' ∉ '.' :: p := by simp [hstar]
  rw [construct_bar_free _ hb, matches_leaf]
  have h1 : skipWC '*' ('*' :: '.' :: p) = '.' :: p := by simp [skipWC]
  have h2 : (('*' :: '.' :: p).getLast? == some '*') = false := by
    have : ('*' :: '.' :: p).getLast? = ('.' :: p).getLast? := by simp [List.getLast?_cons_cons]
    rw [this]
    rw [beq_eq_false_iff_ne]
    intro h
    exact hd (List.mem_of_getLast? h)
  have hdel : delimitString '*' ('*' :: '.' :: p) = ⟨true, false, ['.' :: p]⟩ := by
    rw [delimitString]
    simp only [if_true, h1, h2]
    rw [if_neg (by simp), splitLoop_single _ _ hd (by simp)]
  rw [hdel]
  have hse : s.isEmpty = false := by cases s <;> simp_all
  simp only [matchLeaf, matchLoop, hse]
  cases findAfter ('.' :: p) s <;> simp

theorem findAfter_self (t p : Str) (ht : '.' ∉ t) : findAfter ('.' :: p) (t ++ '.' :: p) = some [] := by
  induction t with
  | nil => simp [findAfter]
  | cons c t ih =>
    have hc : '.' ≠ c := fun h => ht (h ▸ List.mem_cons_self)
    have ht' : '.' ∉ t := fun h => ht (by simp [h])
    rw [List.cons_append, findAfter]
    have : List.isPrefixOf ('.' :: p) (c :: (t ++ '.' :: p)) = false := by
      simp [List.isPrefixOf, hc]
    rw [this]
    simpa using ih ht'

end Verif.Errors
