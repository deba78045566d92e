import Verif.Frame.Spec
import Mathlib.Tactic.Ring
import Mathlib.Tactic.Linarith
import Mathlib.Tactic.Group
import Mathlib.Tactic.NormNum

/-!
# Lemmas about sequence geometries
-/

set_option linter.unusedSectionVars false

namespace Verif.Frame
open Verif Verif.Frame.Spec

variable {K G : Type} [Field K] [LinearOrder K] [IsStrictOrderedRing K] [Group G]

/-- Frames put together by `AppendFrame` in an empty sequence. -/
def build (o : Origin) (fs : List (Geo K G)) : Seq K G := fs.foldl Seq.append (Seq.empty o)

omit [LinearOrder K] [IsStrictOrderedRing K] [Group G] in
theorem foldl_append (fs : List (Geo K G)) (q : Seq K G) :
    fs.foldl Seq.append q = { q with frames := q.frames ++ fs, lenT := q.lenT + sumLen fs } := by
  induction fs generalizing q with
  | nil => simp [sumLen]
  | cons f fs ih =>
    rw [List.foldl_cons, ih]
    simp [Seq.append, sumLen, add_assoc]

theorem build_eq (o : Origin) (fs : List (Geo K G)) : build o fs = ⟨fs, sumLen fs, o, none⟩ := by
  simp [build, foldl_append, Seq.empty]

theorem fequal_zero (x y : K) : Transform.fequal 0 x y = decide (x = y) := by
  simp [Transform.fequal, sub_eq_zero]

theorem leq_zero (x l : K) : leq 0 x l = decide (x ≤ l) := by
  rw [leq, fequal_zero]
  rcases lt_trichotomy x l with h | h | h
  · simp [h, h.le]
  · simp [h]
  · simp [not_le.2 h, h.ne', not_lt.2 h.le]

/-- The frame at distance `u` from the entrance. -/
noncomputable def curve : List (Geo K G × (K → G)) → K → G
  | [], _ => 1
  | (f, φ) :: fs, u =>
    if u ≤ f.len then φ (f.first + u) * (φ f.first)⁻¹ else curve fs (u - f.len) * f.total

/-- Frames paired with their moving frames. -/
def AllLawful (l : List (Geo K G × (K → G))) : Prop := ∀ x ∈ l, Lawful x.1 x.2

theorem sumLen_nonneg {l : List (Geo K G × (K → G))} (h : AllLawful l) : 0 ≤ sumLen (l.map (·.1)) := by
  induction l with
  | nil => simp [sumLen]
  | cons x l ih =>
    have h1 := (h x (by simp)).nonneg
    have h2 := ih (fun y hy => h y (by simp [hy]))
    simp only [List.map_cons, sumLen]
    linarith

theorem walk_ok {l : List (Geo K G × (K → G))} (h : AllLawful l) (s : K) (t : G) (h0 : 0 < s)
    (hs : s ≤ sumLen (l.map (·.1))) : walk 0 (l.map (·.1)) s t = .ok (curve l s * t) := by
  induction l generalizing s t with
  | nil => simp [sumLen] at hs; linarith
  | cons x l ih =>
    obtain ⟨f, φ⟩ := x
    have hf : Lawful f φ := h (f, φ) (by simp)
    simp only [List.map_cons, walk, leq_zero, curve]
    simp only [List.map_cons, sumLen] at hs
    by_cases hle : s ≤ f.len
    · have := hf.extent
      simp only [hle, decide_true, if_true]
      rw [hf.forward _ _ le_rfl (by linarith) (by linarith)]
      rfl
    · simp only [hle, decide_false, Bool.false_eq_true, if_false]
      rw [ih (fun y hy => h y (by simp [hy])) _ _ (by linarith) (by linarith), mul_assoc]

theorem start_ok {l : List (Geo K G × (K → G))} (h : AllLawful l) (s0 s : K) (h0 : 0 ≤ s0)
    (hlt : s0 < s) (hs : s ≤ sumLen (l.map (·.1))) :
    start 0 false (l.map (·.1)) s0 s = .ok (curve l s * (curve l s0)⁻¹) := by
  induction l generalizing s0 s with
  | nil => simp [sumLen] at hs; linarith
  | cons x l ih =>
    obtain ⟨f, φ⟩ := x
    have hf : Lawful f φ := h (f, φ) (by simp)
    have hl : AllLawful l := fun y hy => h y (by simp [hy])
    simp only [List.map_cons, start, leq_zero, curve]
    simp only [List.map_cons, sumLen] at hs
    have he := hf.extent
    by_cases h1 : s0 ≤ f.len
    · by_cases h2 : s ≤ f.len
      · simp only [h1, h2, decide_true, if_true]
        rw [hf.forward _ _ (by linarith) (by linarith) (by linarith)]
        congr 1
        group
      · simp only [h1, h2, decide_true, decide_false, if_true, Bool.false_eq_true, if_false]
        rw [hf.forward _ _ (by linarith) (by linarith) le_rfl, Outcome.bind_ok,
          walk_ok hl _ _ (by linarith) (by linarith)]
        simp only [Outcome.bind_ok, Outcome.pure_eq]
        rw [hf.total]
        congr 1
        group
    · have h2 : ¬ s ≤ f.len := by intro h2; linarith
      simp only [h1, h2, decide_false, Bool.false_eq_true, if_false]
      rw [ih hl _ _ (by linarith) (by linarith) (by linarith)]
      congr 1
      group

omit [IsStrictOrderedRing K] in
theorem curve_zero {l : List (Geo K G × (K → G))} (h : AllLawful l) : curve l 0 = 1 := by
  cases l with
  | nil => rfl
  | cons x l =>
    obtain ⟨f, φ⟩ := x
    have hf : Lawful f φ := h (f, φ) (by simp)
    simp [curve, hf.nonneg]

theorem prodTotal_zero {l : List (Geo K G × (K → G))} (h : AllLawful l)
    (h0 : sumLen (l.map (·.1)) = 0) : prodTotal (l.map (·.1)) = 1 := by
  induction l with
  | nil => rfl
  | cons x l ih =>
    obtain ⟨f, φ⟩ := x
    have hf : Lawful f φ := h (f, φ) (by simp)
    have hl : AllLawful l := fun y hy => h y (by simp [hy])
    have h1 := sumLen_nonneg hl
    have h2 := hf.nonneg
    have h3 := hf.extent
    simp only [List.map_cons, sumLen] at h0
    simp only [List.map_cons, prodTotal]
    have e1 : f.len = 0 := by linarith
    have e2 : sumLen (l.map (·.1)) = 0 := by linarith
    have e3 : f.second = f.first := by linarith
    rw [ih hl e2, hf.total, e3]
    simp

theorem curve_full {l : List (Geo K G × (K → G))} (h : AllLawful l) :
    curve l (sumLen (l.map (·.1))) = prodTotal (l.map (·.1)) := by
  induction l with
  | nil => rfl
  | cons x l ih =>
    obtain ⟨f, φ⟩ := x
    have hf : Lawful f φ := h (f, φ) (by simp)
    have hl : AllLawful l := fun y hy => h y (by simp [hy])
    have h1 := sumLen_nonneg hl
    have h3 := hf.extent
    simp only [List.map_cons, sumLen, prodTotal, curve]
    by_cases hz : sumLen (l.map (·.1)) = 0
    · simp only [hz, add_zero, le_refl, if_true, prodTotal_zero hl hz, one_mul]
      rw [hf.total, show f.first + f.len = f.second by linarith]
    · have : ¬ f.len + sumLen (l.map (·.1)) ≤ f.len := by
        intro hc; exact hz (le_antisymm (by linarith) h1)
      rw [if_neg this, show f.len + sumLen (l.map (·.1)) - f.len = sumLen (l.map (·.1)) by ring,
        ih hl]

omit [Field K] [LinearOrder K] [IsStrictOrderedRing K] in
theorem foldl_total (fs : List (Geo K G)) (t : G) :
    fs.foldl (fun t f => f.total * t) t = prodTotal fs * t := by
  induction fs generalizing t with
  | nil => simp [prodTotal]
  | cons f fs ih => rw [List.foldl_cons, ih, prodTotal, mul_assoc]

omit [IsStrictOrderedRing K] in
/-- Every frame of a list of lawful frames gets a moving frame. -/
theorem exists_pairs {fs : List (Geo K G)} (h : ∀ f ∈ fs, ∃ φ, Lawful f φ) :
    ∃ l : List (Geo K G × (K → G)), AllLawful l ∧ l.map (·.1) = fs := by
  induction fs with
  | nil => exact ⟨[], by simp [AllLawful], rfl⟩
  | cons f fs ih =>
    obtain ⟨φ, hφ⟩ := h f (by simp)
    obtain ⟨l, hl, e⟩ := ih (fun g hg => h g (by simp [hg]))
    refine ⟨(f, φ) :: l, ?_, by simp [e]⟩
    intro x hx
    rcases List.mem_cons.1 hx with rfl | hx
    · exact hφ
    · exact hl x hx

theorem extent_shift (q : Seq K G) : q.extent.1 = -shift q.omode q.lenT ∧
    q.extent.2 = q.lenT - shift q.omode q.lenT := by
  rcases q with ⟨fs, len, o, c⟩
  cases o
  · exact ⟨by simp [Seq.extent, shift], by simp [Seq.extent, shift]⟩
  · exact ⟨by simp only [Seq.extent, shift]; ring, by simp only [Seq.extent, shift]; ring⟩
  · exact ⟨by simp [Seq.extent, shift], by simp [Seq.extent, shift]⟩

/-- A sequence whose total transform is right follows the concatenated curve. -/
theorem lawful_of_total {l : List (Geo K G × (K → G))} (h : AllLawful l) (q : Seq K G)
    (hf : q.frames = l.map (·.1)) (hlen : q.lenT = sumLen (l.map (·.1)))
    (ht : q.total = prodTotal (l.map (·.1))) :
    Lawful (q.toGeo 0) (fun s => curve l (s + shift q.omode q.lenT)) := by
  obtain ⟨e1, e2⟩ := extent_shift q
  have hn := sumLen_nonneg h
  constructor
  · simp only [Seq.toGeo]; rw [hlen]; exact hn
  · simp only [Seq.toGeo, e1, e2]; ring
  · intro a b ha hab hb
    simp only [Seq.toGeo, e1, e2] at ha hb ⊢
    rw [Seq.transform, fequal_zero]
    by_cases hc : b = a
    · simp [hc]
    · have hlt : a < b := lt_of_le_of_ne hab (Ne.symm hc)
      simp only [hc, decide_false, Bool.false_eq_true, if_false, Seq.transformFrom, fequal_zero]
      rw [if_neg (by
        intro hcon
        rcases hcon with hcon | hcon | hcon | hcon <;> linarith)]
      by_cases hfull : a + shift q.omode q.lenT = 0 ∧ b + shift q.omode q.lenT = q.lenT
      · simp only [hfull.1, hfull.2, decide_true, Bool.and_self, if_true]
        rw [ht, curve_zero h, hlen, curve_full h]
        simp
      · have : (decide (a + shift q.omode q.lenT = 0) && decide (b + shift q.omode q.lenT = q.lenT))
            = false := by
          simpa using hfull
        simp only [this, Bool.false_eq_true, if_false]
        rw [if_neg (by intro hcon; linarith), hf,
          start_ok h _ _ (by linarith) (by linarith) (by linarith)]
  · simp only [Seq.toGeo, e1, e2]
    rw [ht, show -shift q.omode q.lenT + shift q.omode q.lenT = 0 by ring, curve_zero h,
      show q.lenT - shift q.omode q.lenT + shift q.omode q.lenT = q.lenT by ring, hlen,
      curve_full h]
    simp

/-- Inside one of the frames the curve is that of the frame. -/
theorem curve_local {pre post : List (Geo K G × (K → G))} {f : Geo K G} {φ : K → G}
    (h : AllLawful (pre ++ (f, φ) :: post)) (u : K) (hu0 : 0 ≤ u) (hu : u ≤ f.len) :
    curve (pre ++ (f, φ) :: post) (sumLen (pre.map (·.1)) + u) =
      φ (f.first + u) * (φ f.first)⁻¹ * prodTotal (pre.map (·.1)) := by
  induction pre with
  | nil => simp [curve, sumLen, prodTotal, hu]
  | cons x pre ih =>
    obtain ⟨g, ψ⟩ := x
    have hg : Lawful g ψ := h (g, ψ) (by simp)
    have hl : AllLawful (pre ++ (f, φ) :: post) := fun y hy => h y (by
      rw [List.cons_append]; exact List.mem_cons_of_mem _ hy)
    have hpre : AllLawful pre := fun y hy => hl y (by simp [hy])
    have h1 := sumLen_nonneg hpre
    have hf : Lawful f φ := h (f, φ) (by simp)
    simp only [List.cons_append, List.map_cons, sumLen, prodTotal, curve]
    by_cases hz : sumLen (pre.map (·.1)) + u = 0
    · have e1 : sumLen (pre.map (·.1)) = 0 := by linarith
      have e2 : u = 0 := by linarith
      have h3 := hg.extent
      rw [if_pos (by linarith), prodTotal_zero hpre e1, e1, e2, hg.total]
      simp [show g.first + g.len = g.second by linarith]
    · have : ¬ g.len + sumLen (pre.map (·.1)) + u ≤ g.len := by
        intro hc; exact hz (le_antisymm (by linarith) (by linarith))
      rw [if_neg this, show g.len + sumLen (pre.map (·.1)) + u - g.len =
        sumLen (pre.map (·.1)) + u by ring, ih hl, mul_assoc]

/-- When a frame boundary lies between the two positions, the inverse flag only inverts the
result. -/
theorem start_inv {l l' : List (Geo K G × (K → G))} (h : AllLawful (l ++ l')) (hne : l ≠ [])
    (s0 s : K) (h0 : s0 ≤ sumLen (l.map (·.1))) (h1 : sumLen (l.map (·.1)) < s)
    (t : G) (hs : start 0 false ((l ++ l').map (·.1)) s0 s = .ok t) :
    start 0 true ((l ++ l').map (·.1)) s0 s = .ok t⁻¹ := by
  induction l generalizing s0 s with
  | nil => exact absurd rfl hne
  | cons x l ih =>
    obtain ⟨f, φ⟩ := x
    have hl : AllLawful (l ++ l') := fun y hy => h y (by
      rw [List.cons_append]; exact List.mem_cons_of_mem _ hy)
    have hl1 : AllLawful l := fun y hy => hl y (by simp [hy])
    have h2 := sumLen_nonneg hl1
    simp only [List.map_cons, sumLen] at h0 h1
    simp only [List.cons_append, List.map_cons, start, leq_zero] at hs ⊢
    by_cases hc : s0 ≤ f.len
    · have h3 : ¬ s ≤ f.len := by intro h3; linarith
      simp only [hc, h3, decide_true, decide_false, if_true, Bool.false_eq_true, if_false] at hs ⊢
      cases ht : f.transform (f.first + s0) f.second with
      | ok a =>
        rw [ht] at hs
        simp only [Outcome.bind_ok] at hs ⊢
        cases hw : walk 0 (List.map (·.1) (l ++ l')) (s - f.len) a with
        | ok b =>
          rw [hw] at hs
          simp only [Outcome.bind_ok, Outcome.pure_eq, Outcome.ok.injEq] at hs ⊢
          rw [hs]
        | throw e => rw [hw] at hs; simp at hs
        | ub => rw [hw] at hs; simp at hs
      | throw e => rw [ht] at hs; simp at hs
      | ub => rw [ht] at hs; simp at hs
    · simp only [hc, decide_false, Bool.false_eq_true, if_false] at hs ⊢
      have hne' : l ≠ [] := by
        intro e; subst e; simp [sumLen] at h0; exact hc h0
      exact ih hl hne' _ _ (by linarith) (by linarith) hs

end Verif.Frame
