import Verif.Frame.Lemmas
import Verif.Rotation.Properties
import Mathlib.Algebra.Group.TypeTags.Basic
import Mathlib.Analysis.SpecialFunctions.Trigonometric.Deriv

/-!
# Properties of geometries (C21, C60, C61)
-/

set_option linter.unusedSectionVars false

namespace Verif.Frame
open Verif Verif.Frame.Spec

variable {K G : Type} [Field K] [LinearOrder K] [IsStrictOrderedRing K] [Group G]

/-! ## C21: sequences before consolidation -/

/-- C21: a sequence of lawful frames is lawful, whatever its origin.  Exact comparison is assumed
(tolerance 0). -/
theorem seq_lawful (o : Origin) (fs : List (Geo K G)) (h : ∀ f ∈ fs, ∃ φ, Lawful f φ) :
    ∃ φ, Lawful ((build o fs).toGeo 0) φ := by
  obtain ⟨l, hl, rfl⟩ := exists_pairs h
  rw [build_eq]
  exact ⟨_, lawful_of_total hl _ rfl rfl (by simp only [Seq.total, foldl_total, mul_one])⟩

/-- C21: in the direction of the beam the transforms compose, and from `s` to `s` there is the
identity. -/
theorem seq_compose (o : Origin) (fs : List (Geo K G)) (h : ∀ f ∈ fs, ∃ φ, Lawful f φ)
    (q : Seq K G) (hq : q = build o fs) (a b c : K) (ha : q.extent.1 ≤ a) (hab : a ≤ b) (hbc : b ≤ c)
    (hc : c ≤ q.extent.2) :
    q.transform 0 a a = .ok 1 ∧
    ∃ x y, q.transform 0 a b = .ok x ∧ q.transform 0 b c = .ok y ∧
      q.transform 0 a c = .ok (y * x) := by
  obtain ⟨φ, hφ⟩ := seq_lawful o fs h
  subst hq
  have f1 := hφ.forward
  simp only [Seq.toGeo] at f1
  refine ⟨?_, _, _, f1 a b ha hab (hbc.trans hc), f1 b c (ha.trans hab) hbc hc, ?_⟩
  · rw [f1 a a ha le_rfl (hab.trans (hbc.trans hc))]; simp
  · rw [f1 a c ha (hab.trans hbc) hc]
    congr 1
    group

/-- C21: between two positions of one sub-frame the sequence answers like the sub-frame, at the
place where it sits. -/
theorem seq_local (o : Origin) (fs : List (Geo K G)) (h : ∀ f ∈ fs, ∃ φ, Lawful f φ)
    (q : Seq K G) (hq : q = build o fs) (f : Geo K G) (p : K) (hf : SitsAt q.extent.1 fs f p)
    (u v : K) (hu : f.first ≤ u) (huv : u ≤ v) (hv : v ≤ f.second) :
    q.transform 0 (p + u) (p + v) = f.transform u v := by
  subst hq
  obtain ⟨pre, post, rfl, hp⟩ := hf
  obtain ⟨l1, hl1, rfl⟩ := exists_pairs (fs := pre) (fun g hg => h g (by simp [hg]))
  obtain ⟨l2, hl2, rfl⟩ := exists_pairs (fs := post) (fun g hg => h g (by simp [hg]))
  obtain ⟨φ, hφ⟩ := h f (by simp)
  have hall : AllLawful (l1 ++ (f, φ) :: l2) := by
    intro x hx
    rcases List.mem_append.1 hx with hx | hx
    · exact hl1 x hx
    · rcases List.mem_cons.1 hx with rfl | hx
      · exact hφ
      · exact hl2 x hx
  have emap : (l1 ++ (f, φ) :: l2).map (·.1) = l1.map (·.1) ++ f :: l2.map (·.1) := by simp
  rw [build_eq] at hp ⊢
  rw [← emap] at hp ⊢
  have L := lawful_of_total hall ⟨_, _, o, none⟩ rfl rfl (by simp only [Seq.total, foldl_total, mul_one])
  have e := extent_shift (G := G) ⟨(l1 ++ (f, φ) :: l2).map (·.1), sumLen ((l1 ++ (f, φ) :: l2).map (·.1)), o, none⟩
  have f1 := L.forward
  simp only [Seq.toGeo] at f1
  have hsum : sumLen ((l1 ++ (f, φ) :: l2).map (·.1)) =
      sumLen (l1.map (·.1)) + f.len + sumLen (l2.map (·.1)) := by
    clear hp L e f1 hall h emap hl1
    induction l1 with
    | nil => simp [sumLen]
    | cons x l1 ih => simp only [List.cons_append, List.map_cons, sumLen, ih]; ring
  have n1 := sumLen_nonneg hl1
  have n2 := sumLen_nonneg hl2
  have n3 := hφ.extent
  dsimp only at e
  rw [f1 _ _ (by rw [e.1] at hp ⊢; linarith) (by linarith) (by rw [e.1] at hp; rw [e.2]; linarith),
    hφ.forward u v hu huv hv]
  have key : ∀ w, f.first ≤ w → w ≤ f.second →
      curve (l1 ++ (f, φ) :: l2) (p + w + shift o (sumLen ((l1 ++ (f, φ) :: l2).map (·.1)))) =
        φ w * (φ f.first)⁻¹ * prodTotal (l1.map (·.1)) := by
    intro w h1 h2
    have := curve_local hall (w - f.first) (by linarith) (by linarith)
    rw [show f.first + (w - f.first) = w by ring] at this
    rw [← this]
    congr 1
    rw [e.1] at hp
    linarith
  rw [key u hu (huv.trans hv), key v (hu.trans huv) hv]
  congr 1
  group

/-- C21: a position outside the extent is refused. -/
theorem seq_beyond (q : Seq K G) (a b : K) (hne : a ≠ b) (h : a < q.extent.1 ∨ q.extent.2 < a ∨ b < q.extent.1 ∨ q.extent.2 < b) :
    q.transform 0 a b = .throw .beyondExtent := by
  obtain ⟨e1, e2⟩ := extent_shift q
  rw [e1, e2] at h
  rw [Seq.transform, fequal_zero]
  simp only [hne.symm, decide_false, Bool.false_eq_true, if_false, Seq.transformFrom]
  rw [if_pos]
  rcases h with h | h | h | h
  · right; right; left; linarith
  · right; right; right; linarith
  · left; linarith
  · right; left; linarith

/-- C21 (partial): against the beam the transform is the inverse of the one along the beam when a
sub-frame boundary lies between the positions (`b` may sit on it).  Missing: two positions in one
sub-frame, see `seq_backward_same` and `seq_backward_violated`. -/
theorem seq_backward_partial (o : Origin) (pre post : List (Geo K G))
    (h : ∀ f ∈ pre ++ post, ∃ φ, Lawful f φ) (q : Seq K G) (hq : q = build o (pre ++ post))
    (hne : pre ≠ []) (a b : K) (hb0 : q.extent.1 ≤ b) (hb : b ≤ q.extent.1 + sumLen pre)
    (ha : q.extent.1 + sumLen pre < a) (ha1 : a ≤ q.extent.2) :
    ∃ x, q.transform 0 b a = .ok x ∧ q.transform 0 a b = .ok x⁻¹ := by
  subst hq
  obtain ⟨l1, hl1, rfl⟩ := exists_pairs (fs := pre) (fun g hg => h g (by simp [hg]))
  obtain ⟨l2, hl2, rfl⟩ := exists_pairs (fs := post) (fun g hg => h g (by simp [hg]))
  have hall : AllLawful (l1 ++ l2) := by
    intro x hx
    rcases List.mem_append.1 hx with hx | hx
    · exact hl1 x hx
    · exact hl2 x hx
  have hne' : l1 ≠ [] := by rintro rfl; exact hne rfl
  rw [build_eq, ← List.map_append] at hb0 hb ha ha1 ⊢
  obtain ⟨e1, e2⟩ := extent_shift (G := G)
    ⟨(l1 ++ l2).map (·.1), sumLen ((l1 ++ l2).map (·.1)), o, none⟩
  have L := lawful_of_total hall ⟨_, _, o, none⟩ rfl rfl (by simp only [Seq.total, foldl_total, mul_one])
  have f1 := L.forward b a hb0 (by linarith) ha1
  simp only [Seq.toGeo] at f1
  refine ⟨_, f1, ?_⟩
  dsimp only at e1 e2
  have hlt : b < a := by linarith
  rw [Seq.transform, fequal_zero]
  simp only [hlt.ne, decide_false, Bool.false_eq_true, if_false, Seq.transformFrom, fequal_zero]
  rw [if_neg (by intro hcon; rcases hcon with hcon | hcon | hcon | hcon <;> linarith)]
  have : decide (a + shift o (sumLen ((l1 ++ l2).map (·.1))) = 0) = false := by
    simp only [decide_eq_false_iff_not]; intro hcon; linarith
  simp only [this, Bool.false_and, Bool.false_eq_true, if_false]
  rw [if_pos (by linarith)]
  refine start_inv hall hne' _ _ (by linarith) (by linarith) _ ?_
  rw [start_ok hall _ _ (by linarith) (by linarith) (by linarith)]

/-- C21, what happens otherwise: with both positions inside one sub-frame the transform against
the beam is the one along the beam. -/
theorem seq_backward_same (o : Origin) (f : Geo K G) (q : Seq K G) (hq : q = build o [f])
    (a b : K) (hb : q.extent.1 ≤ b) (hab : b < a) (ha : a ≤ q.extent.2)
    (hfull : ¬ (b = q.extent.1 ∧ a = q.extent.2)) :
    q.transform 0 a b = q.transform 0 b a := by
  subst hq
  rw [build_eq] at *
  obtain ⟨e1, e2⟩ := extent_shift (G := G) ⟨[f], sumLen [f], o, none⟩
  rw [e1] at hb hfull
  rw [e2] at ha hfull
  dsimp only at hb ha hfull
  have hs : sumLen [f] = f.len := by simp [sumLen]
  rw [hs] at hb ha hfull
  simp only [Seq.transform, fequal_zero, hab.ne, hab.ne', decide_false, Bool.false_eq_true, if_false,
    Seq.transformFrom, hs]
  have g1 : ¬ (a + shift o f.len < 0 ∨ f.len < a + shift o f.len ∨ b + shift o f.len < 0 ∨
      f.len < b + shift o f.len) := by
    intro hcon; rcases hcon with hcon | hcon | hcon | hcon <;> linarith
  have g2 : ¬ (b + shift o f.len < 0 ∨ f.len < b + shift o f.len ∨ a + shift o f.len < 0 ∨
      f.len < a + shift o f.len) := by
    intro hcon; rcases hcon with hcon | hcon | hcon | hcon <;> linarith
  have g3 : decide (a + shift o f.len = 0) = false := by
    simp only [decide_eq_false_iff_not]; intro hcon; linarith
  have g4 : (decide (b + shift o f.len = 0) && decide (a + shift o f.len = f.len)) = false := by
    rw [Bool.and_eq_false_iff, decide_eq_false_iff_not, decide_eq_false_iff_not]
    by_contra hcon
    push Not at hcon
    exact hfull ⟨by linarith [hcon.1], by linarith [hcon.2]⟩
  rw [if_neg g1, if_neg g2]
  simp only [g3, g4, Bool.false_and, Bool.false_eq_true, if_false]
  rw [if_pos (by linarith), if_neg (by linarith)]
  simp only [start, leq_zero]
  rw [if_pos (by simp; linarith), if_pos (by simp; linarith), if_pos (by simp; linarith),
    if_pos (by simp; linarith)]

/-- A straight piece of length `len` with its origin in the middle; a transform is the signed
distance. -/
def drift (len : ℚ) : Geo ℚ (Multiplicative ℚ) where
  len := len
  first := -(len / 2)
  second := len / 2
  transform := fun a b =>
    if inBounds len b a then .ok (Multiplicative.ofAdd (b - a)) else .throw .beyondExtent
  total := Multiplicative.ofAdd len

theorem drift_lawful (len : ℚ) (h : 0 ≤ len) : Lawful (drift len) (fun s => Multiplicative.ofAdd s) := by
  constructor
  · exact h
  · simp only [drift]; ring
  · intro a b ha hab hb
    simp only [drift] at *
    rw [if_pos]
    · simp [← ofAdd_neg, ← ofAdd_add, sub_eq_add_neg]
    · simp only [inBounds, Bool.not_eq_true', Bool.or_eq_false_iff, decide_eq_false_iff_not, not_lt]
      constructor <;> rw [abs_le] <;> constructor <;> linarith
  · simp only [drift, ← ofAdd_neg, ← ofAdd_add]
    congr 1
    ring

/-- C21 does not hold as stated: inside one sub-frame the way back is not the inverse of the way
forth. -/
theorem seq_backward_violated : ∃ (fs : List (Geo ℚ (Multiplicative ℚ))) (a b : ℚ),
    (∀ f ∈ fs, ∃ φ, Lawful f φ) ∧ (build .entrance fs).extent = (0, 2) ∧ 0 ≤ b ∧ b < a ∧ a ≤ 2 ∧
    ∃ x, (build .entrance fs).transform 0 b a = .ok x ∧
      (build .entrance fs).transform 0 a b = .ok x ∧ x ≠ x⁻¹ := by
  refine ⟨[drift 2], 1, 0, ?_, by decide +kernel, by norm_num, by norm_num, by norm_num,
    Multiplicative.ofAdd 1, by decide +kernel, by decide +kernel, by decide +kernel⟩
  intro f hf
  rw [List.mem_singleton] at hf
  subst hf
  exact ⟨_, drift_lawful 2 (by norm_num)⟩

/-- C21 does not hold with a geometry patch at the end: the patch (a shift by 5 here) is left out
unless the whole sequence is asked for. -/
theorem seq_patch_violated :
    let q := build .entrance [drift 2, patch (Multiplicative.ofAdd 5)]
    q.transform 0 0 1 = .ok (Multiplicative.ofAdd 1) ∧
    q.transform 0 1 2 = .ok (Multiplicative.ofAdd 1) ∧
    q.transform 0 0 2 = .ok (Multiplicative.ofAdd 7) := by
  decide +kernel

example : (∀ f ∈ [drift 2, drift 4], ∃ φ, Lawful f φ) ∧
    (build .center [drift 2, drift 4]).extent = (-3, 3) ∧
    (build .center [drift 2, drift 4]).transform 0 (-2) 1 = .ok (Multiplicative.ofAdd 3) ∧
    (build .center [drift 2, drift 4]).transform 0 1 (-2) = .ok (Multiplicative.ofAdd (-3)) ∧
    (build .center [drift 2, drift 4]).transform 0 1 4 = .throw .beyondExtent ∧
    SitsAt (-3) [drift 2, drift 4] (drift 4) 1 := by
  refine ⟨?_, by decide +kernel, by decide +kernel, by decide +kernel, by decide +kernel,
    [drift 2], [], rfl, by decide +kernel⟩
  intro f hf
  simp only [List.mem_cons, List.not_mem_nil, or_false] at hf
  rcases hf with rfl | rfl
  · exact ⟨_, drift_lawful 2 (by norm_num)⟩
  · exact ⟨_, drift_lawful 4 (by norm_num)⟩

/-! ## C61: cached transforms -/

theorem centreLoop_total {l : List (Geo K G × (K → G))} (h : AllLawful l) (hne : l ≠ []) (s0 s : K)
    (t : G) (h0 : s ≤ s0) (h1 : s0 ≤ s + sumLen (l.map (·.1))) :
    ∃ tin tm rest, centreLoop 0 s0 (l.map (·.1)) s t = .ok (tin, tm, rest) ∧
      prodTotal rest * tm * tin⁻¹ = prodTotal (l.map (·.1)) * t := by
  induction l generalizing s t with
  | nil => exact absurd rfl hne
  | cons x l ih =>
    obtain ⟨f, φ⟩ := x
    have hf : Lawful f φ := h (f, φ) (by simp)
    have hl : AllLawful l := fun y hy => h y (by simp [hy])
    have he := hf.extent
    simp only [List.map_cons, sumLen] at h1
    simp only [List.map_cons, centreLoop, leq_zero, fequal_zero, prodTotal]
    rcases lt_trichotomy (s + f.len) s0 with hc | hc | hc
    · simp only [hc.le, hc.ne, not_lt.2 hc.le, decide_true, decide_false, if_true,
        Bool.false_eq_true, if_false]
      have hne' : l ≠ [] := by rintro rfl; simp [sumLen] at h1; linarith
      obtain ⟨a, b, c, e1, e2⟩ := ih hl hne' (s + f.len) (f.total * t) hc.le (by linarith)
      exact ⟨a, b, c, e1, by rw [e2, mul_assoc]⟩
    · simp only [hc, le_refl, decide_true, if_true]
      exact ⟨_, _, _, rfl, by group⟩
    · simp only [not_le.2 hc, hc.ne', hc, decide_false, if_true, Bool.false_eq_true, if_false]
      rw [hf.forward _ _ le_rfl (by linarith) (by linarith), Outcome.bind_ok,
        hf.forward _ _ (by linarith) (by linarith) le_rfl]
      simp only [Outcome.bind_ok, Outcome.pure_eq]
      exact ⟨_, _, _, rfl, by rw [hf.total]; group⟩

/-- C61: consolidating a sequence with its origin in the middle succeeds and keeps its total
transform; the consolidated sequence is lawful. -/
theorem center_lawful (fs : List (Geo K G)) (h : ∀ f ∈ fs, ∃ φ, Lawful f φ) (hne : fs ≠ []) :
    ∃ ps q', (build .center fs).consolidate 0 = .ok (ps, q') ∧
      q'.total = prodTotal fs ∧ ∃ φ, Lawful (q'.toGeo 0) φ := by
  obtain ⟨l, hl, rfl⟩ := exists_pairs h
  have hn := sumLen_nonneg hl
  obtain ⟨a, b, c, e1, e2⟩ := centreLoop_total hl (by rintro rfl; exact hne rfl)
    (sumLen (l.map (·.1)) / 2) 0 1 (by linarith) (by linarith)
  rw [build_eq]
  simp only [Seq.consolidate, Seq.calculateCached, Seq.centreCT]
  rw [e1]
  simp only [Outcome.bind_ok, Outcome.pure_eq]
  refine ⟨_, _, rfl, ?_, _, lawful_of_total hl _ rfl rfl ?_⟩
  all_goals
    simp only [Seq.total, foldl_total]
    rw [e2, mul_one]

/-- Geometries built by nesting: lawful leaves, sequences of such geometries not yet consolidated,
and consolidated sequences with their origin in the middle. -/
inductive Built : Geo K G → Prop where
  | leaf {f : Geo K G} {φ : K → G} : Lawful f φ → Built f
  | raw (o : Origin) (fs : List (Geo K G)) : (∀ f ∈ fs, Built f) → Built ((build o fs).toGeo 0)
  | center (fs : List (Geo K G)) (ps : List K) (q : Seq K G) : (∀ f ∈ fs, Built f) →
      (build .center fs).consolidate 0 = .ok (ps, q) → Built (q.toGeo 0)

/-- C21, C61: at any depth of nesting the geometry is lawful. -/
theorem built_lawful {g : Geo K G} (h : Built g) : ∃ φ, Lawful g φ := by
  induction h with
  | leaf h => exact ⟨_, h⟩
  | raw o fs _ ih => exact seq_lawful o fs ih
  | center fs ps q _ hc ih =>
    by_cases hne : fs = []
    · subst hne
      simp [build_eq, Seq.consolidate, Seq.calculateCached, Seq.centreCT, centreLoop] at hc
    · obtain ⟨ps', q', e, _, hφ⟩ := center_lawful fs ih hne
      rw [hc] at e
      cases e
      exact hφ

/-- C61 does not hold for a sequence with its origin at the entrance or exit: after consolidation
its total transform is the identity and so are both plane transforms, whatever the frames are. -/
theorem cached_identity (eps : K) (o : Origin) (ho : o ≠ .center) (fs : List (Geo K G)) :
    ∃ ps q', (build o fs).consolidate eps = .ok (ps, q') ∧ q'.total = 1 ∧
      q'.plane false = .ok 1 ∧ q'.plane true = .ok 1 := by
  rw [build_eq]
  cases o with
  | center => exact absurd rfl ho
  | entrance => exact ⟨_, _, rfl, by simp [Seq.total], by simp [Seq.plane], by simp [Seq.plane, Seq.total]⟩
  | exit => exact ⟨_, _, rfl, by simp [Seq.total], by simp [Seq.plane, Seq.total], by simp [Seq.plane]⟩

/-- C21, C61 violated: in a consolidated sequence with its origin at the entrance the way from 0 to
2 is not the way from 0 to 1 followed by that from 1 to 2. -/
theorem consolidated_entrance_violated : ∃ r,
    (build .entrance [drift 2]).consolidate 0 = .ok r ∧
    r.2.transform 0 0 1 = .ok (Multiplicative.ofAdd 1) ∧
    r.2.transform 0 1 2 = .ok (Multiplicative.ofAdd 1) ∧
    r.2.transform 0 0 2 = .ok 1 :=
  Outcome.exists_ok (by decide +kernel)

theorem sumLen_append (a b : List (Geo K G)) : sumLen (a ++ b) = sumLen a + sumLen b := by
  induction a with
  | nil => simp [sumLen]
  | cons x a ih => simp only [List.cons_append, sumLen, ih]; ring

theorem prodTotal_append (a b : List (Geo K G)) : prodTotal (a ++ b) = prodTotal b * prodTotal a := by
  induction a with
  | nil => simp [prodTotal]
  | cons x a ih => simp only [List.cons_append, prodTotal, ih]; group

/-- The loop passes over frames that end before the centre. -/
theorem centreLoop_skip {l : List (Geo K G × (K → G))} (h : AllLawful l) (fs : List (Geo K G))
    (s0 s : K) (t : G) (h0 : s + sumLen (l.map (·.1)) < s0) :
    centreLoop 0 s0 (l.map (·.1) ++ fs) s t =
      centreLoop 0 s0 fs (s + sumLen (l.map (·.1))) (prodTotal (l.map (·.1)) * t) := by
  induction l generalizing s t with
  | nil => simp [sumLen, prodTotal]
  | cons x l ih =>
    obtain ⟨f, φ⟩ := x
    have hl : AllLawful l := fun y hy => h y (by simp [hy])
    have hn := sumLen_nonneg hl
    simp only [List.map_cons, sumLen] at h0
    have hc : s + f.len < s0 := by linarith
    simp only [List.map_cons, List.cons_append, sumLen, prodTotal]
    rw [centreLoop]
    simp only [leq_zero, fequal_zero, hc.le, hc.ne, not_lt.2 hc.le, decide_true, decide_false, if_true,
        Bool.false_eq_true, if_false]
    rw [ih hl _ _ (by linarith), mul_assoc, add_assoc]

/-- C61, where the code takes the middle to be: when the middle of a sequence lies `d` into a
sub-frame `f` (strictly inside), the plane transforms start at the point `d` before the end of `f`. -/
theorem center_planes (pre post : List (Geo K G)) (f : Geo K G)
    (h : ∀ g ∈ pre ++ f :: post, ∃ φ, Lawful g φ) (φ : K → G) (hφ : Lawful f φ) (d : K) (hd0 : 0 < d)
    (hd1 : d < f.len) (hmid : sumLen pre + d = sumLen (pre ++ f :: post) / 2) :
    ∃ ps q', (build .center (pre ++ f :: post)).consolidate 0 = .ok (ps, q') ∧
      q'.plane false = .ok (φ (f.second - d) * (φ f.first)⁻¹ * prodTotal pre)⁻¹ ∧
      q'.plane true = .ok (prodTotal post * (φ f.second * (φ (f.second - d))⁻¹)) := by
  obtain ⟨l, hl, rfl⟩ := exists_pairs (fs := pre) (fun g hg => h g (by simp [hg]))
  rw [build_eq]
  simp only [Seq.consolidate, Seq.calculateCached, Seq.centreCT]
  have hext := hφ.extent
  rw [← hmid, centreLoop_skip hl _ _ _ _ (by linarith), centreLoop]
  have c1 : sumLen (l.map (·.1)) + d < 0 + sumLen (l.map (·.1)) + f.len := by linarith
  simp only [leq_zero, fequal_zero, not_le.2 c1, c1.ne', c1, decide_false, if_true,
    Bool.false_eq_true, if_false]
  have e : f.first + (0 + sumLen (l.map (·.1)) + f.len) - (sumLen (l.map (·.1)) + d) = f.second - d := by
    linarith
  rw [e, hφ.forward _ _ le_rfl (by linarith) (by linarith), Outcome.bind_ok,
    hφ.forward _ _ (by linarith) (by linarith) le_rfl]
  simp only [Outcome.bind_ok, Outcome.pure_eq]
  refine ⟨_, _, rfl, ?_, ?_⟩
  · simp [Seq.plane]
  · simp [Seq.plane, foldl_total]

/-- C61 (partial): the plane transforms lead from the origin to the planes when the middle of the
sequence is the middle of a sub-frame.  Missing: the general case, see `center_planes_violated`. -/
theorem center_planes_partial (pre post : List (Geo K G)) (f : Geo K G)
    (h : ∀ g ∈ pre ++ f :: post, ∃ φ, Lawful g φ) (hpos : 0 < f.len)
    (hmid : sumLen pre + f.len / 2 = sumLen (pre ++ f :: post) / 2) :
    ∃ ps q', (build .center (pre ++ f :: post)).consolidate 0 = .ok (ps, q') ∧
      ∃ Φ, Lawful (q'.toGeo 0) Φ ∧ q'.plane false = .ok (Φ q'.extent.1 * (Φ 0)⁻¹) ∧
        q'.plane true = .ok (Φ q'.extent.2 * (Φ 0)⁻¹) := by
  obtain ⟨φ, hφ⟩ := h f (by simp)
  obtain ⟨ps, q', e, p1, p2⟩ := center_planes pre post f h φ hφ (f.len / 2) (by linarith) (by linarith)
    hmid
  refine ⟨ps, q', e, ?_⟩
  obtain ⟨l1, hl1, rfl⟩ := exists_pairs (fs := pre) (fun g hg => h g (by simp [hg]))
  obtain ⟨l2, hl2, rfl⟩ := exists_pairs (fs := post) (fun g hg => h g (by simp [hg]))
  have hall : AllLawful (l1 ++ (f, φ) :: l2) := by
    intro x hx
    rcases List.mem_append.1 hx with hx | hx
    · exact hl1 x hx
    · rcases List.mem_cons.1 hx with rfl | hx
      · exact hφ
      · exact hl2 x hx
  have emap : (l1 ++ (f, φ) :: l2).map (·.1) = l1.map (·.1) ++ f :: l2.map (·.1) := by simp
  obtain ⟨ps2, q2, e', ht, -⟩ := center_lawful (l1.map (·.1) ++ f :: l2.map (·.1)) h (by simp)
  rw [e] at e'
  cases e'
  have hq : q'.frames = l1.map (·.1) ++ f :: l2.map (·.1) ∧
      q'.lenT = sumLen (l1.map (·.1) ++ f :: l2.map (·.1)) ∧ q'.omode = .center := by
    rw [build_eq] at e
    simp only [Seq.consolidate, Seq.calculateCached, Seq.centreCT] at e
    revert e
    cases centreLoop 0 (sumLen (l1.map (·.1) ++ f :: l2.map (·.1)) / 2)
        (l1.map (·.1) ++ f :: l2.map (·.1)) 0 1 with
    | ok v =>
      simp only [Outcome.bind_ok, Outcome.pure_eq]
      intro e
      cases e
      exact ⟨rfl, rfl, rfl⟩
    | throw _ => simp
    | ub => simp
  have L := lawful_of_total hall q' (by rw [hq.1, emap]) (by rw [hq.2.1, emap]) (by rw [ht, emap])
  refine ⟨_, L, ?_, ?_⟩
  · rw [p1]
    obtain ⟨e1, -⟩ := extent_shift q'
    congr 1
    simp only [e1, hq.2.2, hq.2.1, shift]
    rw [show -(sumLen (l1.map (·.1) ++ f :: l2.map (·.1)) / 2) +
      sumLen (l1.map (·.1) ++ f :: l2.map (·.1)) / 2 = 0 by ring, curve_zero hall, zero_add, ← hmid,
      curve_local hall _ (by linarith) (by linarith)]
    have := hφ.extent
    rw [show f.first + f.len / 2 = f.second - f.len / 2 by linarith, one_mul]
  · rw [p2]
    obtain ⟨-, e2⟩ := extent_shift q'
    congr 1
    simp only [e2, hq.2.2, hq.2.1, shift]
    rw [show sumLen (l1.map (·.1) ++ f :: l2.map (·.1)) -
      sumLen (l1.map (·.1) ++ f :: l2.map (·.1)) / 2 + sumLen (l1.map (·.1) ++ f :: l2.map (·.1)) / 2
      = sumLen (l1.map (·.1) ++ f :: l2.map (·.1)) by ring, zero_add, ← emap, curve_full hall, emap,
      ← hmid, curve_local hall _ (by linarith) (by linarith), prodTotal_append, prodTotal, hφ.total]
    have := hφ.extent
    rw [show f.first + f.len / 2 = f.second - f.len / 2 by linarith]
    group

/-- C61 does not hold: with frames of length 1 and 3 the transform to the entrance plane leads back
3 instead of 2. -/
theorem center_planes_violated : ∃ r,
    (build .center [drift 1, drift 3]).consolidate 0 = .ok r ∧
    r.2.extent = (-2, 2) ∧
    r.2.plane false = .ok (Multiplicative.ofAdd (-3)) ∧
    r.2.plane true = .ok (Multiplicative.ofAdd 1) :=
  Outcome.exists_ok (by decide +kernel)

example : Built ((build .center [drift 1, (build .exit [drift 2, drift 3]).toGeo 0]).toGeo 0) := by
  refine .raw _ _ ?_
  intro f hf
  simp only [List.mem_cons, List.not_mem_nil, or_false] at hf
  rcases hf with rfl | rfl
  · exact .leaf (drift_lawful 1 (by norm_num))
  · refine .raw _ _ ?_
    intro f hf
    simp only [List.mem_cons, List.not_mem_nil, or_false] at hf
    rcases hf with rfl | rfl
    · exact .leaf (drift_lawful 2 (by norm_num))
    · exact .leaf (drift_lawful 3 (by norm_num))

/-- The middle of 2 + 4 + 2 is the middle of the 4. -/
example : sumLen [drift 2] + (drift 4).len / 2 = sumLen ([drift 2] ++ drift 4 :: [drift 2]) / 2 ∧
    ∃ r, (build .center [drift 2, drift 4, drift 2]).consolidate 0 = .ok r ∧
      r.2.plane false = .ok (Multiplicative.ofAdd (-4)) ∧
      r.2.plane true = .ok (Multiplicative.ofAdd 4) :=
  ⟨by decide +kernel, Outcome.exists_ok (by decide +kernel)⟩

/-! ## C62: sub-frames are placed end to end -/

theorem positions_tile (fs : List (Geo K G)) (h : ∀ f ∈ fs, f.second - f.first = f.len) (s : K) :
    (positions s fs).length = fs.length ∧
    Tiles (fs.zip (positions s fs)) s (s + sumLen fs) := by
  induction fs generalizing s with
  | nil => simp [positions, Tiles, sumLen]
  | cons f fs ih =>
    have h1 := h f (by simp)
    obtain ⟨i1, i2⟩ := ih (fun g hg => h g (by simp [hg])) (s - f.first + f.second)
    refine ⟨by simp [positions, i1], ?_⟩
    simp only [positions, List.zip_cons_cons, Tiles, sumLen]
    refine ⟨by ring, ?_⟩
    rw [show s + (f.len + sumLen fs) = s - f.first + f.second + sumLen fs by rw [← h1]; ring]
    exact i2

/-- C62: after consolidation the sub-frames fill the extent of the sequence end to end, in order. -/
theorem consolidate_tiles (eps : K) (o : Origin) (fs : List (Geo K G))
    (h : ∀ f ∈ fs, f.second - f.first = f.len) (ps : List K) (q' : Seq K G)
    (hc : (build o fs).consolidate eps = .ok (ps, q')) :
    ps.length = fs.length ∧ Tiles (fs.zip ps) (build o fs).extent.1 (build o fs).extent.2 := by
  rw [build_eq] at hc ⊢
  simp only [Seq.consolidate] at hc
  revert hc
  cases Seq.calculateCached eps (⟨fs, sumLen fs, o, none⟩ : Seq K G) with
  | throw _ => simp
  | ub => simp
  | ok v =>
    simp only [Outcome.bind_ok, Outcome.pure_eq, Outcome.ok.injEq, Prod.mk.injEq]
    rintro ⟨rfl, rfl⟩
    obtain ⟨t1, t2⟩ := positions_tile fs h (Seq.startPosition ⟨fs, sumLen fs, o, none⟩)
    refine ⟨t1, ?_⟩
    cases o
    · simpa [Seq.extent, Seq.startPosition] using t2
    · simp only [Seq.extent, Seq.startPosition] at t2 ⊢
      rw [show sumLen fs / 2 = -sumLen fs / 2 + sumLen fs by ring]
      exact t2
    · simp only [Seq.extent, Seq.startPosition] at t2 ⊢
      rw [neg_add_cancel] at t2
      exact t2

example : ∃ r, (build .center [drift 2, drift 4]).consolidate 0 = .ok r ∧ r.1 = [-2, 1] :=
  Outcome.exists_ok (by decide +kernel)

/-! ## C60: arcs and straight pieces -/

section leaf
open Transform Rotation

theorem makeArc_point (phi h : ℝ) (p : V3 ℝ) :
    (makeArc Real.cos Real.sin phi h).point p =
      ⟨(p.x - (Real.cos phi - 1) / h) * Real.cos phi + (p.z - Real.sin phi / h) * Real.sin phi, p.y,
       (p.z - Real.sin phi / h) * Real.cos phi - (p.x - (Real.cos phi - 1) / h) * Real.sin phi⟩ := by
  simp only [makeArc, T3.point, Rotation.rotationY, vsub]
  by_cases hz : phi = 0
  · subst hz
    simp [Rep.rotate]
  · rw [if_neg (by simpa using hz)]
    simp only [Rep.rotate, Real.cos_neg, Real.sin_neg]
    ext
    · simp only; ring
    · simp only; ring
    · simp only; ring

theorem arc_add (phi psi h : ℝ) (hh : h ≠ 0) (p : V3 ℝ) :
    (makeArc Real.cos Real.sin (phi + psi) h).point p =
      (makeArc Real.cos Real.sin psi h).point ((makeArc Real.cos Real.sin phi h).point p) := by
  simp only [makeArc_point, Real.cos_add, Real.sin_add]
  have e1 := Real.sin_sq_add_cos_sq phi
  have e2 := Real.sin_sq_add_cos_sq psi
  generalize Real.cos phi = a at *
  generalize Real.sin phi = b at *
  generalize Real.cos psi = c at *
  generalize Real.sin psi = d at *
  ext
  · field_simp
    linear_combination (c - c^2 - d^2) * e1
  · rfl
  · field_simp
    linear_combination (-d) * e1

theorem makeArc_zero (h : ℝ) (p : V3 ℝ) : (makeArc Real.cos Real.sin 0 h).point p = p := by
  rw [makeArc_point]
  simp

/-- C60: on an arc the transforms compose in any order of the positions, the one from `a` to `a` is
the identity, the way back is the inverse, and the total and plane transforms agree with them. -/
theorem arc_lawful (len h : ℝ) (hh : h ≠ 0) (a b c : ℝ) (ha : |a| ≤ len / 2) (hb : |b| ≤ len / 2)
    (hc : |c| ≤ len / 2) :
    ∃ ab bc ac aa ba tot to0 pin pout,
      arcTransform Real.cos Real.sin len h a b = .ok ab ∧
      arcTransform Real.cos Real.sin len h b c = .ok bc ∧
      arcTransform Real.cos Real.sin len h a c = .ok ac ∧
      arcTransform Real.cos Real.sin len h a a = .ok aa ∧
      arcTransform Real.cos Real.sin len h b a = .ok ba ∧
      arcTotal Real.cos Real.sin len h = .ok tot ∧
      arcTransform Real.cos Real.sin len h (-(len / 2)) 0 = .ok to0 ∧
      arcPlane Real.cos Real.sin len h false = .ok pin ∧
      arcPlane Real.cos Real.sin len h true = .ok pout ∧
      ∀ p, ac.point p = bc.point (ab.point p) ∧ aa.point p = p ∧ ba.point (ab.point p) = p ∧
        pin.point (to0.point p) = p ∧ tot.point p = pout.point (to0.point p) := by
  have hl : 0 ≤ len / 2 := (abs_nonneg a).trans ha
  have e0 : |(0 : ℝ)| ≤ len / 2 := by simpa using hl
  have e1 : |-(len / 2)| ≤ len / 2 := by rw [abs_neg, abs_of_nonneg hl]
  have key : ∀ x y : ℝ, |x| ≤ len / 2 → |y| ≤ len / 2 →
      arcTransform Real.cos Real.sin len h x y = .ok (makeArc Real.cos Real.sin ((y - x) * h) h) := by
    intro x y hx hy
    have : inBounds len y x = true := by simp [inBounds, hx, hy]
    simp [arcTransform, this, hh]
  refine ⟨_, _, _, _, _, _, _, _, _, key a b ha hb, key b c hb hc, key a c ha hc, key a a ha ha,
    key b a hb ha, if_neg hh, key _ _ e1 e0, if_neg hh, if_neg hh, fun p => ⟨?_, ?_, ?_, ?_, ?_⟩⟩
  · rw [← arc_add _ _ _ hh]; congr 2; ring
  · rw [sub_self, zero_mul, makeArc_zero]
  · rw [← arc_add _ _ _ hh, show (b - a) * h + (a - b) * h = 0 by ring, makeArc_zero]
  · rw [← arc_add _ _ _ hh]
    simp only [Bool.false_eq_true, if_false]
    rw [show (0 - -(len / 2)) * h + -(len * h) / 2 = 0 by ring, makeArc_zero]
  · rw [← arc_add _ _ _ hh]
    simp only [if_true]
    congr 2; ring

/-- C60: the arc really is one of curvature `h`.  Seen from the frame at `a`, the origin of the frame
at `s` moves with unit speed along its own local z axis, and that axis turns towards the negative
local x axis at the rate `h`.  The local x and z axes are the points that the transform takes to
`(1,0,0)` and `(0,0,1)`. -/
theorem arc_curvature (h : ℝ) (hh : h ≠ 0) (a s : ℝ) :
    let o : ℝ → V3 ℝ := fun s => (makeArc Real.cos Real.sin ((s - a) * h) h).x0
    ∃ ex ez : ℝ → V3 ℝ,
      (∀ t, (makeArc Real.cos Real.sin ((t - a) * h) h).point (vadd (o t) (ex t)) = ⟨1, 0, 0⟩) ∧
      (∀ t, (makeArc Real.cos Real.sin ((t - a) * h) h).point (vadd (o t) (ez t)) = ⟨0, 0, 1⟩) ∧
      HasDerivAt (fun t => (o t).x) (ez s).x s ∧ HasDerivAt (fun t => (o t).y) (ez s).y s ∧
      HasDerivAt (fun t => (o t).z) (ez s).z s ∧
      HasDerivAt (fun t => (ez t).x) (-h * (ex s).x) s ∧
      HasDerivAt (fun t => (ez t).y) (-h * (ex s).y) s ∧
      HasDerivAt (fun t => (ez t).z) (-h * (ex s).z) s := by
  intro o
  have hphi : HasDerivAt (fun t : ℝ => (t - a) * h) h s := by
    simpa using ((hasDerivAt_id s).sub_const a).mul_const h
  refine ⟨fun t => ⟨Real.cos ((t - a) * h), 0, Real.sin ((t - a) * h)⟩,
    fun t => ⟨-Real.sin ((t - a) * h), 0, Real.cos ((t - a) * h)⟩, ?_, ?_, ?_, ?_, ?_, ?_, ?_, ?_⟩
  · intro t
    rw [makeArc_point]
    have e := Real.sin_sq_add_cos_sq ((t - a) * h)
    ext
    · simp only [o, makeArc, vadd]; linear_combination e
    · simp [o, makeArc, vadd]
    · simp only [o, makeArc, vadd]; ring
  · intro t
    rw [makeArc_point]
    have e := Real.sin_sq_add_cos_sq ((t - a) * h)
    ext
    · simp only [o, makeArc, vadd]; ring
    · simp [o, makeArc, vadd]
    · simp only [o, makeArc, vadd]; linear_combination e
  · have := ((hphi.cos).sub_const 1).div_const h
    simp only [o, makeArc]
    exact this.congr_deriv (by field_simp)
  · simpa [o, makeArc] using hasDerivAt_const s (0 : ℝ)
  · have := (hphi.sin).div_const h
    simp only [o, makeArc]
    exact this.congr_deriv (by field_simp)
  · have := hphi.sin.neg
    exact this.congr_deriv (by simp only []; ring)
  · simpa using hasDerivAt_const s (0 : ℝ)
  · have := hphi.cos
    exact this.congr_deriv (by simp only []; ring)

/-- C60: a straight geometry. -/
theorem rect_lawful (len : ℝ) (a b c : ℝ) (ha : |a| ≤ len / 2) (hb : |b| ≤ len / 2)
    (hc : |c| ≤ len / 2) :
    ∃ ab bc ac aa ba to0, rectTransform len a b = .ok ab ∧ rectTransform len b c = .ok bc ∧
      rectTransform len a c = .ok ac ∧ rectTransform len a a = .ok aa ∧
      rectTransform len b a = .ok ba ∧ rectTransform len (-(len / 2)) 0 = .ok to0 ∧
      ∀ p, ac.point p = bc.point (ab.point p) ∧ aa.point p = p ∧ ba.point (ab.point p) = p ∧
        (rectPlane len false).point (to0.point p) = p ∧
        (rectTotal len).point p = (rectPlane len true).point (to0.point p) ∧
        ab.point p = ⟨p.x, p.y, p.z - (b - a)⟩ := by
  have hl : 0 ≤ len / 2 := (abs_nonneg a).trans ha
  have e0 : |(0 : ℝ)| ≤ len / 2 := by simpa using hl
  have e1 : |-(len / 2)| ≤ len / 2 := by rw [abs_neg, abs_of_nonneg hl]
  have key : ∀ x y : ℝ, |x| ≤ len / 2 → |y| ≤ len / 2 →
      rectTransform len x y = .ok (T3.translation 0 0 (y - x)) := by
    intro x y hx hy
    have : inBounds len y x = true := by simp [inBounds, hx, hy]
    simp [rectTransform, this]
  refine ⟨_, _, _, _, _, _, key a b ha hb, key b c hb hc, key a c ha hc, key a a ha ha,
    key b a hb ha, key _ _ e1 e0, fun p => ?_⟩
  refine ⟨?_, ?_, ?_, ?_, ?_, ?_⟩ <;>
    ext <;> simp only [T3.translation, T3.point, Rep.rotate, vsub, rectPlane, rectTotal, if_true,
      Bool.false_eq_true, if_false] <;> ring

/-- C60: outside its bounds a geometry refuses to answer. -/
theorem leaf_beyond (cos sin : ℝ → ℝ) (len h a b : ℝ) (hout : len / 2 < |a| ∨ len / 2 < |b|) :
    arcTransform cos sin len h a b = .throw .beyondExtent ∧
    rectTransform len a b = .throw .beyondExtent := by
  have : inBounds len b a = false := by
    rcases hout with h | h <;> simp [inBounds, h]
  simp [arcTransform, rectTransform, this]

example : |(1 : ℝ)| ≤ 4 / 2 ∧ |(-2 : ℝ)| ≤ 4 / 2 := by norm_num

end leaf

#print axioms seq_lawful
#print axioms seq_compose
#print axioms seq_local
#print axioms seq_beyond
#print axioms seq_backward_partial
#print axioms seq_backward_same
#print axioms seq_backward_violated
#print axioms seq_patch_violated
#print axioms center_lawful
#print axioms built_lawful
#print axioms cached_identity
#print axioms consolidated_entrance_violated
#print axioms center_planes
#print axioms center_planes_partial
#print axioms center_planes_violated
#print axioms consolidate_tiles
#print axioms arc_lawful
#print axioms arc_curvature
#print axioms rect_lawful
#print axioms leaf_beyond

end Verif.Frame
