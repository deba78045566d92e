import Mathlib.Analysis.SpecialFunctions.Integrals.Basic
import Verif.HollowLens.Spec

/-!
# Lemmas on the hollow electron lens
-/

namespace Verif.HollowLens
open Verif Verif.Symplectic Verif.HollowLens.Spec Real MeasureTheory intervalIntegral

theorem bind_ok_iff {α β : Type} {x : Outcome Unit α} {f : α → Outcome Unit β} {b : β} :
    x.bind f = .ok b ↔ ∃ a, x = .ok a ∧ f a = .ok b := by
  cases x <;> simp [Outcome.bind]

/-! ## The current within a radius -/

theorem annulus_int {a b R : ℝ} (ha : 0 ≤ a) (hR : a ≤ R) (hb : R ≤ b) :
    ∫ r in (0 : ℝ)..R, annulus a b r * r = (R ^ 2 - a ^ 2) / 2 := by
  have i1 : IntervalIntegrable (fun r => annulus a b r * r) volume 0 a :=
    (intervalIntegrable_const (c := (0 : ℝ))).congr (by
      intro r hr
      rw [Set.uIoc_of_le ha] at hr
      simp [annulus, not_lt.2 hr.2])
  have i2 : IntervalIntegrable (fun r => annulus a b r * r) volume a R :=
    (continuous_id.intervalIntegrable a R).congr (by
      intro r hr
      rw [Set.uIoc_of_le hR] at hr
      simp [annulus, hr.1, hr.2.trans hb])
  rw [← integral_add_adjacent_intervals i1 i2,
    integral_congr_ae (g := fun _ => (0 : ℝ)) (a := 0) (b := a) (Filter.Eventually.of_forall fun r hr => by
      rw [Set.uIoc_of_le ha] at hr
      simp [annulus, not_lt.2 hr.2]),
    integral_congr_ae (g := fun r => r) (a := a) (b := R) (Filter.Eventually.of_forall fun r hr => by
      rw [Set.uIoc_of_le hR] at hr
      simp [annulus, hr.1, hr.2.trans hb])]
  simp

theorem annulus_inside {a b R : ℝ} (h0 : 0 ≤ R) (hR : R ≤ a) : ∫ r in (0 : ℝ)..R, annulus a b r * r = 0 := by
  rw [integral_congr_ae (g := fun _ => (0 : ℝ)) (Filter.Eventually.of_forall fun r hr => by
      rw [Set.uIoc_of_le h0] at hr
      simp [annulus, not_lt.2 (hr.2.trans hR)])]
  simp

theorem annulus_outside {a b R : ℝ} (ha : 0 ≤ a) (hab : a ≤ b) (hR : b ≤ R) :
    ∫ r in (0 : ℝ)..R, annulus a b r * r = (b ^ 2 - a ^ 2) / 2 := by
  have i1 : IntervalIntegrable (fun r => annulus a b r * r) volume 0 a :=
    (intervalIntegrable_const (c := (0 : ℝ))).congr (by
      intro r hr
      rw [Set.uIoc_of_le ha] at hr
      simp [annulus, not_lt.2 hr.2])
  have i2 : IntervalIntegrable (fun r => annulus a b r * r) volume a b :=
    (continuous_id.intervalIntegrable a b).congr (by
      intro r hr
      rw [Set.uIoc_of_le hab] at hr
      simp [annulus, hr.1, hr.2])
  have i3 : IntervalIntegrable (fun r => annulus a b r * r) volume b R :=
    (intervalIntegrable_const (c := (0 : ℝ))).congr (by
      intro r hr
      rw [Set.uIoc_of_le hR] at hr
      simp [annulus, not_le.2 hr.1])
  rw [← integral_add_adjacent_intervals (i1.trans i2) i3, annulus_int ha hab le_rfl,
    integral_congr_ae (g := fun _ => (0 : ℝ)) (a := b) (b := R) (Filter.Eventually.of_forall fun r hr => by
      rw [Set.uIoc_of_le hR] at hr
      simp [annulus, not_le.2 hr.1])]
  simp

/-- The part of an evenly spread current within a radius. -/
theorem enclosed_annulus {a b R : ℝ} (ha : 0 ≤ a) (hab : a < b) (hR : 0 ≤ R) :
    enclosed (annulus a b) b R = if R ≤ a then 0 else if R < b then (R ^ 2 - a ^ 2) / (b ^ 2 - a ^ 2) else 1 := by
  have hp : b ^ 2 - a ^ 2 ≠ 0 := by nlinarith
  unfold enclosed
  rw [annulus_int ha hab.le le_rfl]
  split
  · rename_i h; rw [annulus_inside hR h, zero_div]
  · rename_i h
    rw [not_le] at h
    split
    · rename_i h2; rw [annulus_int ha h.le h2.le]; field_simp
    · rename_i h2; rw [annulus_outside ha hab.le (not_lt.1 h2)]; field_simp

/-- One piece of a density given by points. -/
theorem piece_int (x0 y0 x1 y1 : ℝ) (h : x0 ≠ x1) (R : ℝ) :
    ∫ r in x0..R, (y0 + (y1 - y0) * ((r - x0) / (x1 - x0))) * r = seg x0 y0 x1 y1 R := by
  have hd : x1 - x0 ≠ 0 := sub_ne_zero.2 h.symm
  have e : (fun r : ℝ => (y0 + (y1 - y0) * ((r - x0) / (x1 - x0))) * r) =
      fun r => (y1 - y0) / (x1 - x0) * r ^ 2 + (y0 - x0 * (y1 - y0) / (x1 - x0)) * r ^ 1 := by
    funext r; field_simp; ring
  have c1 : IntervalIntegrable (fun r : ℝ => (y1 - y0) / (x1 - x0) * r ^ 2) volume x0 R :=
    Continuous.intervalIntegrable (by fun_prop) _ _
  have c2 : IntervalIntegrable (fun r : ℝ => (y0 - x0 * (y1 - y0) / (x1 - x0)) * r ^ 1) volume x0 R :=
    Continuous.intervalIntegrable (by fun_prop) _ _
  rw [e, intervalIntegral.integral_add c1 c2, intervalIntegral.integral_const_mul, intervalIntegral.integral_const_mul,
    integral_pow, integral_pow]
  unfold seg
  push_cast
  ring

/-- The integral of a density given by points from the first point on. -/
noncomputable def cum : List (ℝ × ℝ) → ℝ → ℝ
  | p :: q :: t, R => if R < q.1 then seg p.1 p.2 q.1 q.2 R else seg p.1 p.2 q.1 q.2 q.1 + cum (q :: t) R
  | _, _ => 0

/-- Points in order. -/
def Ordered : List (ℝ × ℝ) → Prop
  | p :: q :: t => p.1 < q.1 ∧ Ordered (q :: t)
  | _ => True

theorem through_before : ∀ {t : List (ℝ × ℝ)} {p : ℝ × ℝ}, Ordered (p :: t) → ∀ {r : ℝ}, r ≤ p.1 → through (p :: t) r = 0
  | [], _, _, _, _ => rfl
  | q :: t, p, h, r, hr => by
    rw [through, if_neg (by intro h'; linarith [h'.1])]
    exact through_before h.2 (hr.trans h.1.le)

theorem through_piece {p q : ℝ × ℝ} {t : List (ℝ × ℝ)} (R : ℝ) (hR : R ≤ q.1) (hp : p.1 ≤ R) :
    IntervalIntegrable (fun r => through (p :: q :: t) r * r) volume p.1 R ∧ (p.1 ≠ q.1 →
    ∫ r in p.1..R, through (p :: q :: t) r * r = seg p.1 p.2 q.1 q.2 R) := by
  have e : ∀ r ∈ Set.uIoc p.1 R, (p.2 + (q.2 - p.2) * ((r - p.1) / (q.1 - p.1))) * r = through (p :: q :: t) r * r := by
    intro r hr
    rw [Set.uIoc_of_le hp] at hr
    rw [through, if_pos ⟨hr.1, hr.2.trans hR⟩]
  refine ⟨(Continuous.intervalIntegrable (by fun_prop) _ _ : IntervalIntegrable
    (fun r => (p.2 + (q.2 - p.2) * ((r - p.1) / (q.1 - p.1))) * r) volume p.1 R).congr e, fun h => ?_⟩
  rw [← piece_int _ _ _ _ h]
  exact (integral_congr_ae (Filter.Eventually.of_forall e)).symm

theorem through_int : ∀ {t : List (ℝ × ℝ)} {p : ℝ × ℝ}, Ordered (p :: t) → ∀ {R : ℝ}, p.1 ≤ R →
    IntervalIntegrable (fun r => through (p :: t) r * r) volume p.1 R ∧
    ∫ r in p.1..R, through (p :: t) r * r = cum (p :: t) R
  | [], p, _, R, _ => by simp [through, cum]
  | q :: t, p, h, R, hp => by
    rw [cum]
    split
    · rename_i hR
      obtain ⟨i, e⟩ := through_piece (t := t) R hR.le hp
      exact ⟨i, e h.1.ne⟩
    · rename_i hR
      rw [not_lt] at hR
      obtain ⟨i1, e1⟩ := through_piece (p := p) (t := t) q.1 le_rfl h.1.le
      obtain ⟨i2, e2⟩ := through_int h.2 hR
      have e : ∀ r ∈ Set.uIoc q.1 R, through (q :: t) r * r = through (p :: q :: t) r * r := by
        intro r hr
        rw [Set.uIoc_of_le hR] at hr
        conv_rhs => rw [through]
        rw [if_neg (by intro h'; linarith [h'.2, hr.1])]
      have i3 := i2.congr e
      refine ⟨i1.trans i3, ?_⟩
      rw [← integral_add_adjacent_intervals i1 i3, e1 h.1.ne, ← e2,
        integral_congr_ae (a := q.1) (b := R) (Filter.Eventually.of_forall e)]

theorem through_whole {t : List (ℝ × ℝ)} {p : ℝ × ℝ} (h : Ordered (p :: t)) (h0 : 0 ≤ p.1) {R : ℝ} (hR : p.1 ≤ R) :
    ∫ r in (0 : ℝ)..R, through (p :: t) r * r = cum (p :: t) R := by
  have e : ∀ r ∈ Set.uIoc 0 p.1, (0 : ℝ) = through (p :: t) r * r := by
    intro r hr
    rw [Set.uIoc_of_le h0] at hr
    rw [through_before h hr.2, zero_mul]
  have i1 := (intervalIntegrable_const (μ := volume) (a := 0) (b := p.1) (c := (0 : ℝ))).congr e
  obtain ⟨i2, e2⟩ := through_int h hR
  rw [← integral_add_adjacent_intervals i1 i2, e2, ← integral_congr_ae (Filter.Eventually.of_forall e)]
  simp

theorem through_none {t : List (ℝ × ℝ)} {p : ℝ × ℝ} (h : Ordered (p :: t)) {R : ℝ} (h0 : 0 ≤ R) (hR : R ≤ p.1) :
    ∫ r in (0 : ℝ)..R, through (p :: t) r * r = 0 := by
  rw [← integral_congr_ae (f := fun _ => (0 : ℝ)) (Filter.Eventually.of_forall fun r hr => by
    rw [Set.uIoc_of_le h0] at hr
    rw [through_before h (hr.2.trans hR), zero_mul])]
  simp

theorem ordered_tevatron {a : ℝ} (h : 0 < a) : Ordered (tevatron a) := by
  simp only [tevatron, Ordered]
  refine ⟨?_, ?_, ?_, ?_, trivial⟩ <;> norm_num <;> nlinarith

theorem ordered_lhc {a : ℝ} (h : 0 < a) : Ordered (forLHC a) := by
  simp only [forLHC, Ordered]
  refine ⟨?_, ?_, ?_, ?_, trivial⟩ <;> norm_num <;> nlinarith

theorem seg_end {x0 y0 x1 y1 : ℝ} (h : x0 < x1) :
    seg x0 y0 x1 y1 x1 = (x1 - x0) * (y0 * (2 * x0 + x1) + y1 * (x0 + 2 * x1)) / 6 := by
  have hd : x1 - x0 ≠ 0 := (sub_pos.2 h).ne'
  unfold seg
  field_simp
  ring

theorem seg_pos {x0 y0 x1 y1 : ℝ} (h0 : 0 < x0) (h : x0 < x1) (hy0 : 0 ≤ y0) (hy1 : 0 ≤ y1) (hy : 0 < y0 + y1) :
    0 < seg x0 y0 x1 y1 x1 := by
  rw [seg_end h]
  have : 0 < x1 - x0 := sub_pos.2 h
  have : 0 < y0 * (2 * x0 + x1) + y1 * (x0 + 2 * x1) := by nlinarith
  positivity

/-- The branches of `CalcKickRadial` are the integral of the density. -/
theorem cum_factor {x0 x1 x2 x3 x4 y0 y1 y2 y3 y4 R : ℝ} (h0 : 0 < x0) (h1 : x0 < x1) (h2 : x1 < x2) (h3 : x2 < x3)
    (h4 : x3 < x4) (hR : x0 < R) (z0 : 0 ≤ y0) (z1 : 0 < y1) (z2 : 0 ≤ y2) (z3 : 0 < y3) (z4 : 0 ≤ y4) :
    enclosed (through [(x0, y0), (x1, y1), (x2, y2), (x3, y3), (x4, y4)]) x4 R =
      if R < x0 then 0
      else if R < x1 then seg x0 y0 x1 y1 R / (seg x0 y0 x1 y1 x1 + seg x1 y1 x2 y2 x2 + seg x2 y2 x3 y3 x3 + seg x3 y3 x4 y4 x4)
      else if R < x2 then (seg x0 y0 x1 y1 x1 + seg x1 y1 x2 y2 R) /
        (seg x0 y0 x1 y1 x1 + seg x1 y1 x2 y2 x2 + seg x2 y2 x3 y3 x3 + seg x3 y3 x4 y4 x4)
      else if R < x3 then (seg x0 y0 x1 y1 x1 + seg x1 y1 x2 y2 x2 + seg x2 y2 x3 y3 R) /
        (seg x0 y0 x1 y1 x1 + seg x1 y1 x2 y2 x2 + seg x2 y2 x3 y3 x3 + seg x3 y3 x4 y4 x4)
      else if R < x4 then (seg x0 y0 x1 y1 x1 + seg x1 y1 x2 y2 x2 + seg x2 y2 x3 y3 x3 + seg x3 y3 x4 y4 R) /
        (seg x0 y0 x1 y1 x1 + seg x1 y1 x2 y2 x2 + seg x2 y2 x3 y3 x3 + seg x3 y3 x4 y4 x4)
      else 1 := by
  have ho : Ordered [(x0, y0), (x1, y1), (x2, y2), (x3, y3), (x4, y4)] := ⟨h1, h2, h3, h4, trivial⟩
  have p0 := seg_pos h0 h1 z0 z1.le (by linarith)
  have p1 := seg_pos (h0.trans h1) h2 z1.le z2 (by linarith)
  have p2 := seg_pos (h0.trans (h1.trans h2)) h3 z2 z3.le (by linarith)
  have p3 := seg_pos (h0.trans (h1.trans (h2.trans h3))) h4 z3.le z4 (by linarith)
  unfold enclosed
  rw [through_whole ho h0.le hR.le, through_whole ho h0.le (by simp only; linarith)]
  have n1 : ¬ x4 < x1 := by linarith
  have n2 : ¬ x4 < x2 := by linarith
  have n3 : ¬ x4 < x3 := by linarith
  simp only [cum, n1, n2, n3, lt_irrefl, if_false, not_lt.2 hR.le, add_zero, ← add_assoc]
  generalize seg x0 y0 x1 y1 x1 = s0 at *
  generalize seg x1 y1 x2 y2 x2 = s1 at *
  generalize seg x2 y2 x3 y3 x3 = s2 at *
  generalize seg x3 y3 x4 y4 x4 = s3 at *
  have hn : s0 + s1 + s2 + s3 ≠ 0 := by positivity
  by_cases c1 : R < x1
  · simp only [c1, if_true]
  · by_cases c2 : R < x2
    · simp only [c1, c2, if_true, if_false]
    · by_cases c3 : R < x3
      · simp only [c1, c2, c3, if_true, if_false, ← add_assoc]
      · by_cases c4 : R < x4
        · simp only [c1, c2, c3, c4, if_true, if_false, ← add_assoc]
        · simp only [c1, c2, c3, c4, if_false, ← add_assoc]
          rw [div_self hn]

theorem enclosed_tevatron {a R : ℝ} (ha : 0 < a) (hR : a < R) :
    enclosed (through (tevatron a)) (426.5 / 222.5 * a) R = radialFactor false a R := by
  obtain ⟨h1, h2, h3, h4, -⟩ := ordered_tevatron ha
  exact cum_factor ha h1 h2 h3 h4 hR (by norm_num) (by norm_num) (by norm_num) (by norm_num) (by norm_num)

theorem enclosed_lhc {a R : ℝ} (ha : 0 < a) (hR : a < R) :
    enclosed (through (forLHC a)) (505 / 222.5 * a) R = radialFactor true a R := by
  obtain ⟨h1, h2, h3, h4, -⟩ := ordered_lhc ha
  exact cum_factor ha h1 h2 h3 h4 hR (by norm_num) (by norm_num) (by norm_num) (by norm_num) (by norm_num)

theorem through_nonneg : ∀ {l : List (ℝ × ℝ)}, (∀ p ∈ l, (0 : ℝ) ≤ p.2) → ∀ r, 0 ≤ through l r
  | [], _, _ => le_rfl
  | [_], _, _ => le_rfl
  | p :: q :: t, h, r => by
    rw [through]
    split
    · rename_i hr
      have hp := h p (by simp)
      have hq := h q (by simp)
      have hd : 0 < q.1 - p.1 := by linarith
      have e : p.2 + (q.2 - p.2) * ((r - p.1) / (q.1 - p.1)) = (p.2 * (q.1 - r) + q.2 * (r - p.1)) / (q.1 - p.1) := by
        field_simp; ring
      rw [e]
      exact div_nonneg (add_nonneg (mul_nonneg hp (by linarith)) (mul_nonneg hq (by linarith))) hd.le
    · exact through_nonneg (fun x hx => h x (by simp [hx])) r

theorem through_all {t : List (ℝ × ℝ)} {p : ℝ × ℝ} (h : Ordered (p :: t)) (h0 : 0 ≤ p.1) {R : ℝ} (hR : p.1 ≤ R) :
    IntervalIntegrable (fun r => through (p :: t) r * r) volume 0 R := by
  have e : ∀ r ∈ Set.uIoc 0 p.1, (0 : ℝ) = through (p :: t) r * r := by
    intro r hr
    rw [Set.uIoc_of_le h0] at hr
    rw [through_before h hr.2, zero_mul]
  exact ((intervalIntegrable_const (μ := volume) (a := 0) (b := p.1) (c := (0 : ℝ))).congr e).trans (through_int h hR).1

theorem through_mono {t : List (ℝ × ℝ)} {p : ℝ × ℝ} (h : Ordered (p :: t)) (hy : ∀ q ∈ p :: t, (0 : ℝ) ≤ q.2) (h0 : 0 ≤ p.1)
    {R S : ℝ} (hR : p.1 ≤ R) (hS : R ≤ S) :
    ∫ r in (0 : ℝ)..R, through (p :: t) r * r ≤ ∫ r in (0 : ℝ)..S, through (p :: t) r * r := by
  have i1 := through_all h h0 hR
  have i2 := through_all h h0 (hR.trans hS)
  rw [← sub_nonneg, integral_interval_sub_left i2 i1]
  exact integral_nonneg hS fun r hr => mul_nonneg (through_nonneg hy r) (by linarith [hr.1])

/-! ## The angle -/

/-- A kick along the direction of `atan2`. -/
theorem addKick_radial (t : ℝ) (v : PS) (h : v.x ≠ 0 ∨ v.y ≠ 0) :
    addKick t v = { v with px := v.px + t * (v.x / √(v.x ^ 2 + v.y ^ 2)), py := v.py + t * (v.y / √(v.x ^ 2 + v.y ^ 2)) } := by
  have hz : (⟨v.x, v.y⟩ : ℂ) ≠ 0 := by
    intro e
    have h1 := congrArg Complex.re e
    have h2 := congrArg Complex.im e
    simp only [Complex.zero_re, Complex.zero_im] at h1 h2
    tauto
  have hn : ‖(⟨v.x, v.y⟩ : ℂ)‖ = √(v.x ^ 2 + v.y ^ 2) := by
    rw [Complex.norm_def, Complex.normSq_mk]; congr 1; ring
  simp only [addKick]
  rw [Complex.cos_arg hz, Complex.sin_arg, hn]

theorem addKick_zero (v : PS) : addKick 0 v = v := by simp [addKick]

/-- At the origin the kick is horizontal. -/
theorem addKick_origin (t : ℝ) (v : PS) (hx : v.x = 0) (hy : v.y = 0) : addKick t v = { v with px := v.px + t } := by
  have : (⟨v.x, v.y⟩ : ℂ) = 0 := by rw [hx, hy]; rfl
  unfold addKick
  rw [this]
  simp

/-! ## All particles -/

theorem each_ok {f : PS → Outcome Unit PS} {g : PS → PS} (h : ∀ v, f v = .ok (g v)) :
    ∀ ps, each f ps = .ok (ps.map g)
  | [] => rfl
  | v :: vs => by rw [each, h, Outcome.bind, each_ok h vs]; rfl

theorem each_rel {f : PS → Outcome Unit PS} {r : PS → PS → Prop} (h : ∀ v w, f v = .ok w → r v w) :
    ∀ ps qs, each f ps = .ok qs → List.Forall₂ r ps qs
  | [], qs, e => by cases e; exact .nil
  | v :: vs, qs, e => by
    rw [each] at e
    obtain ⟨w, hw, e⟩ := bind_ok_iff.1 e
    obtain ⟨ws, hws, e⟩ := bind_ok_iff.1 e
    cases e
    exact .cons (h v w hw) (each_rel h vs ws hws)

end Verif.HollowLens
