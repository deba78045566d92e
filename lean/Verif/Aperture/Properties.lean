import Mathlib.Tactic.Ring
import Mathlib.Tactic.LinearCombination
import Mathlib.Tactic.FieldSimp
import Mathlib.Tactic.Linarith
import Mathlib.Tactic.NormNum
import Mathlib.Tactic.Positivity
import Mathlib.Algebra.Order.Ring.Rat
import Mathlib.Algebra.Field.Rat
import Verif.Aperture.Spec

/-!
# Properties of apertures (C35, C36, C86, C87)
-/

set_option linter.unusedSectionVars false

namespace Verif.Aperture
open Verif Verif.Aperture.Spec

section
variable {K : Type} [Field K] [LinearOrder K] [IsStrictOrderedRing K]

/-! ## Plain apertures -/

theorem diamond_sq {x y m : K} (h : |x| + |y| < m) : x ^ 2 + y ^ 2 < m ^ 2 := by
  have hx := abs_nonneg x
  have hy := abs_nonneg y
  have e1 := sq_abs x
  have e2 := sq_abs y
  nlinarith [mul_nonneg hx hy]

theorem ellipse_iff {a b : K} (ha : 0 < a) (hb : 0 < b) (x y : K) :
    x * x + y * y * (a * a / (b * b)) < a * a ↔ x ^ 2 / a ^ 2 + y ^ 2 / b ^ 2 < 1 := by
  have ha2 : 0 < a ^ 2 := by positivity
  have e : x ^ 2 / a ^ 2 + y ^ 2 / b ^ 2 = (x * x + y * y * (a * a / (b * b))) / a ^ 2 := by
    field_simp
  rw [e, div_lt_one ha2, pow_two a]

theorem diamond_ellipse {a b m x y : K} (hma : m ≤ a) (hmb : m ≤ b)
    (h : |x| + |y| < m) : x ^ 2 / a ^ 2 + y ^ 2 / b ^ 2 < 1 := by
  have hm : 0 < m := lt_of_le_of_lt (add_nonneg (abs_nonneg x) (abs_nonneg y)) h
  have h1 : x ^ 2 / a ^ 2 ≤ x ^ 2 / m ^ 2 := by
    apply div_le_div_of_nonneg_left (sq_nonneg x) (by positivity)
    exact pow_le_pow_left₀ hm.le hma 2
  have h2 : y ^ 2 / b ^ 2 ≤ y ^ 2 / m ^ 2 := by
    apply div_le_div_of_nonneg_left (sq_nonneg y) (by positivity)
    exact pow_le_pow_left₀ hm.le hmb 2
  have h3 : x ^ 2 / m ^ 2 + y ^ 2 / m ^ 2 < 1 := by
    rw [← add_div, div_lt_one (by positivity)]
    exact diamond_sq h
  linarith

/-- The diamond inscribed in an octagon. -/
theorem diamond_octagon {hx hy t1 t2 u v : K} (h1 : 0 < hx) (h2 : 0 < hy) (h3 : 0 ≤ t1) (h4 : 0 ≤ t2)
    (h5 : hx * t1 ≤ hy) (h6 : hy * t2 ≤ hx) (h7 : t1 * t2 < 1) (hu : 0 ≤ u) (hv : 0 ≤ v)
    (h : u + v < min hx hy) : 0 < area (hx, hx * t1) (hy * t2, hy) (u, v) := by
  have hmx : min hx hy ≤ hx := min_le_left _ _
  have hmy : min hx hy ≤ hy := min_le_right _ _
  have hm0 : 0 < min hx hy := lt_min h1 h2
  generalize min hx hy = m at *
  -- the area is linear in the point: positive at the origin, not negative at the corners of the diamond
  have p0 : 0 < hx * hy * (1 - t1 * t2) := by
    have : 0 < 1 - t1 * t2 := by linarith
    positivity
  have p1 : 0 ≤ (hy - hx * t1) * (hx - m) + (hx - hy * t2) * (hx * t1) := by
    have e1 := mul_nonneg (sub_nonneg.2 h5) (sub_nonneg.2 hmx)
    have e2 := mul_nonneg (sub_nonneg.2 h6) (mul_nonneg h1.le h3)
    linarith
  have p2 : 0 ≤ (hy - hx * t1) * hx - (hx - hy * t2) * (m - hx * t1) := by
    have e : (hy - hx * t1) * hx - (hx - hy * t2) * (m - hx * t1) =
        hx * (hy - m) + hy * t2 * (m - hx * t1) := by ring
    rw [e]
    rcases le_total (hx * t1) m with hc | hc
    · have e1 := mul_nonneg h1.le (sub_nonneg.2 hmy)
      have e2 := mul_nonneg (mul_nonneg h2.le h4) (sub_nonneg.2 hc)
      linarith
    · have e1 : hy * t2 * (hx * t1 - m) ≤ hx * (hx * t1 - m) :=
        mul_le_mul_of_nonneg_right h6 (sub_nonneg.2 hc)
      have e2 : hx * (hx * t1 - m) ≤ hx * (hy - m) := mul_le_mul_of_nonneg_left (by linarith) h1.le
      have e3 : hy * t2 * (m - hx * t1) = -(hy * t2 * (hx * t1 - m)) := by ring
      linarith
  have key : m * area (hx, hx * t1) (hy * t2, hy) (u, v) =
      (m - u - v) * (hx * hy * (1 - t1 * t2)) +
      u * ((hy - hx * t1) * (hx - m) + (hx - hy * t2) * (hx * t1)) +
      v * ((hy - hx * t1) * hx - (hx - hy * t2) * (m - hx * t1)) := by
    simp only [area]
    ring
  have hpos : 0 < m * area (hx, hx * t1) (hy * t2, hy) (u, v) := by
    rw [key]
    have e1 : 0 < (m - u - v) * (hx * hy * (1 - t1 * t2)) := mul_pos (by linarith) p0
    have e2 := mul_nonneg hu p1
    have e3 := mul_nonneg hv p2
    linarith
  exact pos_of_mul_pos_right hpos hm0.le

/-- The aperture object of a shape. -/
def object : Shape K → Ap K
  | .circle r => mkCircle r
  | .rect hx hy => mkRect hx hy
  | .ellipse a b => mkEllipse a b
  | .rectEllipse hx hy a b => mkRectEllipse hx hy a b
  | .octagon hx hy t1 t2 => .octagon hx hy (min hx hy) (hy * t2 - hx) (hx * t1) (hy - hx * t1)

theorem object_octagon (tan : K → K) (pi hx hy a1 a2 : K) :
    mkOctagon tan pi hx hy a1 a2 = object (.octagon hx hy (tan a1) (tan (pi / 2 - a2))) := rfl

/-- C35: the check of an aperture accepts exactly the points strictly inside its shape. -/
theorem check_iff (s : Shape K) (hs : Proper s) (x y : K) : check (object s) x y = true ↔ Inside s x y := by
  cases s with
  | circle r =>
    simp only [object, mkCircle, check, Inside]
    split
    · rename_i h
      simp only [true_iff]
      exact diamond_sq h
    · split
      · rename_i h
        simp only [Bool.false_eq_true, false_iff, not_lt]
        rw [pow_two, pow_two, pow_two]
        exact h
      · rename_i h
        simp only [true_iff]
        rw [pow_two, pow_two, pow_two]
        exact not_le.1 h
  | rect hx hy =>
    simp only [object, mkRect, check, Inside]
    have ax := abs_nonneg x
    have ay := abs_nonneg y
    split
    · rename_i h
      simp only [true_iff]
      have e1 := min_le_left hx hy
      have e2 := min_le_right hx hy
      constructor <;> linarith
    · split
      · rename_i h
        simp only [Bool.false_eq_true, false_iff, not_and_or, not_lt]
        exact h
      · rename_i h
        simp only [true_iff]
        push Not at h
        exact h
  | ellipse a b =>
    obtain ⟨ha, hb⟩ := hs
    simp only [object, mkEllipse, check, Inside]
    rw [← ellipse_iff ha hb]
    split
    · rename_i h
      simp only [true_iff]
      exact (ellipse_iff ha hb x y).2 (diamond_ellipse (min_le_left _ _) (min_le_right _ _) h)
    · split
      · rename_i h
        simp only [Bool.false_eq_true, false_iff, not_lt]
        exact h
      · rename_i h
        simp only [true_iff]
        exact not_le.1 h
  | rectEllipse hx hy a b =>
    obtain ⟨h1, h2, ha, hb⟩ := hs
    have ax := abs_nonneg x
    have ay := abs_nonneg y
    simp only [object, mkRectEllipse, check, Inside]
    rw [← ellipse_iff ha hb]
    split
    · rename_i h
      simp only [true_iff]
      have m1 : min (min hx hy) (min a b) ≤ hx := (min_le_left _ _).trans (min_le_left _ _)
      have m2 : min (min hx hy) (min a b) ≤ hy := (min_le_left _ _).trans (min_le_right _ _)
      have m3 : min (min hx hy) (min a b) ≤ a := (min_le_right _ _).trans (min_le_left _ _)
      have m4 : min (min hx hy) (min a b) ≤ b := (min_le_right _ _).trans (min_le_right _ _)
      exact ⟨⟨by linarith, by linarith⟩, (ellipse_iff ha hb x y).2 (diamond_ellipse m3 m4 h)⟩
    · split
      · rename_i h
        simp only [Bool.false_eq_true, false_iff]
        intro hc
        exact absurd h (not_le.2 hc.2)
      · split
        · rename_i h
          simp only [Bool.false_eq_true, false_iff]
          intro hc
          rcases h with h | h
          · exact absurd h (not_le.2 hc.1.1)
          · exact absurd h (not_le.2 hc.1.2)
        · rename_i h h'
          simp only [true_iff]
          push Not at h'
          exact ⟨h', not_le.1 h⟩
  | octagon hx hy t1 t2 =>
    obtain ⟨h1, h2, h3, h4, h5, h6, h7⟩ := hs
    have ax := abs_nonneg x
    have ay := abs_nonneg y
    have p0 : 0 < area (hx, hx * t1) (hy * t2, hy) ((0 : K), (0 : K)) := by
      have : area (hx, hx * t1) (hy * t2, hy) ((0 : K), (0 : K)) = hx * hy * (1 - t1 * t2) := by
        simp only [area]; ring
      rw [this]
      have : 0 < 1 - t1 * t2 := by linarith
      positivity
    have hiff : 0 < area (hx, hx * t1) (hy * t2, hy) (|x|, |y|) * area (hx, hx * t1) (hy * t2, hy) (0, 0) ↔
        0 < area (hx, hx * t1) (hy * t2, hy) (|x|, |y|) := by
      constructor
      · intro h; exact pos_of_mul_pos_left h p0.le
      · intro h; exact mul_pos h p0
    simp only [object, check, Inside, hiff]
    split
    · rename_i h
      simp only [true_iff]
      have e1 := min_le_left hx hy
      have e2 := min_le_right hx hy
      exact ⟨⟨by linarith, by linarith⟩, diamond_octagon h1 h2 h3 h4 h5 h6 h7 ax ay h⟩
    · split
      · rename_i h
        simp only [Bool.false_eq_true, false_iff]
        intro hc
        rcases h with h | h
        · exact absurd h (not_le.2 hc.1.1)
        · exact absurd h (not_le.2 hc.1.2)
      · rename_i h'
        push Not at h'
        split
        · rename_i h
          simp only [Bool.false_eq_true, false_iff]
          intro hc
          exact absurd hc.2 (not_lt.2 h)
        · rename_i h
          simp only [true_iff]
          exact ⟨h', not_le.1 h⟩

/-- C35: what the factory makes from a table row is the aperture of the shape the row describes; circles and
ellipses are described by the third and fourth number unless these are zero. -/
theorem factory_shape (tan : K → K) (pi : K) (r : Row K) :
    factory tan pi "RECTANGLE" r = some (object (shape tan pi .rect r.ap1 r.ap2 r.ap3 r.ap4)) ∧
    factory tan pi "RECTELLIPSE" r = some (object (shape tan pi .rectEllipse r.ap1 r.ap2 r.ap3 r.ap4)) ∧
    factory tan pi "OCTAGON" r = some (object (shape tan pi .octagon r.ap1 r.ap2 r.ap3 r.ap4)) ∧
    factory tan pi "CIRCLE" r = some (object (.circle (if r.ap3 = 0 then r.ap1 else r.ap3))) ∧
    factory tan pi "ELLIPSE" r = some (object
      (if r.ap3 = 0 ∧ r.ap4 = 0 then .ellipse r.ap1 r.ap2 else .ellipse r.ap3 r.ap4)) ∧
    ∀ t, t ∉ ["RECTANGLE", "RECTELLIPSE", "OCTAGON", "CIRCLE", "ELLIPSE"] → factory tan pi t r = none := by
  refine ⟨rfl, rfl, rfl, ?_, ?_, ?_⟩
  · simp only [factory, if_true]
    split <;> rfl
  · show some _ = some _
    split <;> rfl
  · intro t ht
    simp only [List.mem_cons, List.not_mem_nil, or_false, not_or] at ht
    obtain ⟨h1, h2, h3, h4, h5⟩ := ht
    simp [factory, h1, h2, h3, h4, h5]

/-! ## Interpolated apertures -/

/-- Rows at strictly increasing places. -/
def Increasing (l : List (Row K)) : Prop := l.Pairwise (fun a b => a.s < b.s)

theorem lerp_eq {sb sf : K} (h : sb < sf) (vb vf z : K) : lerp vb vf sb sf z = between sb vb sf vf z := by
  have : sf - sb ≠ 0 := sub_ne_zero.2 h.ne'
  simp only [lerp, between]
  field_simp
  ring

theorem between_bounds {s0 s1 z : K} (h : s0 < s1) (h0 : s0 ≤ z) (h1 : z ≤ s1) (v0 v1 m : K) (e0 : m ≤ v0)
    (e1 : m ≤ v1) : m ≤ between s0 v0 s1 v1 z := by
  rw [between, le_div_iff₀ (sub_pos.2 h)]
  have a1 := mul_le_mul_of_nonneg_right e0 (sub_nonneg.2 h1)
  have a2 := mul_le_mul_of_nonneg_right e1 (sub_nonneg.2 h0)
  linarith

theorem between_pos {s0 s1 z : K} (h : s0 < s1) (h0 : s0 ≤ z) (h1 : z ≤ s1) (v0 v1 : K) (e0 : 0 < v0)
    (e1 : 0 < v1) : 0 < between s0 v0 s1 v1 z :=
  lt_of_lt_of_le (lt_min e0 e1) (between_bounds h h0 h1 v0 v1 _ (min_le_left _ _) (min_le_right _ _))

/-- The search finds neighbours around the place, if there are any. -/
theorem select_spec : ∀ (l : List (Row K)) (z : K), Increasing l → (∀ a, l.head? = some a → a.s ≤ z) →
    (∃ b ∈ l.tail, z ≤ b.s) → ∃ a b, select l z = some (a, b) ∧ Around l z a b
  | [], z, _, _, ⟨b, hb, _⟩ => by simp at hb
  | [a], z, _, _, ⟨b, hb, _⟩ => by simp at hb
  | a :: b :: l, z, hi, h0, ⟨c, hc, hcz⟩ => by
    simp only [select]
    split
    · rename_i h
      exact ⟨a, b, rfl, ⟨[], l, rfl⟩, h0 a rfl, h⟩
    · rename_i h
      rw [List.tail_cons, List.mem_cons] at hc
      rcases hc with rfl | hc
      · exact absurd hcz h
      · obtain ⟨a', b', h1, ⟨p, q, h2⟩, h3⟩ := select_spec (b :: l) z (List.Pairwise.of_cons hi)
          (fun a' ha' => by
            simp only [List.head?_cons, Option.some.injEq] at ha'
            subst ha'
            exact (not_le.1 h).le) ⟨c, hc, hcz⟩
        exact ⟨a', b', h1, ⟨a :: p, q, by rw [h2]; rfl⟩, h3⟩

theorem around_lt {l : List (Row K)} (hi : Increasing l) {a b : Row K} (h : ∃ p q, l = p ++ a :: b :: q) :
    a.s < b.s := by
  obtain ⟨p, q, rfl⟩ := h
  have := (List.pairwise_append.1 hi).2.1
  exact (List.pairwise_cons.1 this).1 b (by simp)

/-- Two pairs of neighbours around the same place are the same pair, or the place is the row they share. -/
theorem around_unique {l : List (Row K)} (hi : Increasing l) {z : K} {a b c d : Row K} (h1 : Around l z a b)
    (h2 : Around l z c d) : (a = c ∧ b = d) ∨ (b = c ∧ z = b.s) ∨ (d = a ∧ z = a.s) := by
  obtain ⟨⟨p, q, e1⟩, ha, hb⟩ := h1
  obtain ⟨⟨p', q', e2⟩, hc, hd⟩ := h2
  have hidx : ∀ (i j : Nat) (x y : Row K), l[i]? = some x → l[j]? = some y → i < j → x.s < y.s := by
    intro i j x y hx hy hij
    obtain ⟨hi', rfl⟩ := List.getElem?_eq_some_iff.1 hx
    obtain ⟨hj', rfl⟩ := List.getElem?_eq_some_iff.1 hy
    exact List.pairwise_iff_getElem.1 hi i j hi' hj' hij
  have ia : l[p.length]? = some a := by rw [e1]; simp
  have ib : l[p.length + 1]? = some b := by rw [e1]; simp
  have ic : l[p'.length]? = some c := by rw [e2]; simp
  have id' : l[p'.length + 1]? = some d := by rw [e2]; simp
  rcases Nat.lt_trichotomy p.length p'.length with h | h | h
  · rcases Nat.lt_or_ge (p.length + 1) p'.length with h' | h'
    · exact absurd (hidx _ _ _ _ ib ic h') (not_lt.2 (hc.trans hb))
    · have : p'.length = p.length + 1 := by omega
      rw [this, ib] at ic
      injection ic with ic
      subst ic
      exact Or.inr (Or.inl ⟨rfl, le_antisymm hb hc⟩)
  · rw [h] at ia ib
    rw [ia] at ic
    rw [ib] at id'
    injection ic with ic
    injection id' with id'
    exact Or.inl ⟨ic, id'⟩
  · rcases Nat.lt_or_ge (p'.length + 1) p.length with h' | h'
    · exact absurd (hidx _ _ _ _ id' ia h') (not_lt.2 (ha.trans hd))
    · have : p.length = p'.length + 1 := by omega
      rw [this, id'] at ia
      injection ia with ia
      subst ia
      exact Or.inr (Or.inr ⟨rfl, le_antisymm hd ha⟩)

theorem between_left {s0 s1 : K} (h : s0 < s1) (v0 v1 : K) : between s0 v0 s1 v1 s0 = v0 := by
  have : s1 - s0 ≠ 0 := sub_ne_zero.2 h.ne'
  simp only [between]
  field_simp
  ring

theorem between_right {s0 s1 : K} (h : s0 < s1) (v0 v1 : K) : between s0 v0 s1 v1 s1 = v1 := by
  have : s1 - s0 ≠ 0 := sub_ne_zero.2 h.ne'
  simp only [between]
  field_simp
  ring

/-- The interpolated shape does not depend on the choice of the neighbours. -/
theorem shapeAt_unique (tan : K → K) (pi : K) (k : Kind) {l : List (Row K)} (hi : Increasing l) {z : K}
    {a b c d : Row K} (h1 : Around l z a b) (h2 : Around l z c d) :
    shapeAt tan pi k a b z = shapeAt tan pi k c d z := by
  have l1 := around_lt hi h1.1
  have l2 := around_lt hi h2.1
  rcases around_unique hi h1 h2 with ⟨rfl, rfl⟩ | ⟨rfl, hz⟩ | ⟨rfl, hz⟩
  · rfl
  · rw [hz]
    simp only [shapeAt, between_right l1, between_left l2]
  · rw [hz]
    simp only [shapeAt, between_left l1, between_right l2]

theorem around_select {l : List (Row K)} (hi : Increasing l) {z : K} {c d : Row K} (h : Around l z c d) :
    ∃ a b, select l z = some (a, b) ∧ Around l z a b := by
  obtain ⟨⟨p, q, e⟩, hc, hd⟩ := h
  refine select_spec l z hi ?_ ?_
  · intro a ha
    subst e
    cases p with
    | nil =>
      simp only [List.nil_append, List.head?_cons, Option.some.injEq] at ha
      exact ha ▸ hc
    | cons b p =>
      simp only [List.cons_append, List.head?_cons, Option.some.injEq] at ha
      subst ha
      have := (List.pairwise_cons.1 hi).1 c (by simp)
      exact (this.le).trans hc
  · refine ⟨d, ?_, hd⟩
    subst e
    cases p with
    | nil => simp
    | cons b p => simp

theorem around_length {l : List (Row K)} {z : K} {c d : Row K} (h : Around l z c d) : ¬ l.length < 2 := by
  obtain ⟨⟨p, q, e⟩, _⟩ := h
  rw [e]
  simp only [List.length_append, List.length_cons]
  omega

/-- C36 for circles: inside the table the check accepts exactly the points strictly inside the circle with the
interpolated radius. -/
theorem interpolated_circle (tan : K → K) (pi : K) (l : List (Row K)) (hi : Increasing l)
    (hp : ∀ r ∈ l, 0 < r.ap1) (x y z : K) (hz : 0 ≤ z) (c d : Row K) (h : Around l z c d) :
    ∃ v, icheck tan pi .circle l x y z = .ok v ∧ (v = true ↔ Inside (shapeAt tan pi .circle c d z) x y) := by
  obtain ⟨a, b, hs, hab⟩ := around_select hi h
  rw [shapeAt_unique tan pi .circle hi h hab]
  have hlt := around_lt hi hab.1
  obtain ⟨⟨p, q, e⟩, ha, hb⟩ := hab
  have pa := hp a (by rw [e]; simp)
  have pb := hp b (by rw [e]; simp)
  simp only [icheck, checkCircle]
  rw [if_neg (not_lt.2 hz), if_neg (around_length h), hs]
  dsimp only
  simp only [shapeAt, shape, Inside]
  split
  · rename_i hd
    refine ⟨true, rfl, ?_⟩
    simp only [true_iff]
    have hm := between_bounds hlt ha hb a.ap1 b.ap1 _ (min_le_right b.ap1 a.ap1) (min_le_left b.ap1 a.ap1)
    exact diamond_sq (lt_of_lt_of_le hd hm)
  · rw [if_neg (by push Not; exact ⟨pb.ne', pa.ne'⟩), if_neg hlt.ne', lerp_eq hlt]
    refine ⟨_, rfl, ?_⟩
    rw [decide_eq_true_eq, pow_two, pow_two, pow_two]

/-- C36 for octagons: inside the table the check accepts exactly the points strictly inside the octagon with
the interpolated dimensions and angles, if this is a proper octagon. -/
theorem interpolated_octagon (tan : K → K) (pi : K) (l : List (Row K)) (hi : Increasing l)
    (x y z : K) (hz : 0 ≤ z) (c d : Row K) (h : Around l z c d)
    (hp : Proper (shapeAt tan pi .octagon c d z)) :
    ∃ v, icheck tan pi .octagon l x y z = .ok v ∧ (v = true ↔ Inside (shapeAt tan pi .octagon c d z) x y) := by
  obtain ⟨a, b, hs, hab⟩ := around_select hi h
  rw [shapeAt_unique tan pi .octagon hi h hab] at *
  have hlt := around_lt hi hab.1
  simp only [icheck, checkOctagon]
  rw [if_neg (not_lt.2 hz), hs]
  dsimp only
  rw [if_neg hlt.ne', lerp_eq hlt, lerp_eq hlt, lerp_eq hlt, lerp_eq hlt]
  simp only [shapeAt, shape] at *
  generalize between a.s a.ap1 b.s b.ap1 z = hx at *
  generalize between a.s a.ap2 b.s b.ap2 z = hy at *
  generalize tan (between a.s a.ap3 b.s b.ap3 z) = t1 at *
  generalize tan (pi / 2 - between a.s a.ap4 b.s b.ap4 z) = t2 at *
  rw [← check_iff _ hp]
  have hd : |x| + |y| < min hx hy → check (object (Shape.octagon hx hy t1 t2)) x y = true := by
    intro hh
    simp only [object, check]
    rw [if_pos hh]
  by_cases hh : |x| + |y| < min hx hy
  · have hin := (check_iff _ hp x y).1 (hd hh)
    simp only [hd hh, iff_true]
    obtain ⟨⟨i1, i2⟩, _⟩ := hin
    obtain ⟨h1, h2, h3, h4, h5, h6, h7⟩ := hp
    have hpos := diamond_octagon h1 h2 h3 h4 h5 h6 h7 (abs_nonneg x) (abs_nonneg y) hh
    rw [if_neg (by push Not; exact ⟨i1, i2⟩)]
    simp only [area] at hpos
    rw [if_neg (not_le.2 hpos)]
    exact ⟨true, rfl, rfl⟩
  · simp only [object, check]
    rw [if_neg hh]
    split
    · exact ⟨false, rfl, by simp⟩
    · split
      · exact ⟨false, rfl, by simp⟩
      · exact ⟨true, rfl, by simp⟩

/-- C36 for rectangle-ellipses: if at every row the first dimension is not the only smallest one, the check
accepts exactly the points of the interpolated shape, its boundary included.  Missing: the boundary, which the
plain aperture rejects, and tables where the first dimension is the smallest
(`interpolated_rectEllipse_violated`). -/
theorem interpolated_rectEllipse_partial (tan : K → K) (pi : K) (l : List (Row K)) (hi : Increasing l)
    (hp : ∀ r ∈ l, 0 < r.ap1 ∧ 0 < r.ap2 ∧ 0 < r.ap3 ∧ 0 < r.ap4)
    (hm : ∀ r ∈ l, min (min r.ap2 r.ap3) r.ap4 ≤ r.ap1)
    (x y z : K) (hz : 0 ≤ z) (c d : Row K) (h : Around l z c d) :
    ∃ v, icheck tan pi .rectEllipse l x y z = .ok v ∧
      (v = true ↔ InsideOrOn (shapeAt tan pi .rectEllipse c d z) x y) := by
  obtain ⟨a, b, hs, hab⟩ := around_select hi h
  rw [shapeAt_unique tan pi .rectEllipse hi h hab]
  have hlt := around_lt hi hab.1
  obtain ⟨⟨p, q, e⟩, ha, hb⟩ := hab
  have ma : a ∈ l := by rw [e]; simp
  have mb : b ∈ l := by rw [e]; simp
  simp only [icheck, checkRectEllipse]
  rw [if_neg (not_lt.2 hz), hs]
  dsimp only
  rw [if_neg hlt.ne', lerp_eq hlt, lerp_eq hlt, lerp_eq hlt, lerp_eq hlt]
  simp only [shapeAt, shape, InsideOrOn]
  obtain ⟨pa1, pa2, pa3, pa4⟩ := hp a ma
  obtain ⟨pb1, pb2, pb3, pb4⟩ := hp b mb
  have q3 := between_pos hlt ha hb a.ap3 b.ap3 pa3 pb3
  have q4 := between_pos hlt ha hb a.ap4 b.ap4 pa4 pb4
  split
  · rename_i hd
    refine ⟨true, rfl, ?_⟩
    simp only [true_iff]
    generalize hM : min (min (min b.ap1 b.ap2) (min b.ap3 b.ap4)) (min (min b.ap1 a.ap2) (min a.ap3 a.ap4)) = M at hd
    have n1 : M ≤ b.ap1 := by rw [← hM]; exact (min_le_left _ _).trans ((min_le_left _ _).trans (min_le_left _ _))
    have n2 : M ≤ b.ap2 := by rw [← hM]; exact (min_le_left _ _).trans ((min_le_left _ _).trans (min_le_right _ _))
    have n3 : M ≤ b.ap3 := by rw [← hM]; exact (min_le_left _ _).trans ((min_le_right _ _).trans (min_le_left _ _))
    have n4 : M ≤ b.ap4 := by rw [← hM]; exact (min_le_left _ _).trans ((min_le_right _ _).trans (min_le_right _ _))
    have m2 : M ≤ a.ap2 := by rw [← hM]; exact (min_le_right _ _).trans ((min_le_left _ _).trans (min_le_right _ _))
    have m3 : M ≤ a.ap3 := by rw [← hM]; exact (min_le_right _ _).trans ((min_le_right _ _).trans (min_le_left _ _))
    have m4 : M ≤ a.ap4 := by rw [← hM]; exact (min_le_right _ _).trans ((min_le_right _ _).trans (min_le_right _ _))
    have m1 : M ≤ a.ap1 := le_trans (le_min (le_min m2 m3) m4) (hm a ma)
    have hx := abs_nonneg x
    have hy := abs_nonneg y
    refine ⟨⟨?_, ?_⟩, ?_⟩
    · have := between_bounds hlt ha hb a.ap1 b.ap1 M m1 n1
      linarith
    · have := between_bounds hlt ha hb a.ap2 b.ap2 M m2 n2
      linarith
    · exact (diamond_ellipse (between_bounds hlt ha hb a.ap3 b.ap3 M m3 n3)
        (between_bounds hlt ha hb a.ap4 b.ap4 M m4 n4) hd).le
  · simp only [← pow_two]
    split
    · rename_i h1
      exact ⟨false, rfl, by simp only [Bool.false_eq_true, false_iff]; intro hc; exact absurd hc.2 (not_le.2 h1)⟩
    · rename_i h1
      split
      · rename_i h2
        refine ⟨false, rfl, ?_⟩
        simp only [Bool.false_eq_true, false_iff]
        intro hc
        rcases h2 with h2 | h2
        · exact absurd hc.1.1 (not_le.2 h2)
        · exact absurd hc.1.2 (not_le.2 h2)
      · rename_i h2
        push Not at h2
        exact ⟨true, rfl, by simp only [true_iff]; exact ⟨h2, not_lt.1 h1⟩⟩

/-- C36 for ellipses: what the check really accepts is the ellipse whose horizontal half axis is interpolated
and whose vertical half axis is the horizontal one of the next row.  Missing: the vertical half axis of the
table, which is never read (`interpolated_ellipse_violated`). -/
theorem interpolated_ellipse_partial (tan : K → K) (pi : K) (l : List (Row K)) (hi : Increasing l)
    (hp : ∀ r ∈ l, 0 < r.ap1) (x y z : K) (hz : 0 ≤ z) (c d : Row K) (h : Around l z c d) (hcz : c.s < z) :
    ∃ v, icheck tan pi .ellipse l x y z = .ok v ∧
      (v = true ↔ InsideOrOn (.ellipse (between c.s c.ap1 d.s d.ap1 z) d.ap1) x y) := by
  obtain ⟨a, b, hs, hab⟩ := around_select hi h
  -- the loop takes the first pair
  have hsame : a = c ∧ b = d := by
    rcases around_unique hi hab h with h' | ⟨h', hz'⟩ | ⟨h', hz'⟩
    · exact h'
    · rw [← h', ← hz'] at hcz
      exact absurd hcz (lt_irrefl _)
    · exfalso
      -- `d = a`, `z = a.s`: then the pair before would have been taken
      subst h'
      have key : ∀ (l : List (Row K)), Increasing l → ∀ a b, select l z = some (a, b) → (∃ p q u, l = p ++ u :: a :: q) → a.s < z := by
        intro l
        induction l with
        | nil => intro _ a b h _; simp [select] at h
        | cons u l ih =>
          intro hi a b hsel hpre
          cases l with
          | nil => simp [select] at hsel
          | cons v l =>
            simp only [select] at hsel
            split at hsel
            · exfalso
              injection hsel with hsel
              simp only [Prod.mk.injEq] at hsel
              obtain ⟨rfl, rfl⟩ := hsel
              obtain ⟨p, q, w, hw⟩ := hpre
              have hmem : u ∈ v :: l := by
                cases p with
                | nil =>
                  simp only [List.nil_append, List.cons.injEq] at hw
                  obtain ⟨_, h2, _⟩ := hw
                  rw [h2]; simp
                | cons p0 p =>
                  simp only [List.cons_append, List.cons.injEq] at hw
                  rw [hw.2]; simp
              exact absurd ((List.pairwise_cons.1 hi).1 u hmem) (lt_irrefl _)
            · rename_i hv
              obtain ⟨p, q, w, hw⟩ := hpre
              cases p with
              | nil =>
                simp only [List.nil_append, List.cons.injEq] at hw
                obtain ⟨_, h2, _⟩ := hw
                rw [← h2]
                exact not_le.1 hv
              | cons p0 p =>
                simp only [List.cons_append, List.cons.injEq] at hw
                exact ih (List.Pairwise.of_cons hi) a b hsel ⟨p, q, w, hw.2⟩
      obtain ⟨⟨p, q, e⟩, _⟩ := h
      have := key l hi d b hs ⟨p, q, c, e⟩
      rw [hz'] at this
      exact absurd this (lt_irrefl _)
  obtain ⟨rfl, rfl⟩ := hsame
  have hlt := around_lt hi hab.1
  obtain ⟨⟨p, q, e⟩, ha, hb⟩ := hab
  have pa := hp a (by rw [e]; simp)
  have pb := hp b (by rw [e]; simp)
  have hq := between_pos hlt ha hb a.ap1 b.ap1 pa pb
  simp only [icheck, checkEllipse]
  rw [if_neg (not_lt.2 hz), if_neg (around_length h), hs]
  dsimp only
  rw [lerp_eq hlt]
  simp only [sub_self, zero_div, zero_mul, sub_zero, zero_add, InsideOrOn, ← pow_two]
  split
  · rename_i hd
    refine ⟨true, rfl, ?_⟩
    simp only [true_iff]
    exact (diamond_ellipse (between_bounds hlt ha hb a.ap1 b.ap1 _ (min_le_right _ _) (min_le_left _ _))
      (min_le_left _ _) hd).le
  · rw [if_neg (by push Not; exact ⟨pb.ne', pa.ne'⟩), if_neg hlt.ne']
    split
    · rename_i h1
      exact ⟨false, rfl, by simp only [Bool.false_eq_true, false_iff]; exact not_le.2 h1⟩
    · rename_i h1
      exact ⟨true, rfl, by simp only [true_iff]; exact not_lt.1 h1⟩

/-- C36: places before the beginning of the element count as its beginning. -/
theorem before_start (tan : K → K) (pi : K) (k : Kind) (l : List (Row K)) (x y z : K) (hz : z < 0) :
    icheck tan pi k l x y z = icheck tan pi k l x y 0 := by
  cases k <;> simp [icheck, checkCircle, checkEllipse, checkRectEllipse, checkOctagon, hz]

/-! ## Collimator jaws -/

/-- C86: the check of a collimator is that of its linearly tapered opening, if the jaws do not close towards
the exit or an offset is given.  Missing: jaws that close, where points near the axis are always accepted
(`taper_violated`). -/
theorem jaws_partial (j : Jaws K) (hl : 0 < j.len) (hm : j.minDim = min j.rectHalfX j.rectHalfY)
    (hc : j.c ^ 2 + j.s ^ 2 = 1) (hw : fullEntranceWidth j ≤ j.wExit) (hh : fullEntranceHeight j ≤ j.hExit)
    (x y z : K) (hz : 0 ≤ z) :
    checkJaws j x y z = true ↔ Opening (fullEntranceWidth j) j.wExit (fullEntranceHeight j) j.hExit
      j.xEntry j.xExit j.yEntry j.yExit j.c j.s (z / j.len) x y := by
  have hl' := hl.ne'
  have hu : 0 ≤ z / j.len := div_nonneg hz hl.le
  generalize hU : z / j.len = u at *
  have e1 : ∀ a b : K, z * (a - b) / j.len - a = -((1 - u) * a + u * b) := by
    intro a b; rw [← hU]; field_simp; ring
  have e2 : ∀ a b : K, z * (b - a) / j.len + a = (1 - u) * a + u * b := by
    intro a b; rw [← hU]; field_simp; ring
  have rest : (|(x + (z * (j.xEntry - j.xExit) / j.len - j.xEntry)) * j.c -
        (y + (z * (j.yEntry - j.yExit) / j.len - j.yEntry)) * j.s| * 2 <
        z * (j.wExit - fullEntranceWidth j) / j.len + fullEntranceWidth j ∧
      |(x + (z * (j.xEntry - j.xExit) / j.len - j.xEntry)) * j.s +
        (y + (z * (j.yEntry - j.yExit) / j.len - j.yEntry)) * j.c| * 2 <
        z * (j.hExit - fullEntranceHeight j) / j.len + fullEntranceHeight j) ↔
      Opening (fullEntranceWidth j) j.wExit (fullEntranceHeight j) j.hExit
        j.xEntry j.xExit j.yEntry j.yExit j.c j.s u x y := by
    rw [e1, e1, e2, e2]
    simp only [Opening, ← sub_eq_add_neg]
    rw [lt_div_iff₀ two_pos, lt_div_iff₀ two_pos]
  simp only [checkJaws]
  split
  · rename_i h0
    split
    · rename_i hd
      simp only [true_iff]
      obtain ⟨z1, z2, z3, z4⟩ := h0
      have hsq := diamond_sq hd
      have hx0 : 0 < j.minDim := lt_of_le_of_lt (add_nonneg (abs_nonneg x) (abs_nonneg y)) hd
      have m1 : j.minDim ≤ j.rectHalfX := by rw [hm]; exact min_le_left _ _
      have m2 : j.minDim ≤ j.rectHalfY := by rw [hm]; exact min_le_right _ _
      have rot : (x * j.c - y * j.s) ^ 2 + (x * j.s + y * j.c) ^ 2 = x ^ 2 + y ^ 2 := by
        linear_combination (x ^ 2 + y ^ 2) * hc
      have b1 : |x * j.c - y * j.s| < j.minDim := by
        refine abs_lt_of_sq_lt_sq ?_ hx0.le
        have := sq_nonneg (x * j.s + y * j.c)
        linarith
      have b2 : |x * j.s + y * j.c| < j.minDim := by
        refine abs_lt_of_sq_lt_sq ?_ hx0.le
        have := sq_nonneg (x * j.c - y * j.s)
        linarith
      simp only [Opening, z1, z2, z3, z4, mul_zero, add_zero, sub_zero]
      have t1 := mul_le_mul_of_nonneg_left hw hu
      have t2 := mul_le_mul_of_nonneg_left hh hu
      simp only [fullEntranceWidth, fullEntranceHeight] at *
      constructor
      · rw [lt_div_iff₀ two_pos]; linarith
      · rw [lt_div_iff₀ two_pos]; linarith
    · rw [decide_eq_true_eq]
      exact rest
  · rw [decide_eq_true_eq]
    exact rest

/-- C86: with an offset at the entrance or exit nothing is missing. -/
theorem jaws_offset (j : Jaws K) (hl : 0 < j.len)
    (ho : ¬ (j.xEntry = 0 ∧ j.yEntry = 0 ∧ j.xExit = 0 ∧ j.yExit = 0)) (x y z : K) :
    checkJaws j x y z = true ↔ Opening (fullEntranceWidth j) j.wExit (fullEntranceHeight j) j.hExit
      j.xEntry j.xExit j.yEntry j.yExit j.c j.s (z / j.len) x y := by
  have hl' := hl.ne'
  generalize hU : z / j.len = u at *
  have e1 : ∀ a b : K, z * (a - b) / j.len - a = -((1 - u) * a + u * b) := by
    intro a b; rw [← hU]; field_simp; ring
  have e2 : ∀ a b : K, z * (b - a) / j.len + a = (1 - u) * a + u * b := by
    intro a b; rw [← hU]; field_simp; ring
  simp only [checkJaws]
  rw [if_neg ho, decide_eq_true_eq, e1, e1, e2, e2]
  simp only [Opening, ← sub_eq_add_neg]
  rw [lt_div_iff₀ two_pos, lt_div_iff₀ two_pos]

/-- C86: unaligned jaws have the entrance opening everywhere. -/
theorem unaligned (cos sin : K → K) (w h t len xo yo x y z : K) :
    checkUnaligned (mkJaws cos sin w h t len xo yo) x y z = true ↔
      Opening w w h h xo xo yo yo (cos (-t)) (sin (-t)) 0 x y := by
  rw [checkUnaligned, decide_eq_true_eq]
  simp only [mkJaws, Opening, fullEntranceWidth, fullEntranceHeight, sub_zero, one_mul, zero_mul, add_zero]
  rw [lt_div_iff₀ two_pos, lt_div_iff₀ two_pos, div_mul_cancel₀ _ two_ne_zero, div_mul_cancel₀ _ two_ne_zero]

/-- C86: two one-sided collimators, one for each side, let through what the two-sided one does. -/
theorem one_sided (j : Jaws K) (x y z : K) :
    (checkOneSided true j x y z && checkOneSided false j x y z) = checkUnaligned j x y z := by
  simp only [checkOneSided, checkUnaligned, if_true, Bool.false_eq_true, if_false]
  rw [Bool.eq_iff_iff, Bool.and_eq_true]
  simp only [decide_eq_true_eq]
  have : ∀ a b : K, |a| * 2 < b ↔ a * 2 < b ∧ -(a * 2) < b := by
    intro a b
    rw [show |a| * 2 = |a * 2| by rw [abs_mul, abs_two], abs_lt]
    constructor
    · rintro ⟨h1, h2⟩; exact ⟨h2, by linarith⟩
    · rintro ⟨h1, h2⟩; exact ⟨by linarith, h1⟩
  rw [this ((x - j.xEntry) * j.c - (y - j.yEntry) * j.s)]
  tauto

/-- C87 is violated for every collimator: setting the entrance width or height has no effect on any check nor
on the width and height reported. -/
theorem entrance_setters_violated (j : Jaws K) (v x y z : K) (side : Bool) :
    let a := setJaws j (.entranceWidth v)
    let b := setJaws j (.entranceHeight v)
    (checkJaws a x y z = checkJaws j x y z ∧ checkUnaligned a x y z = checkUnaligned j x y z ∧
      checkOneSided side a x y z = checkOneSided side j x y z ∧ fullEntranceWidth a = fullEntranceWidth j) ∧
    (checkJaws b x y z = checkJaws j x y z ∧ checkUnaligned b x y z = checkUnaligned j x y z ∧
      checkOneSided side b x y z = checkOneSided side j x y z ∧ fullEntranceHeight b = fullEntranceHeight j) :=
  ⟨⟨rfl, rfl, rfl, rfl⟩, ⟨rfl, rfl, rfl, rfl⟩⟩

/-- C87: the setters for the exit do take effect. -/
theorem exit_setters (j : Jaws K) (hl : 0 < j.len) (w h xo yo x y : K) (hne : ¬ (xo = 0 ∧ yo = 0)) :
    checkJaws (setJaws (setJaws (setJaws (setJaws j (.exitWidth w)) (.exitHeight h)) (.exitX xo)) (.exitY yo))
        x y j.len = true ↔
      |(x - xo) * j.c - (y - yo) * j.s| < w / 2 ∧ |(x - xo) * j.s + (y - yo) * j.c| < h / 2 := by
  refine (jaws_offset (setJaws (setJaws (setJaws (setJaws j (.exitWidth w)) (.exitHeight h)) (.exitX xo))
    (.exitY yo)) hl (by simp only [setJaws]; tauto) x y j.len).trans ?_
  simp only [Opening, setJaws, div_self hl.ne', sub_self, zero_mul, zero_add, one_mul]

end

/-! ## Examples and violations -/

/-- A proper octagon, and points inside and outside of it. -/
example : Proper (.octagon 3 2 (1 / 2) (1 / 2) : Shape ℚ) ∧
    check (object (.octagon 3 2 (1 / 2) (1 / 2) : Shape ℚ)) (5 / 2) 1 = true ∧
    check (object (.octagon 3 2 (1 / 2) (1 / 2) : Shape ℚ)) (5 / 2) (19 / 10) = false := by
  refine ⟨by simp only [Proper]; norm_num, by decide +kernel, by decide +kernel⟩

example : check (mkRectEllipse 2 1 (3 : ℚ) 2) (19 / 10) (9 / 10) = true ∧
    check (mkRectEllipse 2 1 (3 : ℚ) 1) (19 / 10) (9 / 10) = false ∧ check (mkCircle (5 : ℚ)) 3 4 = false := by
  decide +kernel

/-- C35 is violated for an octagon whose cuts are only the corners, i.e. a rectangle (here a square with both
angles 45 degrees): points of the rectangle outside the diamond are rejected. -/
theorem octagon_rectangle_violated :
    check (mkOctagon (fun _ => (1 : ℚ)) 3 1 1 0 0) (9 / 10) (9 / 10) = false ∧
      check (mkRect (1 : ℚ) 1) (9 / 10) (9 / 10) = true := by
  decide +kernel

/-- A table for the examples. -/
def tbl : List (Row ℚ) := [⟨0, 2, 2, 2, 2⟩, ⟨1, 1, 2, 2, 2⟩, ⟨3, 3, 2, 2, 2⟩]

/-- The hypotheses of the theorems on interpolated apertures. -/
example : Increasing tbl ∧ Around tbl 2 ⟨1, 1, 2, 2, 2⟩ ⟨3, 3, 2, 2, 2⟩ ∧ (∀ r ∈ tbl, 0 < r.ap1) ∧
    icheck (fun _ => 0) 3 .circle tbl (3 / 2) 1 2 = .ok true ∧
    icheck (fun _ => 0) 3 .circle tbl (3 / 2) 1 1 = .ok false := by
  refine ⟨?_, ⟨⟨[⟨0, 2, 2, 2, 2⟩], [], rfl⟩, by norm_num, by norm_num⟩, by decide +kernel, by decide +kernel,
    by decide +kernel⟩
  simp only [Increasing, tbl]
  decide +kernel

example : Proper (shapeAt (fun _ => 0) (3 : ℚ) .octagon ⟨1, 1, 2, 2, 2⟩ ⟨3, 3, 2, 2, 2⟩ 2) := by
  simp only [shapeAt, shape, between, Proper]
  norm_num

/-- C36 is violated for rectangle-ellipses: a first dimension that is smallest at the row before is forgotten
in the quick test, a point outside the rectangle is accepted. -/
theorem interpolated_rectEllipse_violated :
    icheck (fun _ => 0) (3 : ℚ) .rectEllipse [⟨0, 1, 10, 10, 10⟩, ⟨1, 10, 10, 10, 10⟩] 5 0 0 = .ok true ∧
      check (mkRectEllipse (1 : ℚ) 10 10 10) 5 0 = false ∧
      shapeAt (fun _ => 0) (3 : ℚ) .rectEllipse ⟨0, 1, 10, 10, 10⟩ ⟨1, 10, 10, 10, 10⟩ 0 =
        .rectEllipse 1 10 10 10 := by
  refine ⟨by decide +kernel, by decide +kernel, ?_⟩
  simp only [shapeAt, shape, between]
  norm_num

/-- C36 is violated on the boundary of rectangle-ellipses, which is accepted. -/
theorem interpolated_boundary_violated :
    icheck (fun _ => 0) (3 : ℚ) .rectEllipse [⟨0, 2, 2, 2, 2⟩, ⟨1, 2, 2, 2, 2⟩] 2 0 (1 / 2) = .ok true ∧
      check (mkRectEllipse (2 : ℚ) 2 2 2) 2 0 = false := by
  decide +kernel

/-- C36 is violated for ellipses: the vertical half axis of the table (here 1 everywhere) is not used. -/
theorem interpolated_ellipse_violated :
    icheck (fun _ => 0) (3 : ℚ) .ellipse [⟨0, 4, 1, 0, 0⟩, ⟨1, 4, 1, 0, 0⟩] 0 3 (1 / 2) = .ok true ∧
      check (mkEllipse (4 : ℚ) 1) 0 3 = false := by
  decide +kernel

/-- C36 is violated for rectangles, which end the process, and behind the end of the table: undefined for
rectangle-ellipses, the end of the process for circles, everything accepted for octagons. -/
theorem interpolated_range_violated :
    icheck (fun _ => 0) (3 : ℚ) .rect [⟨0, 4, 1, 0, 0⟩, ⟨1, 4, 1, 0, 0⟩] 0 0 (1 / 2) = .throw () ∧
    icheck (fun _ => 0) (3 : ℚ) .rectEllipse [⟨0, 2, 2, 2, 2⟩, ⟨1, 2, 2, 2, 2⟩] 0 0 2 = .ub ∧
    icheck (fun _ => 0) (3 : ℚ) .circle [⟨0, 2, 2, 2, 2⟩, ⟨1, 2, 2, 2, 2⟩] 0 0 2 = .throw () ∧
    icheck (fun _ => 0) (3 : ℚ) .octagon [⟨0, 2, 2, 2, 2⟩, ⟨1, 2, 2, 2, 2⟩] 1000 0 2 = .ok true := by
  decide +kernel

/-- C36 is violated where the table begins with two rows at the same place: a circle rejects points inside,
a rectangle-ellipse accepts every point. -/
theorem interpolated_double_violated :
    icheck (fun _ => 0) (3 : ℚ) .circle [⟨0, 2, 0, 0, 0⟩, ⟨0, 2, 0, 0, 0⟩, ⟨1, 2, 0, 0, 0⟩] (3 / 2) 1 0 = .ok false ∧
    check (mkCircle (2 : ℚ)) (3 / 2) 1 = true ∧
    icheck (fun _ => 0) (3 : ℚ) .rectEllipse [⟨0, 2, 2, 2, 2⟩, ⟨0, 2, 2, 2, 2⟩, ⟨1, 2, 2, 2, 2⟩] 1000 0 0 =
      .ok true := by
  decide +kernel

/-- The hypotheses of `jaws_partial` for a tilted collimator that opens towards the exit. -/
example : let j : Jaws ℚ := { mkJaws (fun _ => 3 / 5) (fun _ => 4 / 5) 2 4 0 10 0 0 with wExit := 3, hExit := 4 }
    j.c ^ 2 + j.s ^ 2 = 1 ∧ fullEntranceWidth j ≤ j.wExit ∧ fullEntranceHeight j ≤ j.hExit ∧
      checkJaws j 1 1 5 = true ∧ checkJaws j 3 0 5 = false := by
  refine ⟨by simp only [mkJaws]; norm_num, by decide +kernel, by decide +kernel, by decide +kernel, by decide +kernel⟩

/-- C86 is violated for jaws that close: the quick test uses the opening at the entrance.  Jaws 2 wide at the
entrance and 0.2 wide at the exit let a particle at 0.5 pass at the exit. -/
theorem taper_violated :
    let j : Jaws ℚ := { mkJaws (fun _ => 1) (fun _ => 0) 2 2 0 10 0 0 with wExit := 1 / 5, hExit := 2 }
    checkJaws j (1 / 2) 0 10 = true ∧ ¬ Opening 2 (1 / 5) 2 2 0 0 0 0 (1 : ℚ) 0 (10 / 10) (1 / 2) 0 := by
  refine ⟨by decide +kernel, ?_⟩
  simp only [Opening]
  norm_num

end Verif.Aperture
