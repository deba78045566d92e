import Verif.Symplectic.Exact

/-!
# Kicks, faces and whole steps
-/

set_option linter.unusedSimpArgs false

namespace Verif.Symplectic
open Verif Verif.Symplectic.Spec Verif.Multipole Real

/-- A complex function of one real number has a derivative. -/
def CDer (f : ℝ → Cx ℝ) (d : Cx ℝ) (t : ℝ) : Prop :=
  HasDerivAt (fun s => (f s).re) d.re t ∧ HasDerivAt (fun s => (f s).im) d.im t

theorem cder_mul {f g : ℝ → Cx ℝ} {a b : Cx ℝ} {t : ℝ} (hf : CDer f a t) (hg : CDer g b t) :
    CDer (fun s => f s * g s) (a * g t + f t * b) t := by
  constructor
  · refine ((hf.1.mul hg.1).sub (hf.2.mul hg.2)).congr_deriv ?_
    simp; ring
  · refine ((hf.1.mul hg.2).add (hf.2.mul hg.1)).congr_deriv ?_
    simp; ring

theorem cder_add {f g : ℝ → Cx ℝ} {a b : Cx ℝ} {t : ℝ} (hf : CDer f a t) (hg : CDer g b t) :
    CDer (fun s => f s + g s) (a + b) t := ⟨hf.1.add hg.1, hf.2.add hg.2⟩

theorem cder_const (z : Cx ℝ) (t : ℝ) : CDer (fun _ => z) 0 t := ⟨hasDerivAt_const _ _, hasDerivAt_const _ _⟩

/-- Derivative of the sum of the expansion with respect to the complex coordinate. -/
def dLoop (z0 : Cx ℝ) : List (Cx ℝ) → Cx ℝ → Cx ℝ → Cx ℝ → Cx ℝ → Cx ℝ
  | [], _, _, β, _ => β
  | t :: ts, b, z, β, μ => dLoop z0 ts (b + t * z) (z * z0) (β + t * μ) (μ * z0 + z)

theorem sum_der {z0 : ℝ → Cx ℝ} {ζ : Cx ℝ} {t : ℝ} (h0 : CDer z0 ζ t) (l : List (Cx ℝ)) :
    ∀ {b z : ℝ → Cx ℝ} {β μ : Cx ℝ}, CDer b (β * ζ) t → CDer z (μ * ζ) t →
      CDer (fun s => sumLoop (z0 s) l (b s) (z s)) (dLoop (z0 t) l (b t) (z t) β μ * ζ) t := by
  induction l with
  | nil => intro b z β μ hb _; exact hb
  | cons a l ih =>
    intro b z β μ hb hz
    refine ih (b := fun s => b s + a * z s) (z := fun s => z s * z0 s) ?_ ?_
    · have := cder_add hb (cder_mul (cder_const a t) hz)
      have e : β * ζ + (0 * z t + a * (μ * ζ)) = (β + a * μ) * ζ := by ring
      rwa [e] at this
    · have := cder_mul hz h0
      have e : μ * ζ * z0 t + z t * ζ = (μ * z0 t + z t) * ζ := by ring
      rwa [e] at this

theorem field_ok (eps : ℝ) (m : MField ℝ) (x y : ℝ) : getField2D eps m x y (-1) =
    .ok (if isNull eps m then 0 else Cx.smul m.b0 (sumLoop ⟨x, y⟩ m.terms 0 1)) := by
  simp only [getField2D]
  split
  · rfl
  · rw [if_neg (by omega), if_neg (by omega)]
    simp [powLoop]

theorem field_der (eps : ℝ) (m : MField ℝ) (x0 y0 : ℝ) : ∃ D : Cx ℝ, ∀ (x y : ℝ → ℝ) (a b t : ℝ), x t = x0 → y t = y0 →
    HasDerivAt x a t → HasDerivAt y b t →
    CDer (fun s => if isNull eps m then 0 else Cx.smul m.b0 (sumLoop ⟨x s, y s⟩ m.terms 0 1)) (D * ⟨a, b⟩) t := by
  by_cases hn : isNull eps m = true
  · refine ⟨0, fun x y a b t _ _ _ _ => ?_⟩
    simp only [hn, if_true, zero_mul]
    exact cder_const 0 t
  · refine ⟨⟨m.b0, 0⟩ * dLoop ⟨x0, y0⟩ m.terms 0 1 0 0, fun x y a b t hx hy da db => ?_⟩
    simp only [hn, if_false]
    have h0 : CDer (fun s => (⟨x s, y s⟩ : Cx ℝ)) ⟨a, b⟩ t := ⟨da, db⟩
    have h1 := sum_der h0 m.terms (b := fun _ => 0) (z := fun _ => 1) (β := 0) (μ := 0)
      (by rw [zero_mul]; exact cder_const 0 t) (by rw [zero_mul]; exact cder_const 1 t)
    have h2 := cder_mul (cder_const ⟨m.b0, 0⟩ t) h1
    have e : (0 : Cx ℝ) * sumLoop ⟨x t, y t⟩ m.terms 0 1 + ⟨m.b0, 0⟩ * (dLoop ⟨x t, y t⟩ m.terms 0 1 0 0 * ⟨a, b⟩)
        = ⟨m.b0, 0⟩ * dLoop ⟨x0, y0⟩ m.terms 0 1 0 0 * ⟨a, b⟩ := by rw [hx, hy]; ring
    rw [e] at h2
    have f : (fun s => (⟨m.b0, 0⟩ : Cx ℝ) * sumLoop ⟨x s, y s⟩ m.terms 0 1) =
        fun s => Cx.smul m.b0 (sumLoop ⟨x s, y s⟩ m.terms 0 1) := by
      funext s; ext <;> simp [Cx.smul]
    rw [f] at h2
    simpa using h2

theorem kick_preserves (eps ec : ℝ) (m : MField ℝ) (ds : ℝ) {b : Beam} (hp : b.p0 ≠ 0) (phi : ℝ) (v : PS) :
    Preserves (multipoleKick eps ec m ds b phi) v := by
  obtain ⟨D, hD⟩ := field_der eps m v.x v.y
  let sc : Cx ℝ := Cx.smul (b.q * ds * ec / b.p0) ⟨cos phi, sin phi⟩
  refine ⟨fun u => ⟨u.x, u.px + -(sc * (D * ⟨u.x, u.y⟩)).re, u.y, u.py + (sc * (D * ⟨u.x, u.y⟩)).im, u.ct, u.dp⟩,
    fun c u t hc hd => ?_, fun u w => ?_⟩
  · let B : ℝ → Cx ℝ := fun s => if isNull eps m then 0 else Cx.smul m.b0 (sumLoop ⟨(c s).x, (c s).y⟩ m.terms 0 1)
    refine ⟨fun s => ⟨(c s).x, (c s).px + -(sc * B s).re, (c s).y, (c s).py + (sc * B s).im, (c s).ct, (c s).dp⟩,
      Filter.Eventually.of_forall fun s => ?_, ?_⟩
    · simp only [multipoleKick, if_neg hp, field_ok, Outcome.bind, B, sc]
    · have hB : CDer B (D * ⟨u.x, u.y⟩) t :=
        hD (fun s => (c s).x) (fun s => (c s).y) u.x u.y t (by rw [hc]) (by rw [hc]) hd.1 hd.2.2.1
      have h2 := cder_mul (cder_const sc t) hB
      rw [zero_mul, zero_add] at h2
      exact ⟨hd.1, hd.2.1.add h2.1.neg, hd.2.2.1, hd.2.2.2.1.add h2.2, hd.2.2.2.2.1, hd.2.2.2.2.2⟩
  · simp only [form, Cx.mul_re, Cx.mul_im]
    ring

theorem face_preserves {h : ℝ} {pf : PoleFace} {v w : PS} (hf : poleFace h pf v = .ok w) :
    Preserves (poleFace h pf) v := by
  have hn : ¬ (cos pf.rot = 0 ∨ cos (pf.rot - 2 * pf.fint * pf.hgap * h * (1 + sin pf.rot * sin pf.rot) / cos pf.rot) = 0) := by
    intro hc
    simp only [poleFace] at hf
    rw [if_pos hc] at hf
    cases hf
  let a := h * tan pf.rot
  let b := -h * tan (pf.rot - 2 * pf.fint * pf.hgap * h * (1 + sin pf.rot * sin pf.rot) / cos pf.rot)
  have hF : ∀ u : PS, poleFace h pf u = .ok ⟨u.x, u.px + a * u.x, u.y, u.py + b * u.y, u.ct, u.dp⟩ := fun u => by
    simp only [poleFace]
    rw [if_neg hn]
  refine ⟨fun u => ⟨u.x, u.px + a * u.x, u.y, u.py + b * u.y, u.ct, u.dp⟩, fun c u t _ hd =>
    ⟨_, Filter.Eventually.of_forall fun s => hF (c s), hd.1, hd.2.1.add (hd.1.const_mul a), hd.2.2.1,
      hd.2.2.2.1.add (hd.2.2.1.const_mul b), hd.2.2.2.2.1, hd.2.2.2.2.2⟩, fun u w => ?_⟩
  simp only [form]
  ring

theorem rf_preserves (vn ve k phi dphi : ℝ) (v : PS) : Preserves (fun u => .ok (rfKick vn ve k phi dphi u)) v := by
  refine ⟨fun u => { u with dp := u.dp + vn * (1 + ve) * k * sin (phi + dphi - k * v.ct) * u.ct },
    fun c u t hc hd => ⟨_, Filter.Eventually.of_forall fun s => rfl, hd.1, hd.2.1, hd.2.2.1, hd.2.2.2.1, hd.2.2.2.2.1,
      ?_⟩, fun u w => by simp only [form]; ring⟩
  have h1 : HasDerivAt (fun s => phi + dphi - k * (c s).ct) (-(k * u.ct)) t := by
    simpa using (hd.2.2.2.2.1.const_mul k).const_sub (phi + dphi)
  have h2 := (hasDerivAt_cos (phi + dphi - k * (c t).ct)).comp t h1
  refine (hd.2.2.2.2.2.add (h2.const_mul (vn * (1 + ve)))).congr_deriv ?_
  rw [hc]
  ring

theorem rotate_turn {eps t : ℝ} (h : eps < |t|) (v : PS) : rotate eps t v = turn t v := by
  simp only [rotate, turn]
  rw [if_neg (by rw [sub_zero]; exact not_le.mpr h)]
  ext <;> simp <;> ring

theorem turn_preserves (t : ℝ) (v : PS) : Preserves (fun u => .ok (turn t u)) v := by
  refine ⟨turn t, fun c u τ _ hd => ⟨fun s => turn t (c s), Filter.Eventually.of_forall fun s => rfl, ?_⟩, fun u w => ?_⟩
  · obtain ⟨d1, d2, d3, d4, d5, d6⟩ := hd
    exact ⟨(d1.const_mul _).sub (d3.const_mul _), (d2.const_mul _).sub (d4.const_mul _),
      (d1.const_mul _).add (d3.const_mul _), (d2.const_mul _).add (d4.const_mul _), d5, d6⟩
  · simp only [form, turn]
    have := cos_sq_add_sin_sq t
    linear_combination (u.x * w.px - u.px * w.x + u.y * w.py - u.py * w.y) * this

theorem turn_turn (s t : ℝ) (v : PS) : turn s (turn t v) = turn (s + t) v := by
  ext <;> simp only [turn, sin_add, cos_add] <;> ring

theorem turn_zero (v : PS) : turn 0 v = v := by ext <;> simp [turn]

theorem sector_ok {h ds : ℝ} {v w : PS} (e : sectorMap h ds v = .ok w) : 0 < 1 + v.dp ∧ h ≠ 0 := by
  simp only [sectorMap] at e
  split at e
  · assumption
  · cases e

theorem comb_ok {h k1 ds : ℝ} {v w : PS} (e : combinedMap h k1 ds v = .ok w) : 0 < 1 + v.dp ∧ h * h + k1 ≠ 0 ∧ k1 ≠ 0 := by
  simp only [combinedMap] at e
  split at e
  · assumption
  · cases e

theorem quad_ok {k1 ds : ℝ} {v w : PS} (e : quadMap k1 ds v = .ok w) : 0 < 1 + v.dp ∧ k1 ≠ 0 := by
  simp only [quadMap] at e
  split at e
  · assumption
  · cases e

theorem drift_ok {ds : ℝ} {v w : PS} (e : driftMap ds v = .ok w) : 0 < along2 v.dp v.px v.py := by
  by_contra h
  rw [drift_ub _ h] at e
  cases e

theorem whenLong_ok {f : ℝ → PS → Outcome Unit PS} {ds : ℝ} {v w : PS} (h : whenLong f ds v = .ok w) (hs : ds ≠ 0) :
    f ds v = .ok w := by
  rwa [whenLong, if_pos hs] at h

theorem bendMap_preserves {ef : Bool} {h k1 len : ℝ} {v w : PS} (e : bendMap ef h k1 len v = .ok w) :
    Preserves (bendMap ef h k1 len) v := by
  have key : ∀ f : ℝ → PS → Outcome Unit PS, (∀ u, bendMap ef h k1 len u = whenLong f len u) →
      (f len v = .ok w → Preserves (f len) v) → Preserves (bendMap ef h k1 len) v := fun f hf hp => by
    refine preserves_congr (preserves_whenLong (f := f) (ds := len) fun hs => hp (whenLong_ok ?_ hs)) fun u => (hf u).symm
    rw [← hf]; exact e
  by_cases hh : h = 0 <;> by_cases hk : k1 = 0
  · exact key driftMap (fun u => by simp [bendMap, hh, hk]) fun e => drift_preserves len (drift_ok e)
  · exact key (quadMap k1) (fun u => by simp [bendMap, hh, hk]) fun e => (planar_quad hk).preserves len (quad_ok e).1
  · cases ef with
    | true => exact key (sectorMapEF h) (fun u => by simp [bendMap, hh, hk]) fun e =>
        ef_preserves hh (ef_ok e).2.1 (ef_ok e).2.2
    | false => exact key (sectorMap h) (fun u => by simp [bendMap, hh, hk]) fun e =>
        (planar_sector hh).preserves len (sector_ok e).1
  · exact key (combinedMap h k1) (fun u => by simp [bendMap, hh, hk]) fun e =>
      (planar_comb (comb_ok e).2.1 hk).preserves len (comb_ok e).1

theorem bind_ok_iff {α β : Type} {x : Outcome Unit α} {f : α → Outcome Unit β} {b : β} :
    x.bind f = .ok b ↔ ∃ a, x = .ok a ∧ f a = .ok b := by
  cases x <;> simp [Outcome.bind]

/-- The turn into the frame of the magnet, and back. -/
noncomputable def tin (eps t : ℝ) (v : PS) : PS := if t ≠ 0 then rotate eps t v else v

/-- The gradient as the step sees it. -/
noncomputable def kOf (ec : ℝ) (c : Bend) (b : Beam) : Outcome Unit (Cx ℝ) :=
  if highest (getCoefficient c.field 0 1).2 > 0 then
    (getKn (getCoefficient c.field 0 1).2 1 (b.p0 / ec)).bind fun k => .ok (Cx.smul b.q k) else .ok 0

/-- The magnet is cut in two for a kick. -/
def Split (c : Bend) (K : Cx ℝ) : Prop :=
  (getCoefficient c.field 0 1).1.im ≠ 0 ∨ K.im ≠ 0 ∨ highest (getCoefficient c.field 0 1).2 > 1

/-- The field which gives the kick, and that after the step. -/
noncomputable def kickField (c : Bend) : MField ℝ :=
  let m := (getCoefficient c.field 0 1).2
  setCoefficient (setCoefficient (getCoefficient m 1 1).2 0 ⟨0, (getCoefficient c.field 0 1).1.im⟩ 1) 1
    ⟨0, (getCoefficient m 1 1).1.im⟩ 1
noncomputable def backField (c : Bend) : MField ℝ :=
  setCoefficient (setCoefficient (kickField c) 0 (getCoefficient c.field 0 1).1 1) 1
    (getCoefficient (getCoefficient c.field 0 1).2 1 1).1 1

theorem kOf_ub (ec : ℝ) (c : Bend) (b : Beam) : kOf ec c b = .ub ∨ ∃ K, kOf ec c b = .ok K := by
  simp only [kOf, getKn]
  split
  · split
    · exact Or.inl rfl
    · split <;> exact Or.inr ⟨_, rfl⟩
  · exact Or.inr ⟨_, rfl⟩

theorem trackBend_plain {ef : Bool} {eps ec : ℝ} {c : Bend} {b : Beam} {K : Cx ℝ}
    (hm : matched c.h b.q ((getCoefficient c.field 0 1).1.re * (getCoefficient c.field 0 1).2.b0)) (hK : kOf ec c b = .ok K)
    (hs : ¬ Split c K) (ds : ℝ) (u : PS) : trackBend ef eps ec c b ds u =
      (bendMap ef c.h K.re ds (tin eps c.tilt u)).bind fun w => .ok (tin eps (-c.tilt) w, (getCoefficient c.field 0 1).2) := by
  simp only [kOf] at hK
  simp only [Split] at hs
  simp only [trackBend]
  rw [if_neg (not_not.mpr hm), hK]
  simp only [Outcome.bind]
  simp only [if_neg hs]
  have e1 : (if c.tilt ≠ 0 then rotate eps c.tilt u else u) = tin eps c.tilt u := rfl
  rw [e1]
  cases bendMap ef c.h K.re ds (tin eps c.tilt u) with
  | ok w => simp [tin]
  | throw e => rfl
  | ub => rfl

theorem trackBend_split {ef : Bool} {eps ec : ℝ} {c : Bend} {b : Beam} {K : Cx ℝ}
    (hm : matched c.h b.q ((getCoefficient c.field 0 1).1.re * (getCoefficient c.field 0 1).2.b0)) (hK : kOf ec c b = .ok K)
    (hs : Split c K) (ds : ℝ) (u : PS) : trackBend ef eps ec c b ds u =
      (bendMap ef c.h K.re (ds / 2) (tin eps c.tilt u)).bind fun v1 =>
      (whenLong (fun s => multipoleKick eps ec (kickField c) s b 0) ds v1).bind fun v2 =>
      (bendMap ef c.h K.re (ds / 2) v2).bind fun w => .ok (tin eps (-c.tilt) w, backField c) := by
  simp only [kOf] at hK
  simp only [Split] at hs
  simp only [trackBend]
  rw [if_neg (not_not.mpr hm), hK]
  simp only [Outcome.bind]
  simp only [if_pos hs]
  have e1 : (if c.tilt ≠ 0 then rotate eps c.tilt u else u) = tin eps c.tilt u := rfl
  rw [e1]
  have e2 : setCoefficient (setCoefficient (getCoefficient (getCoefficient c.field 0 1).2 1 1).2 0
      ⟨0, (getCoefficient c.field 0 1).1.im⟩ 1) 1 ⟨0, (getCoefficient (getCoefficient c.field 0 1).2 1 1).1.im⟩ 1 =
      kickField c := rfl
  rw [e2]
  cases bendMap ef c.h K.re (ds / 2) (tin eps c.tilt u) with
  | ok w =>
    simp only
    cases whenLong (fun s => multipoleKick eps ec (kickField c) s b 0) ds w with
    | ok w2 =>
      simp only
      cases bendMap ef c.h K.re (ds / 2) w2 with
      | ok w3 => simp [tin, backField]
      | throw e => rfl
      | ub => rfl
    | throw e => rfl
    | ub => rfl
  | throw e => rfl
  | ub => rfl

theorem trackBend_ok {ef : Bool} {eps ec : ℝ} {c : Bend} {b : Beam} {ds : ℝ} {v : PS} {r : PS × MField ℝ}
    (h : trackBend ef eps ec c b ds v = .ok r) :
    matched c.h b.q ((getCoefficient c.field 0 1).1.re * (getCoefficient c.field 0 1).2.b0) ∧ ∃ K, kOf ec c b = .ok K := by
  by_cases hm : matched c.h b.q ((getCoefficient c.field 0 1).1.re * (getCoefficient c.field 0 1).2.b0)
  · refine ⟨hm, (kOf_ub ec c b).resolve_left fun hu => ?_⟩
    simp only [kOf] at hu
    simp only [trackBend] at h
    rw [if_neg (not_not.mpr hm), hu] at h
    cases h
  · simp only [trackBend] at h
    rw [if_pos hm] at h
    cases h

theorem getD_grow (n : Nat) (l : List (Cx ℝ)) (i : Nat) : (grow n l).getD i 0 = l.getD i 0 := by
  simp only [grow, List.getD_eq_getElem?_getD, List.getElem?_append]
  split
  · rfl
  · rename_i h
    rw [List.getElem?_eq_none (Nat.le_of_not_lt h)]
    simp only [List.getElem?_replicate]
    split <;> rfl

theorem grow_length (n : Nat) (l : List (Cx ℝ)) : n < (grow n l).length := by
  simp only [grow, List.length_append, List.length_replicate]
  omega

theorem getD_set (m : MField ℝ) (n : Nat) (z : Cx ℝ) (i : Nat) :
    (setCoefficient m n z 1).terms.getD i 0 = if i = n then z else m.terms.getD i 0 := by
  have hl := grow_length n m.terms
  simp only [setCoefficient, one_pow, div_one, List.getD_eq_getElem?_getD, List.getElem?_set]
  split
  · rename_i h
    subst h
    simp [hl]
  · rename_i h
    rw [if_neg (fun e => h e.symm)]
    have := getD_grow n m.terms i
    simpa only [List.getD_eq_getElem?_getD] using this

theorem getCoefficient_fst (m : MField ℝ) (n : Nat) : (getCoefficient m n 1).1 = m.terms.getD n 0 := by
  rw [← getD_grow n m.terms n]
  simp [getCoefficient, Cx.smul, List.getD_eq_getElem?_getD]

theorem getCoefficient_snd (m : MField ℝ) (n i : Nat) : (getCoefficient m n 1).2.terms.getD i 0 = m.terms.getD i 0 :=
  getD_grow n m.terms i

theorem backField_same (c : Bend) : SameField (backField c) c.field := by
  refine ⟨rfl, fun i => ?_⟩
  simp only [backField, kickField, getD_set, getCoefficient_fst, getCoefficient_snd]
  split
  · rename_i h; rw [h]
  · split
    · rename_i h; rw [h]
    · rfl

theorem kickField_terms (c : Bend) (i : Nat) : (kickField c).terms.getD i 0 =
    if i ≤ 1 then ⟨0, (c.field.terms.getD i 0).im⟩ else c.field.terms.getD i 0 := by
  simp only [kickField, getD_set, getCoefficient_fst, getCoefficient_snd]
  by_cases h1 : i = 1
  · subst h1; simp
  · by_cases h0 : i = 0
    · subst h0; simp
    · rw [if_neg h1, if_neg h0, if_neg (by omega)]

theorem tin_preserves {eps t : ℝ} (h : t = 0 ∨ eps < |t|) (v : PS) : Preserves (fun u => .ok (tin eps t u)) v := by
  by_cases h0 : t = 0
  · exact preserves_congr (preserves_id v) fun u => by simp [tin, h0]
  · exact preserves_congr (turn_preserves t v) fun u => by simp [tin, h0, rotate_turn (h.resolve_left h0)]

theorem kick_ok {eps ec : ℝ} {m : MField ℝ} {ds : ℝ} {b : Beam} {phi : ℝ} {v w : PS}
    (h : multipoleKick eps ec m ds b phi v = .ok w) : b.p0 ≠ 0 := by
  intro h0
  simp [multipoleKick, h0] at h

theorem trackBend_preserves {ef : Bool} {eps ec : ℝ} {c : Bend} {b : Beam} {ds : ℝ} {v : PS} {r : PS × MField ℝ}
    (ht : c.tilt = 0 ∨ eps < |c.tilt|) (h : trackBend ef eps ec c b ds v = .ok r) :
    Preserves (fun u => (trackBend ef eps ec c b ds u).bind fun p => .ok p.1) v := by
  obtain ⟨hm, K, hK⟩ := trackBend_ok h
  have hin := tin_preserves ht v
  have hout : ∀ w, Preserves (fun u => .ok (tin eps (-c.tilt) u)) w := fun w =>
    tin_preserves (by rw [neg_eq_zero, abs_neg]; exact ht) w
  by_cases hs : Split c K
  · rw [trackBend_split hm hK hs] at h
    obtain ⟨v1, e1, h⟩ := bind_ok_iff.mp h
    obtain ⟨v2, e2, h⟩ := bind_ok_iff.mp h
    obtain ⟨v3, e3, h⟩ := bind_ok_iff.mp h
    have p2 : Preserves (whenLong (fun s => multipoleKick eps ec (kickField c) s b 0) ds) v1 :=
      preserves_whenLong (f := fun s => multipoleKick eps ec (kickField c) s b 0) fun hl =>
        kick_preserves eps ec (kickField c) ds
          (kick_ok (whenLong_ok (f := fun s => multipoleKick eps ec (kickField c) s b 0) e2 hl)) 0 v1
    have q3 := preserves_bind (bendMap_preserves e3) e3 (hout v3)
    have q2 := preserves_bind p2 e2 q3
    have q1 := preserves_bind (bendMap_preserves e1) e1 q2
    refine preserves_congr (preserves_bind hin rfl q1) fun u => ?_
    rw [trackBend_split hm hK hs]
    simp only [Outcome.bind]
    cases bendMap ef c.h K.re (ds / 2) (tin eps c.tilt u) with
    | ok w =>
      simp only
      cases whenLong (fun s => multipoleKick eps ec (kickField c) s b 0) ds w with
      | ok w2 =>
        simp only
        cases bendMap ef c.h K.re (ds / 2) w2 <;> rfl
      | throw e => rfl
      | ub => rfl
    | throw e => rfl
    | ub => rfl
  · rw [trackBend_plain hm hK hs] at h
    obtain ⟨v1, e1, h⟩ := bind_ok_iff.mp h
    have q1 := preserves_bind (bendMap_preserves e1) e1 (hout v1)
    refine preserves_congr (preserves_bind hin rfl q1) fun u => ?_
    rw [trackBend_plain hm hK hs]
    simp only [Outcome.bind]
    cases bendMap ef c.h K.re ds (tin eps c.tilt u) <;> rfl

theorem trackFace_preserves {h : ℝ} {pf : Option PoleFace} {v w : PS} (e : trackFace h pf v = .ok w) :
    Preserves (trackFace h pf) v := by
  cases pf with
  | none => exact preserves_id v
  | some p => exact face_preserves e

theorem trackThrough_preserves {ef : Bool} {eps ec : ℝ} {c : Bend} {b : Beam} {ds : ℝ} {v w : PS}
    (ht : c.tilt = 0 ∨ eps < |c.tilt|) (h : trackThrough ef eps ec c b ds v = .ok w) :
    Preserves (trackThrough ef eps ec c b ds) v := by
  obtain ⟨v1, e1, h⟩ := bind_ok_iff.mp h
  obtain ⟨r, e2, h⟩ := bind_ok_iff.mp h
  have q2 := preserves_bind (trackBend_preserves ht e2) (v1 := r.1) (by rw [e2]; rfl) (trackFace_preserves h)
  refine preserves_congr (preserves_bind (trackFace_preserves e1) e1 q2) fun u => ?_
  simp only [trackThrough]
  cases trackFace c.h c.entrance u with
  | ok w1 => simp only [Outcome.bind]; cases trackBend ef eps ec c b ds w1 <;> rfl
  | throw e => rfl
  | ub => rfl

theorem longDrift_preserves {ds : ℝ} {v w : PS} (h : whenLong driftMap ds v = .ok w) : Preserves (whenLong driftMap ds) v :=
  preserves_whenLong fun hs => drift_preserves ds (drift_ok (whenLong_ok h hs))

theorem tw_preserves {g k phi p0 ds : ℝ} {v w : PS} (h : trackTW g k phi p0 ds v = .ok w) :
    Preserves (trackTW g k phi p0 ds) v := by
  by_cases hg : g = 0
  · simp only [trackTW, if_pos hg] at h
    exact preserves_congr (longDrift_preserves h) fun u => by simp [trackTW, hg]
  · simp only [trackTW, if_neg hg] at h
    obtain ⟨v1, e1, h⟩ := bind_ok_iff.mp h
    obtain ⟨v2, e2, h⟩ := bind_ok_iff.mp h
    have hp : p0 ≠ 0 := by
      intro hp
      rw [if_pos hp] at e2
      cases e2
    rw [if_neg hp] at e2
    have q2 := preserves_bind (rf_preserves (g * ds / p0) 0 k phi 0 v1) e2 (longDrift_preserves h)
    refine preserves_congr (preserves_bind (longDrift_preserves e1) e1 q2) fun u => ?_
    simp [trackTW, hg, hp]

end Verif.Symplectic
