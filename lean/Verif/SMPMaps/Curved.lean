import Verif.SMPMaps.Skew
import Verif.Transport.Chromatic
import Verif.Transport.Motion

/-!
# Slices in bends and solenoids
-/

namespace Verif.SMPMaps
open Verif Real Verif.Multipole Verif.LinMap Verif.LinMap.Spec Verif.Slices Verif.Slices.Spec Verif.Transport
  Verif.SMPMaps.Spec

noncomputable section

/-! ## C264: bends -/

theorem qr2_within (l K : ℝ) {o : Nat} (ho : o ≤ 2) : Within 6 (qr2 l K o) := by
  intro t ht
  unfold qr2 at ht
  split_ifs at ht <;> simp [term] at ht <;> rcases ht with rfl | rfl | rfl | rfl <;> constructor <;> simp <;> omega

theorem bend_within (l h K : ℝ) : Within 6 (bendMap l h K) := by
  intro t ht
  unfold bendMap at ht
  split_ifs at ht with hl
  · simp [idMap, term] at ht
    rcases ht with rfl | rfl | rfl | rfl | rfl | rfl <;> simp
  · simp only [List.mem_append] at ht
    rcases ht with ((ht | ht) | ht) | ht
    · exact qr2_within _ _ (by omega) t ht
    · exact qr2_within _ _ (by omega) t ht
    · unfold sbrDMap at ht
      split_ifs at ht
      · simp [term] at ht
        rcases ht with rfl | rfl | rfl | rfl | rfl <;> simp
      · simp [term] at ht
        rcases ht with rfl | rfl | rfl | rfl | rfl <;> simp
      · simp at ht
    · simp [term] at ht
      rcases ht with rfl | rfl <;> simp

theorem bend_mat {l h K : ℝ} (hk : K + h * h ≠ 0) : ∀ i < 6, ∀ j < 6,
    mat (bendMap l h K) i j = closed l h (K + h * h) (-K) i j := by
  intro i hi j hj
  have := bendMap_closed l h K i j hi hj
  rwa [if_neg hk] at this

/-- The orbit about the circle. -/
theorem carried_circle {h K : ℝ} (hk : K + h * h ≠ 0) (l : ℝ) (p : Pt) :
    Carried (circle h K) l p (mulVec 6 (closed l h (K + h * h) (-K)) p) := by
  have hf := closed_flow h (K + h * h) (-K) (Or.inr hk)
  refine ⟨fun t => mulVec 6 (closed t h (K + h * h) (-K)) p, ?_, fun _ _ => rfl, ?_⟩
  · intro i hi
    simp only [mulVec, sumTo6]
    interval_cases i <;> simp [closed]
  · intro t i hi
    have d := fun j hj => (hf.2 t i j hi hj).mul_const (p j)
    have := ((((((d 0 (by omega)).add (d 1 (by omega))).add (d 2 (by omega))).add (d 3 (by omega))).add
      (d 4 (by omega))).add (d 5 (by omega)))
    have e : (fun t => mulVec 6 (closed t h (K + h * h) (-K)) p i) = fun t =>
        closed t h (K + h * h) (-K) i 0 * p 0 + closed t h (K + h * h) (-K) i 1 * p 1 +
        closed t h (K + h * h) (-K) i 2 * p 2 + closed t h (K + h * h) (-K) i 3 * p 3 +
        closed t h (K + h * h) (-K) i 4 * p 4 + closed t h (K + h * h) (-K) i 5 * p 5 := by
      funext t; unfold mulVec; rw [sumTo6]
    rw [e]
    refine this.congr_deriv ?_
    interval_cases i <;> simp [Transport.Spec.mul, Transport.Spec.magnet, circle, mulVec, sumTo6, closed] <;> ring

theorem bend_untilted {tol : ℝ} {c : Bend} (ht : c.tilt = 0) (ds K1 p0 pref : ℝ) (s : Slice ℝ) :
    bendSlice tol c ds K1 p0 pref s = if ¬ |pref - p0| ≤ tol then applyRdp (bendMap ds c.h K1) (p0 / pref) s
      else applyR (bendMap ds c.h K1) s := by
  simp only [bendSlice, ht, ne_eq, not_true_eq_false, if_false, Outcome.bind]
  split_ifs
  · cases applyR (bendMap ds c.h K1) s <;> rfl
  · cases applyRdp (bendMap ds c.h K1) (p0 / pref) s <;> rfl

theorem closed_last (l h a b : ℝ) : ∀ j < 6, closed l h a b 5 j = if j = 5 then 1 else 0 := by
  intro j hj
  interval_cases j <;> simp [closed]

theorem closed_place (l h a b : ℝ) : ∀ i < 4, closed l h a b i 4 = 0 := by
  intro i hi
  interval_cases i <;> simp [closed]

/-- The bend with the conversion of the momentum deviation. -/
theorem bend_dp {h K : ℝ} (hk : K + h * h ≠ 0) (l : ℝ) {p0 p1 : ℝ} (s : Slice ℝ) :
    ∃ s', applyRdp (bendMap l h K) (p0 / p1) s = .ok s' ∧ Kept s s' ∧ Follows (Bent p0 p1 h K l) s s' := by
  set x' := upd s.x 5 (p0 / p1 * (1 + s.x 5) - 1) with hx'
  obtain ⟨s1, e, hq, hx, hc⟩ := applyR_ok (bend_within l h K) { s with x := x' }
  set M := closed l h (K + h * h) (-K) with hM
  have hm : ∀ p : Pt, ∀ i < 6, mulVec 6 (mat (bendMap l h K)) p i = mulVec 6 M p i := by
    intro p i hi
    unfold mulVec
    simp only [sumTo6]
    rw [bend_mat hk i hi 0 (by omega), bend_mat hk i hi 1 (by omega), bend_mat hk i hi 2 (by omega),
      bend_mat hk i hi 3 (by omega), bend_mat hk i hi 4 (by omega), bend_mat hk i hi 5 (by omega)]
  refine ⟨{ s1 with x := upd s1.x 5 (s.x 5) }, by simp only [applyRdp]; rw [e]; rfl, ⟨hq, by simp [upd]⟩, ?_⟩
  refine follows_affine (fun i j => if i = 5 then (if j = 5 then 1 else 0) else if j = 5 then M i 5 * (p0 / p1) else M i j)
    (fun i => if i = 5 then 0 else M i 5 * (p0 / p1 - 1))
    (fun p i => if i = 5 then p 5 else mulVec 6 M (relative p0 p1 p) i) hq ?_ ?_ ?_ ?_ ?_ ?_
  · intro i hi
    by_cases h5 : i = 5
    · subst h5; simp [upd, sumTo6]
    · simp only [upd, h5, if_false]
      rw [hx i, hm _ i hi]
      simp [mulVec, sumTo6, hx', upd]
      ring
  · intro i hi j hj
    show sig 4 s1.c i j = _
    rw [hc i hi j hj]
    unfold conjugate
    simp only [sumTo4]
    rw [bend_mat hk i (by omega) 0 (by omega), bend_mat hk i (by omega) 1 (by omega), bend_mat hk i (by omega) 2 (by omega),
      bend_mat hk i (by omega) 3 (by omega), bend_mat hk j (by omega) 0 (by omega), bend_mat hk j (by omega) 1 (by omega),
      bend_mat hk j (by omega) 2 (by omega), bend_mat hk j (by omega) 3 (by omega)]
    simp [show i ≠ 5 by omega, show j ≠ 5 by omega, hM]
  · intro i hi
    simp [show i ≠ 5 by omega, hM, closed_place _ _ _ _ i hi]
  · intro p hp; simp [upd, hp]
  · intro p i hi
    by_cases h5 : i = 5
    · subst h5; simp [sumTo6]
    · simp only [h5, if_false]
      simp [mulVec, sumTo6, relative]
      ring
  · intro p hp
    refine ⟨by simp, ?_⟩
    refine carried_congr (carried_circle hk l (relative p0 p1 p)) (fun _ _ => rfl) ?_
    intro i hi
    by_cases h5 : i = 5
    · subst h5
      simp [mulVec, sumTo6, closed, relative]
    · simp [relative, h5, hM]

/-- The bend without conversion. -/
theorem bend_plain {h K : ℝ} (hk : K + h * h ≠ 0) (l : ℝ) {p0 : ℝ} (hp : p0 ≠ 0) (s : Slice ℝ) :
    ∃ s', applyR (bendMap l h K) s = .ok s' ∧ Kept s s' ∧ Follows (Bent p0 p0 h K l) s s' := by
  obtain ⟨s', e, kept, f⟩ := bend_dp hk l (p0 := p0) (p1 := p0) s
  obtain ⟨s1, e1, q1, x1, _⟩ := applyR_ok (bend_within l h K) s
  have hu : upd s.x 5 (p0 / p0 * (1 + s.x 5) - 1) = s.x := by
    funext i; unfold upd; split_ifs with h5
    · subst h5; field_simp; ring
    · rfl
  have h5 : s1.x 5 = s.x 5 := by
    rw [x1 5]
    unfold mulVec
    rw [sumTo6, bend_mat hk 5 (by omega) 0 (by omega), bend_mat hk 5 (by omega) 1 (by omega),
      bend_mat hk 5 (by omega) 2 (by omega), bend_mat hk 5 (by omega) 3 (by omega), bend_mat hk 5 (by omega) 4 (by omega),
      bend_mat hk 5 (by omega) 5 (by omega)]
    simp [closed]
  have : s' = s1 := by
    simp only [applyRdp] at e
    rw [hu] at e
    have e1' : applyR (bendMap l h K) { s with x := s.x } = .ok s1 := e1
    rw [e1'] at e
    simp only [Outcome.bind] at e
    cases e
    have : upd s1.x 5 (s.x 5) = s1.x := by
      funext i; unfold upd; split_ifs with h
      · subst h; exact h5.symm
      · rfl
    rw [this]
  subst this
  exact ⟨s', e1, kept, f⟩

theorem bendStep_eq {tol ec cl q : ℝ} {c : Bend} {ds : ℝ} {b : SBunch ℝ} (hd : ds ≠ 0) (hh : c.h ≠ 0) (hq : q ≠ 0)
    (hp : b.p0 ≠ 0) (he : ec ≠ 0) (hr : 0 < matched cl c.h q c.field) :
    bendStep tol ec cl q c ds b = onBunch (bendSlice tol c ds (component ec q b.p0 c.field 1).re b.p0
      (matched cl c.h q c.field)) b := by
  have h0 : ¬ (c.h = 0 ∨ q = 0) := by tauto
  simp only [bendStep, if_neg hd, if_neg h0, not_not, hr, not_true_eq_false, if_false]
  by_cases hg : highest c.field > 0
  · simp only [if_pos hg, strength_ok hp he c.field (le_refl 1), Outcome.bind]
  · simp only [if_neg hg, Outcome.bind]
    have : c.field.terms.getD 1 0 = 0 := by
      have : c.field.terms.length ≤ 1 := by simp [highest] at hg; omega
      rw [List.getD_eq_getElem?_getD, List.getElem?_eq_none this]; rfl
    rw [component_zero this]

/-- C264: in a bend that is not tilted, each slice stands for the particles it stood for, each moved about the circle, on
which a particle of the momentum `p1` with `p1 h q = cl B` stays. -/
theorem bend_tracked {tol ec cl q : ℝ} {c : Bend} {ds : ℝ} {b : SBunch ℝ} {p1 : ℝ} (hd : ds ≠ 0) (hh : c.h ≠ 0)
    (hq : q ≠ 0) (hp : b.p0 ≠ 0) (he : ec ≠ 0) (hr : 0 < p1)
    (h1 : p1 * (c.h * q) = cl * ((c.field.terms.getD 0 0).re * c.field.b0)) (ht : c.tilt = 0)
    (htol : p1 = b.p0 ∨ tol < |p1 - b.p0|) (hk : (component ec q b.p0 c.field 1).re + c.h * c.h ≠ 0) (h0 : 0 ≤ tol) :
    ∃ b', bendStep tol ec cl q c ds b = .ok b' ∧
      Tracked (Bent b.p0 p1 c.h (component ec q b.p0 c.field 1).re ds) b b' := by
  have hm : matched cl c.h q c.field = p1 := by
    unfold matched
    rw [← h1]; field_simp
  rw [bendStep_eq hd hh hq hp he (by rw [hm]; exact hr), hm]
  refine onBunch_tracked fun s _ => ?_
  rw [bend_untilted ht]
  rcases htol with e | e
  · subst e
    rw [if_neg (by simpa using h0)]
    exact bend_plain hk ds hp s
  · rw [if_pos (not_le.2 e)]
    exact bend_dp hk ds s

/-- C264 is violated: the gradient of a bend is taken in units of the reference momentum of the bunch and not of the momentum
of the circle.  The same particles, given with another reference momentum, are focused differently. -/
theorem bend_gradient_violated {k ds tol : ℝ} (hk : 0 < k) (hd : 0 < ds) (h0 : 0 ≤ tol) (htol : tol < 1) :
    ∃ s s' : Slice ℝ, (∀ i < 5, s.x i = s'.x i) ∧ s.c = s'.c ∧ s.q = s'.q ∧ SMPMaps.Spec.momentum 1 s = SMPMaps.Spec.momentum 2 s' ∧
      ∃ t t', bendStep tol 1 1 1 ⟨1, 0, ⟨1, [⟨1, 0⟩, ⟨k, 0⟩]⟩⟩ ds ⟨1, 0, 1, [s]⟩ = .ok ⟨1, 0, 1, [t]⟩ ∧
        bendStep tol 1 1 1 ⟨1, 0, ⟨1, [⟨1, 0⟩, ⟨k, 0⟩]⟩⟩ ds ⟨2, 0, 1, [s']⟩ = .ok ⟨2, 0, 1, [t']⟩ ∧ t'.x 2 < t.x 2 := by
  refine ⟨point 1 fun i => if i = 2 then 1 else 0, point 1 fun i => if i = 2 then 1 else if i = 5 then -1 / 2 else 0,
    ?_, rfl, rfl, ?_, ?_⟩
  · intro i hi; interval_cases i <;> simp [point]
  · simp [SMPMaps.Spec.momentum, point]; norm_num
  have c1 : component 1 1 1 ⟨1, [⟨1, 0⟩, ⟨k, 0⟩]⟩ 1 = ⟨k, 0⟩ := by ext <;> simp [component, Cx.smul]
  have c2 : component 1 1 2 ⟨1, [⟨1, 0⟩, ⟨k, 0⟩]⟩ 1 = ⟨k / 2, 0⟩ := by
    ext <;> simp [component, Cx.smul]; ring
  have hm : matched 1 1 1 (⟨1, [⟨1, 0⟩, ⟨k, 0⟩]⟩ : MField ℝ) = 1 := by simp [matched]
  obtain ⟨t, e, _, f⟩ := bend_plain (h := 1) (K := k) (by positivity) ds (p0 := 1) one_ne_zero
    (point 1 fun i => if i = 2 then 1 else 0)
  obtain ⟨t', e', _, f'⟩ := bend_dp (h := 1) (K := k / 2) (by positivity) ds (p0 := 2) (p1 := 1)
    (point 1 fun i => if i = 2 then 1 else if i = 5 then -1 / 2 else 0)
  refine ⟨t, t', ?_, ?_, ?_⟩
  · rw [bendStep_eq hd.ne' one_ne_zero one_ne_zero one_ne_zero one_ne_zero (by rw [hm]; norm_num)]
    simp only [hm, c1, onBunch, forEach, bend_untilted]
    rw [if_neg (by simpa using h0), e]
    rfl
  · rw [bendStep_eq hd.ne' one_ne_zero one_ne_zero two_ne_zero one_ne_zero (by rw [hm]; norm_num)]
    simp only [hm, c2, onBunch, forEach, bend_untilted]
    rw [if_pos (by norm_num; exact htol), e']
    rfl
  · obtain ⟨y, ⟨_, hy⟩, ey⟩ := point_follows f
    obtain ⟨y', ⟨_, hy'⟩, ey'⟩ := point_follows f'
    have v := circle_unique hy (carried_circle (by positivity) ds _) 2 (by omega)
    have v' := circle_unique hy' (carried_circle (by positivity) ds _) 2 (by omega)
    rw [ey 2 (by omega), ey' 2 (by omega)]
    simp [relative, mulVec, sumTo6, closed] at v v'
    rw [v, v']
    have g1 : cK (-k) ds = cosh (√k * ds) := by simp [cK, hk.ne', not_lt.2 hk.le]
    have g2 : cK (-(k / 2)) ds = cosh (√(k / 2) * ds) := by
      simp [cK, hk.ne', not_lt.2 (by positivity : 0 ≤ k / 2)]
    rw [g1, g2, cosh_lt_cosh, abs_of_nonneg (by positivity), abs_of_nonneg (by positivity)]
    exact mul_lt_mul_of_pos_right (sqrt_lt_sqrt (by positivity) (by linarith)) hd

/-! ## C265: tilted bends and pole faces -/

/-- C265 is violated: slices leave a tilted bend with neither momentum deviation nor place. -/
theorem tilt_loses_violated {tol : ℝ} {c : Bend} (ht : c.tilt ≠ 0) {ds K1 p0 pref : ℝ} {s s' : Slice ℝ}
    (e : bendSlice tol c ds K1 p0 pref s = .ok s') : s'.x 4 = 0 ∧ s'.x 5 = 0 := by
  obtain ⟨s1, e1, _⟩ := rotateZ_follows c.tilt s
  simp only [bendSlice, ne_eq, ht, not_false_eq_true, if_true, e1, Outcome.bind] at e
  generalize (if ¬ |pref - p0| ≤ tol then applyRdp (bendMap ds c.h K1) (p0 / pref) s1
    else applyR (bendMap ds c.h K1) s1) = z at e
  cases z with
  | ok s2 =>
    simp only at e
    obtain ⟨s3, e3, _, h4, h5, _⟩ := rotateZ_follows (-c.tilt) s2
    rw [e3] at e
    cases e
    exact ⟨h4, h5⟩
  | throw _ => simp at e
  | ub => simp at e

/-- C265: up to that a bend acts in the turned plane. -/
theorem tilt_partial {tol : ℝ} {c : Bend} (ht : c.tilt ≠ 0) {ds K1 p0 : ℝ} (hk : K1 + c.h * c.h ≠ 0) (hp : p0 ≠ 0)
    (h0 : 0 ≤ tol) (s : Slice ℝ) : ∃ s', bendSlice tol c ds K1 p0 p0 s = .ok s' ∧ s'.q = s.q ∧
      Follows (fun p p' => ∃ q, Carried (circle c.h K1) ds (turned c.tilt (flat p)) q ∧
        ∀ i < 6, p' i = turned (-c.tilt) (flat q) i) s s' := by
  obtain ⟨s1, e1, q1, x4, x5, f1⟩ := rotateZ_follows c.tilt s
  obtain ⟨s2, e2, k2, f2⟩ := bend_plain hk ds hp s1
  obtain ⟨s3, e3, q3, z4, z5, f3⟩ := rotateZ_follows (-c.tilt) s2
  have hn : ¬ ¬ |p0 - p0| ≤ tol := by simpa using h0
  refine ⟨s3, ?_, by rw [q3, k2.1, q1], ?_⟩
  · simp only [bendSlice, ne_eq, ht, not_false_eq_true, if_true, e1, Outcome.bind, if_neg hn, e2, e3]
  · refine follows_mono (follows_after f1 (follows_after f2 f3)) ?_
    rintro p p' _ ⟨q, hq, q', ⟨_, hq'⟩, hp'⟩
    have hrel : ∀ r : Pt, ∀ i < 6, relative p0 p0 r i = r i := by
      intro r i _
      unfold relative
      split_ifs with h5
      · subst h5; field_simp; ring
      · rfl
    exact ⟨q', carried_congr hq' (fun i hi => (hrel q i hi).trans (hq i hi)) (hrel q'), hp'⟩

theorem pole_within (h a f g : ℝ) : Within 6 (poleMap h a f g) := by
  intro t ht
  simp [poleMap, idMap, term] at ht
  rcases ht with rfl | rfl | rfl | rfl | rfl | rfl | rfl | rfl <;> simp

/-- C265: a pole face focuses one plane by as much as its wedge of field deflects more or less, and defocuses the other. -/
theorem face_tracked (h a f g : ℝ) (b : SBunch ℝ) : ∃ b', faceStep h a f g b = .ok b' ∧
    Tracked (fun p p' => ∀ i < 6, p' i = edged (h * tan a)
      (-h * tan (a - 2 * f * g * h * (1 + sin a ^ 2) / cos a)) p i) b b' := by
  refine onBunch_tracked fun s _ => ?_
  obtain ⟨s', e, f1, h5⟩ := applyR_follows (pole_within h a f g)
    (by intro i hi; interval_cases i <;> simp [poleMap, idMap, mat_cons, mat_nil, term])
    (by intro j hj; interval_cases j <;> simp [poleMap, idMap, mat_cons, mat_nil, term]) s
  obtain ⟨s'', e', q', _⟩ := applyR_ok (pole_within h a f g) s
  rw [e] at e'
  cases e'
  refine ⟨s', e, ⟨q', h5⟩, follows_mono f1 fun p p' _ hp i hi => ?_⟩
  rw [hp i]
  unfold mulVec
  rw [sumTo6]
  interval_cases i <;> simp [poleMap, idMap, mat_cons, mat_nil, term, edged, pow_two] <;> ring

/-- C265: opposite pole faces without fringe fields cancel. -/
theorem faces_cancel (h a g : ℝ) (b : SBunch ℝ) : ∃ b' b'', faceStep h a 0 g b = .ok b' ∧ faceStep h (-a) 0 g b' = .ok b'' ∧
    b''.p0 = b.p0 ∧ List.Forall₂ (Follows fun p p' => ∀ i < 6, p' i = p i) b.slices b''.slices := by
  obtain ⟨b', e1, t1⟩ := face_tracked h a 0 g b
  obtain ⟨b'', e2, t2⟩ := face_tracked h (-a) 0 g b'
  refine ⟨b', b'', e1, e2, t2.p0.trans t1.p0, ?_⟩
  have := t1.slices
  have h2 := t2.slices
  revert h2
  generalize b''.slices = l2
  revert this
  generalize b'.slices = l1
  generalize b.slices = l0
  intro h1 h2
  induction h1 generalizing l2 with
  | nil => cases h2; exact .nil
  | cons a1 _ ih =>
    cases h2 with
    | cons a2 r2 =>
      refine .cons (follows_mono (follows_after a1.2 a2.2) ?_) (ih _ r2)
      rintro p p' _ ⟨q, hq, hp⟩ i hi
      rw [hp i hi]
      interval_cases i <;> simp [edged, hq, tan_neg]

/-! ## C266: solenoids -/

theorem sol_within (l k : ℝ) : Within 6 (solMap l k) := by
  intro t ht
  by_cases h : Fequal (k / 2 * l) 0
  · simp [solMap, h, term] at ht
    rcases ht with rfl | rfl | rfl | rfl | rfl | rfl | rfl | rfl | rfl | rfl | rfl | rfl <;> simp
  · simp [solMap, h, term] at ht
    rcases ht with rfl | rfl | rfl | rfl | rfl | rfl | rfl | rfl | rfl | rfl | rfl | rfl | rfl | rfl | rfl | rfl <;> simp

/-- C266: a solenoid that is off is a drift. -/
theorem solenoid_off {eps ec q bz ds : ℝ} (h : |bz| ≤ eps) (b : SBunch ℝ) :
    ∃ b', solStep eps ec q bz ds b = .ok b' ∧ Tracked (Carried (straight 0 0) ds) b b' := by
  have : solStep eps ec q bz ds b = drift ds b := by simp [solStep, h]
  rw [this]
  exact drift_tracked ds b

/-- C266 is violated: slices leave a solenoid with neither momentum deviation nor place. -/
theorem solenoid_loses_violated {ds k : ℝ} {s s' : Slice ℝ} (e : solApply ds k s = .ok s') : s'.x 4 = 0 ∧ s'.x 5 = 0 := by
  unfold solApply at e
  split_ifs at e with h
  obtain ⟨s1, e1, _, hx, _⟩ := applyR_ok (sol_within ds (k / (1 + s.x 5))) s
  rw [e1] at e
  cases e
  rw [hx, hx]
  unfold mulVec
  simp only [sumTo6]
  by_cases hf : Fequal (k / (1 + s.x 5) / 2 * ds) 0 <;>
    simp [solMap, hf, mat_cons, mat_nil, term]

/-- C266 is violated: a slice that starts on the axis of a solenoid with a horizontal slope stays in its plane, though the
particles move on a helix. -/
theorem solenoid_helix_violated {ds k : ℝ} (hk : eps < |k / 2 * ds|) (hs : sin (k / 2 * ds) ≠ 0) :
    ∃ s', solApply ds k (point 1 fun i => if i = 1 then 1 else 0) = .ok s' ∧ s'.x 2 = 0 ∧
      ∃ y, Carried (gyrating k) ds (fun i => if i = 1 then 1 else 0) y ∧ y 2 ≠ 0 := by
  have hf : ¬ Fequal (k / 2 * ds) 0 := by unfold Fequal; rw [sub_zero]; exact not_le.2 hk
  have hk0 : k ≠ 0 := by rintro rfl; simp at hs
  obtain ⟨s1, e1, _, hx, _⟩ := applyR_ok (sol_within ds k) (point 1 fun i => if i = 1 then 1 else 0)
  refine ⟨s1, ?_, ?_, ?_⟩
  · unfold solApply
    rw [if_neg (by simp [point])]
    simpa [point] using e1
  · rw [hx]
    unfold mulVec
    simp [sumTo6, point, solMap, hf, mat_cons, mat_nil, term]
  · refine ⟨fun i => if i = 0 then sin (k * ds) / k else if i = 1 then cos (k * ds) else if i = 2 then (cos (k * ds) - 1) / k
      else if i = 3 then -sin (k * ds) else 0, ⟨fun t i => if i = 0 then sin (k * t) / k else if i = 1 then cos (k * t) else
      if i = 2 then (cos (k * t) - 1) / k else if i = 3 then -sin (k * t) else 0, ?_, fun _ _ => rfl, ?_⟩, ?_⟩
    · intro i hi; interval_cases i <;> simp
    · intro t i hi
      have d : HasDerivAt (fun t => k * t) k t := by simpa using (hasDerivAt_id' t).const_mul k
      have ds := d.sin
      have dc := d.cos
      interval_cases i
      · refine (ds.div_const k).congr_deriv ?_
        simp [gyrating]; field_simp
      · refine dc.congr_deriv ?_
        simp [gyrating]; ring
      · refine ((dc.sub_const 1).div_const k).congr_deriv ?_
        simp [gyrating]; field_simp
      · refine ds.neg.congr_deriv ?_
        simp [gyrating]; ring
      · simpa [gyrating] using hasDerivAt_const t (0 : ℝ)
      · simpa [gyrating] using hasDerivAt_const t (0 : ℝ)
    · simp only [show (2 : ℕ) ≠ 0 by norm_num, show (2 : ℕ) ≠ 1 by norm_num, if_false, if_true]
      refine div_ne_zero ?_ hk0
      have h2 := cos_two_mul' (k / 2 * ds)
      rw [show 2 * (k / 2 * ds) = k * ds by ring] at h2
      have h3 := sin_sq_add_cos_sq (k / 2 * ds)
      have : cos (k * ds) - 1 = -2 * sin (k / 2 * ds) ^ 2 := by rw [h2]; linarith
      rw [this]
      exact mul_ne_zero (by norm_num) (pow_ne_zero _ hs)

/-- C266 is violated in every step over a solenoid that is on: all slices leave with neither deviation nor place. -/
theorem solenoid_step_violated {tol ec q bz ds : ℝ} (h : tol < |bz|) (he : ec ≠ 0) {b : SBunch ℝ} (hp : b.p0 ≠ 0)
    (hd : ∀ s ∈ b.slices, 1 + s.x 5 ≠ 0) : ∃ b', solStep tol ec q bz ds b = .ok b' ∧
      List.Forall₂ (fun s s' => s'.q = s.q ∧ s'.x 4 = 0 ∧ s'.x 5 = 0) b.slices b'.slices := by
  have h1 : ¬ |bz - 0| ≤ tol := by rw [sub_zero]; exact not_le.2 h
  simp only [solStep, if_neg h1, if_neg (div_ne_zero hp he)]
  obtain ⟨b', e, _, _, _, f⟩ := onBunch_ok (f := solApply ds (q * bz / (b.p0 / ec)))
    (P := fun s s' => s'.q = s.q ∧ s'.x 4 = 0 ∧ s'.x 5 = 0) (b := b) (fun s hs => by
      obtain ⟨s', e1, q1, _, _⟩ := applyR_ok (sol_within ds (q * bz / (b.p0 / ec) / (1 + s.x 5))) s
      have e2 : solApply ds (q * bz / (b.p0 / ec)) s = .ok s' := by rw [solApply, if_neg (hd s hs), e1]
      exact ⟨s', e2, q1, solenoid_loses_violated e2⟩)
  exact ⟨b', e, f⟩

/-- The orbit inside a longitudinal field. -/
def helix (k : ℝ) (p : Pt) (t : ℝ) : Pt
  | 0 => p 0 + (p 1 * sin (k * t) + p 3 * (1 - cos (k * t))) / k
  | 1 => p 1 * cos (k * t) + p 3 * sin (k * t)
  | 2 => p 2 + (p 3 * sin (k * t) - p 1 * (1 - cos (k * t))) / k
  | 3 => p 3 * cos (k * t) - p 1 * sin (k * t)
  | n => p n

theorem carried_helix {k : ℝ} (hk : k ≠ 0) (l : ℝ) (p : Pt) : Carried (gyrating k) l p (helix k p l) := by
  refine ⟨helix k p, ?_, fun _ _ => rfl, ?_⟩
  · intro i hi; interval_cases i <;> simp [helix]
  · intro t i hi
    have d : HasDerivAt (fun t => k * t) k t := by simpa using (hasDerivAt_id' t).const_mul k
    have ds := d.sin
    have dc := d.cos
    interval_cases i
    · refine ((((ds.const_mul (p 1)).add ((dc.const_sub 1).const_mul (p 3))).div_const k).const_add (p 0)).congr_deriv ?_
      simp only [gyrating, helix]; field_simp
    · refine ((dc.const_mul (p 1)).add (ds.const_mul (p 3))).congr_deriv ?_
      simp only [gyrating, helix]; ring
    · refine ((((ds.const_mul (p 3)).sub ((dc.const_sub 1).const_mul (p 1))).div_const k).const_add (p 2)).congr_deriv ?_
      simp only [gyrating, helix]; field_simp
    · refine ((dc.const_mul (p 3)).sub (ds.const_mul (p 1))).congr_deriv ?_
      simp only [gyrating, helix]; ring
    · exact hasDerivAt_const t (p 4)
    · exact hasDerivAt_const t (p 5)

/-- C266: the transverse means of a slice without horizontal slope go through the edges and the helix between them. -/
theorem solenoid_partial {ds k : ℝ} {s : Slice ℝ} (hd : 1 + s.x 5 ≠ 0) (hk : eps < |k / (1 + s.x 5) / 2 * ds|)
    (h1 : s.x 1 = 0) : ∃ s', solApply ds k s = .ok s' ∧ s'.q = s.q ∧
      ∃ y, Carried (gyrating (k / (1 + s.x 5))) ds (rising (k / (1 + s.x 5)) s.x) y ∧
        ∀ i < 4, s'.x i = rising (-(k / (1 + s.x 5))) y i := by
  obtain ⟨s', e, q, hx, _⟩ := applyR_ok (sol_within ds (k / (1 + s.x 5))) s
  have hf : ¬ Fequal (k / (1 + s.x 5) / 2 * ds) 0 := by unfold Fequal; rw [sub_zero]; exact not_le.2 hk
  have hk0 : k / (1 + s.x 5) ≠ 0 := by
    intro h
    rw [h] at hk
    simp at hk
    exact absurd hk (not_lt.2 (by unfold eps; norm_num))
  have e' : solApply ds k s = .ok s' := by rw [solApply, if_neg hd, ← e]
  generalize k / (1 + s.x 5) = κ at *
  refine ⟨s', e', q, _, carried_helix hk0 ds _, ?_⟩
  have h2 : κ * ds = 2 * (κ / 2 * ds) := by ring
  intro i hi
  rw [hx i]
  unfold mulVec
  simp only [sumTo6]
  have hcs := sin_sq_add_cos_sq (κ / 2 * ds)
  interval_cases i <;>
    simp [solMap, hf, mat_cons, mat_nil, term, rising, helix, h1] <;>
    rw [h2, sin_two_mul, cos_two_mul'] <;> field_simp
  all_goals grind

end

end Verif.SMPMaps
