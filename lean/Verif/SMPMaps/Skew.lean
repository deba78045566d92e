import Verif.SMPMaps.Magnets

/-!
# Slices in skew magnets
-/

namespace Verif.SMPMaps
open Verif Real Verif.Multipole Verif.LinMap Verif.LinMap.Spec Verif.Slices Verif.Slices.Spec Verif.Transport
  Verif.SMPMaps.Spec

noncomputable section

theorem srot_within (c s : ℝ) : Within 6 (srotMap c s) := by
  intro t ht
  simp [srotMap, term] at ht
  rcases ht with rfl | rfl | rfl | rfl | rfl | rfl | rfl | rfl <;> simp

theorem srot_mulVec (a : ℝ) (p : Pt) : ∀ i < 6, mulVec 6 (mat (srotMap (cos a) (sin a))) p i = turned a (flat p) i := by
  intro i hi
  unfold mulVec
  rw [sumTo6]
  interval_cases i <;> simp [srotMap, mat_cons, mat_nil, term, turned, flat] <;> ring

/-- C263: what the rotation of a bunch does. -/
theorem rotateZ_follows (a : ℝ) (s : Slice ℝ) : ∃ s', rotateZ a s = .ok s' ∧ s'.q = s.q ∧ s'.x 4 = 0 ∧ s'.x 5 = 0 ∧
    Follows (fun p p' => ∀ i < 6, p' i = turned a (flat p) i) s s' := by
  obtain ⟨s', h, hq, hx, hc⟩ := applyR_ok (srot_within (cos a) (sin a)) s
  have h5 : s'.x 5 = 0 := by rw [hx, srot_mulVec a _ 5 (by omega)]; simp [turned, flat]
  refine ⟨s', h, hq, by rw [hx, srot_mulVec a _ 4 (by omega)]; simp [turned, flat], h5, ?_⟩
  refine follows_affine (mat (srotMap (cos a) (sin a))) (fun _ => 0)
    (fun p i => mulVec 6 (mat (srotMap (cos a) (sin a))) p i) hq ?_ hc ?_ ?_ ?_ ?_
  · intro i _; rw [hx]; simp [mulVec]
  · intro i hi; interval_cases i <;> simp [srotMap, mat_cons, mat_nil, term]
  · intro p _; rw [srot_mulVec a _ 5 (by omega), h5]; simp [turned, flat]
  · intro p i _; simp [mulVec]
  · intro p _ i hi; exact srot_mulVec a p i hi

/-! ## Turned motion -/

/-- The conjugate gradient. -/
def mirrored (k : Cx ℝ) : Cx ℝ := ⟨k.re, -k.im⟩

/-- A motion with a normal gradient, turned, is one with a skew gradient. -/
theorem carried_turned {k : Cx ℝ} {r a l : ℝ} (hre : k.re = r * (cos a ^ 2 - sin a ^ 2))
    (him : k.im = r * (2 * sin a * cos a)) {p p' : Pt} (h : Carried (straight 0 ⟨r, 0⟩) l p p') :
    Carried (straight 0 (mirrored k)) l (turned a p) (turned a p') := by
  obtain ⟨o, h0, hs, hd⟩ := h
  refine ⟨fun t => turned a (o t), ?_, ?_, ?_⟩
  · intro i hi
    interval_cases i <;> simp only [turned, h0 0 (by omega), h0 1 (by omega), h0 2 (by omega), h0 3 (by omega),
      h0 4 (by omega), h0 5 (by omega)]
  · intro i hi
    interval_cases i <;> simp only [turned, hs 0 (by omega), hs 1 (by omega), hs 2 (by omega), hs 3 (by omega),
      hs 4 (by omega), hs 5 (by omega)]
  · intro t i hi
    have hcs := sin_sq_add_cos_sq a
    have d := fun i hi => hd t i hi
    interval_cases i
    · exact (((d 0 (by omega)).const_mul (cos a)).sub ((d 2 (by omega)).const_mul (sin a))).congr_deriv
        (by simp only [straight, turned])
    · refine (((d 1 (by omega)).const_mul (cos a)).sub ((d 3 (by omega)).const_mul (sin a))).congr_deriv ?_
      simp only [straight, turned, mirrored, Cx.zero_re, Cx.zero_im, hre, him]
      linear_combination (r * (cos a * o t 0 + sin a * o t 2) / (1 + o t 5)) * hcs
    · exact (((d 0 (by omega)).const_mul (sin a)).add ((d 2 (by omega)).const_mul (cos a))).congr_deriv
        (by simp only [straight, turned])
    · refine (((d 1 (by omega)).const_mul (sin a)).add ((d 3 (by omega)).const_mul (cos a))).congr_deriv ?_
      simp only [straight, turned, mirrored, Cx.zero_re, Cx.zero_im, hre, him]
      linear_combination (r * (sin a * o t 0 - cos a * o t 2) / (1 + o t 5)) * hcs
    · exact d 4 (by omega)
    · exact d 5 (by omega)

theorem turned_back (a : ℝ) (p : Pt) : ∀ i, turned a (turned (-a) p) i = p i := by
  intro i
  have hcs := sin_sq_add_cos_sq a
  match i with
  | 0 => simp only [turned, cos_neg, sin_neg]; linear_combination p 0 * hcs
  | 1 => simp only [turned, cos_neg, sin_neg]; linear_combination p 1 * hcs
  | 2 => simp only [turned, cos_neg, sin_neg]; linear_combination p 2 * hcs
  | 3 => simp only [turned, cos_neg, sin_neg]; linear_combination p 3 * hcs
  | n + 4 => simp only [turned]

theorem turned_congr {a : ℝ} {p q : Pt} (h : ∀ i < 6, p i = q i) : ∀ i < 6, turned a p i = turned a q i := by
  intro i hi
  interval_cases i <;> simp only [turned, h 0 (by omega), h 1 (by omega), h 2 (by omega), h 3 (by omega), h 4 (by omega),
    h 5 (by omega)]

theorem carried_congr {V : Pt → Pt} {l : ℝ} {p q p' q' : Pt} (h : Carried V l p p') (hp : ∀ i < 6, p i = q i)
    (hq : ∀ i < 6, p' i = q' i) : Carried V l q q' := by
  obtain ⟨o, h0, hs, hd⟩ := h
  exact ⟨o, fun i hi => (h0 i hi).trans (hp i hi), fun i hi => (hs i hi).trans (hq i hi), hd⟩

/-! ## The angle of a skew magnet -/

/-- Modulus and half of the argument. -/
theorem half_angle {k : Cx ℝ} (h : k.im ≠ 0) : ∃ r a : ℝ, r = ‖toC k‖ ∧ a = Complex.arg (toC k) / 2 ∧ 0 < r ∧ a ≠ 0 ∧
    0 < cos a ∧ sin a ≠ 0 ∧ k.re = r * (cos a ^ 2 - sin a ^ 2) ∧ k.im = r * (2 * sin a * cos a) := by
  have hk : toC k ≠ 0 := fun e => h (by have := congrArg Complex.im e; simpa [toC] using this)
  refine ⟨‖toC k‖, Complex.arg (toC k) / 2, rfl, rfl, norm_pos_iff.2 hk, ?_, ?_, ?_, ?_, ?_⟩
  · intro e
    have : Complex.arg (toC k) = 0 := by linarith
    exact h (by have := (Complex.arg_eq_zero_iff.1 this).2; simpa [toC] using this)
  · have h1 := Complex.neg_pi_lt_arg (toC k)
    have h2 := Complex.arg_le_pi (toC k)
    have h3 : Complex.arg (toC k) ≠ π := by
      intro e
      exact h (by have := (Complex.arg_eq_pi_iff.1 e).2; simpa [toC] using this)
    have h4 := lt_of_le_of_ne h2 h3
    exact cos_pos_of_mem_Ioo ⟨by linarith, by linarith⟩
  · have e := Complex.norm_mul_sin_arg (toC k)
    have h2 := sin_two_mul (Complex.arg (toC k) / 2)
    rw [show 2 * (Complex.arg (toC k) / 2) = Complex.arg (toC k) by ring] at h2
    intro hs
    rw [hs] at h2
    rw [h2] at e
    simp [toC] at e
    exact h e.symm
  · have e := Complex.norm_mul_cos_arg (toC k)
    have h2 := cos_two_mul' (Complex.arg (toC k) / 2)
    rw [show 2 * (Complex.arg (toC k) / 2) = Complex.arg (toC k) by ring] at h2
    rw [← h2, e]; rfl
  · have e := Complex.norm_mul_sin_arg (toC k)
    have h2 := sin_two_mul (Complex.arg (toC k) / 2)
    rw [show 2 * (Complex.arg (toC k) / 2) = Complex.arg (toC k) by ring] at h2
    rw [← h2, e]; rfl

theorem rectSlice_skew {len ds : ℝ} {k0 k1 : Cx ℝ} (h : k1.im ≠ 0) (ha : Complex.arg (toC k1) / 2 ≠ 0) (s : Slice ℝ) :
    rectSlice len ds k0 k1 s = (rotateZ (-(Complex.arg (toC k1) / 2)) s).bind fun s1 =>
      (if len = 0 ∧ ds = 0 then thinApply (k0 * -(Cx.smul (1 / ‖toC k1‖) k1)) ‖toC k1‖ s1
        else (Thick.new ds (k0 * -(Cx.smul (1 / ‖toC k1‖) k1)) ‖toC k1‖).apply s1).bind fun s2 =>
      rotateZ (Complex.arg (toC k1) / 2) s2 := by
  have ha' : -(Complex.arg (toC k1) / 2) ≠ 0 := neg_ne_zero.2 ha
  simp only [rectSlice, h, if_false, ne_eq, ha, ha', not_false_eq_true, if_true, neg_neg]

/-- C263 is violated: a slice that goes through a magnet with a skew gradient loses its momentum deviation and its place in
the bunch. -/
theorem skew_loses_violated {len ds : ℝ} {k0 k1 : Cx ℝ} (h : k1.im ≠ 0) {s s' : Slice ℝ}
    (e : rectSlice len ds k0 k1 s = .ok s') : s'.x 4 = 0 ∧ s'.x 5 = 0 := by
  obtain ⟨r, a, hr, ha, _, ha0, _⟩ := half_angle h
  rw [rectSlice_skew h (ha ▸ ha0)] at e
  obtain ⟨s1, e1, _⟩ := rotateZ_follows (-(Complex.arg (toC k1) / 2)) s
  rw [e1] at e
  simp only [Outcome.bind] at e
  generalize (if len = 0 ∧ ds = 0 then thinApply (k0 * -(Cx.smul (1 / ‖toC k1‖) k1)) ‖toC k1‖ s1
        else (Thick.new ds (k0 * -(Cx.smul (1 / ‖toC k1‖) k1)) ‖toC k1‖).apply s1) = z at e
  cases z with
  | ok s2 =>
    simp only at e
    obtain ⟨s3, e3, _, h4, h5, _⟩ := rotateZ_follows (Complex.arg (toC k1) / 2) s2
    rw [e3] at e
    cases e
    exact ⟨h4, h5⟩
  | throw _ => simp at e
  | ub => simp at e

/-- C263: a quadrupole with a skew gradient moves the particles of a slice as the conjugate gradient would, and as if they
had no deviations of momentum and place. -/
theorem skew_partial {len ds : ℝ} {k1 : Cx ℝ} (h : k1.im ≠ 0) (hz : len ≠ 0 ∨ ds ≠ 0) (s : Slice ℝ) :
    ∃ s', rectSlice len ds 0 k1 s = .ok s' ∧ s'.q = s.q ∧
      Follows (fun p p' => Carried (straight 0 (mirrored k1)) ds (flat p) p') s s' := by
  obtain ⟨r, a, hr, ha, hr0, ha0, hc, hs, hre, him⟩ := half_angle h
  simp only [rectSlice_skew h (ha ▸ ha0), if_neg (show ¬ (len = 0 ∧ ds = 0) by tauto)]
  rw [← hr, ← ha]
  have hk : (0 : Cx ℝ) * -(Cx.smul (1 / r) k1) = 0 := by ext <;> simp
  rw [hk]
  obtain ⟨s1, e1, q1, x4, x5, f1⟩ := rotateZ_follows (-a) s
  have hd1 : 1 + s1.x 5 ≠ 0 := by rw [x5]; norm_num
  obtain ⟨s2, e2, y4, y5, f2⟩ := thick_follows ds (k0 := 0) (K := r) (Or.inl rfl) hd1
  have q2 : s2.q = s1.q := by rw [thick_none hd1] at e2; cases e2; rfl
  obtain ⟨s3, e3, q3, z4, z5, f3⟩ := rotateZ_follows a s2
  refine ⟨s3, by simp [e1, e2, e3, Outcome.bind], by rw [q3, q2, q1], ?_⟩
  refine follows_mono (follows_after f1 (follows_after f2 f3)) ?_
  rintro p p' _ ⟨q, hq, q', hq', hp'⟩
  have hq4 : q 4 = 0 ∧ q 5 = 0 := ⟨by rw [hq 4 (by omega)]; simp [turned, flat], by rw [hq 5 (by omega)]; simp [turned, flat]⟩
  have hq'4 : q' 4 = 0 ∧ q' 5 = 0 := by
    obtain ⟨o, h0, hs, hd⟩ := hq'
    constructor
    · rw [← hs 4 (by omega), const_of_deriv (u := fun t => o t 4) (fun t => hd t 4 (by omega)), h0 4 (by omega), hq4.1]
    · rw [← hs 5 (by omega), const_of_deriv (u := fun t => o t 5) (fun t => hd t 5 (by omega)), h0 5 (by omega), hq4.2]
  refine carried_congr (carried_turned hre him hq') ?_ ?_
  · intro i hi
    rw [turned_congr hq i hi, turned_back]
  · intro i hi
    rw [hp' i hi]
    refine turned_congr (fun i hi => ?_) i hi
    interval_cases i <;> simp [flat, hq'4]

/-- C263 is violated: a skew quadrupole deflects to the wrong side.  A particle beside the axis is to be moved up where the
slice is moved down. -/
theorem skew_violated {len ds : ℝ} {k1 : Cx ℝ} (h : k1.im ≠ 0) (hds : ds ≠ 0) :
    ∃ s', rectSlice len ds 0 k1 (point 1 fun i => if i = 0 then 1 else 0) = .ok s' ∧ s'.x 2 ≠ 0 ∧
      (∀ y, Carried (straight 0 k1) ds (fun i => if i = 0 then 1 else 0) y → y 2 = -s'.x 2) ∧
      ¬ Follows (Carried (straight 0 k1) ds) (point 1 fun i => if i = 0 then 1 else 0) s' := by
  obtain ⟨s', e, _, f⟩ := skew_partial (len := len) h (Or.inr hds) (point 1 fun i => if i = 0 then 1 else 0)
  obtain ⟨r, a, hr, ha, hr0, ha0, hc, hs, hre, him⟩ := half_angle h
  obtain ⟨z, hz, ez⟩ := point_follows f
  set p : Pt := fun i => if i = 0 then 1 else 0 with hp
  have hfl : ∀ i < 6, flat p i = p i := by intro i hi; interval_cases i <;> simp [flat, hp]
  have p5 : ∀ b, turned b p 5 = 0 := by intro b; simp [turned, hp]
  have hx := straight_unique (carried_congr hz hfl fun _ _ => rfl)
    (carried_congr (carried_turned hre him (carried_quad r ds (turned (-a) p))) (fun i _ => turned_back a p i)
      fun _ _ => rfl) 2 (by omega)
  have hm : mirrored (mirrored k1) = k1 := by ext <;> simp [mirrored]
  have ht : Carried (straight 0 k1) ds p
      (turned (-a) (planes (quad2 ds (r / (1 + turned a p 5))) (quad2 ds (-r / (1 + turned a p 5))) (turned a p))) := by
    have g := carried_turned (k := mirrored k1) (r := r) (a := -a) (l := ds) (by simp [mirrored, hre])
      (by simp [mirrored, him]) (carried_quad r ds (turned a p))
    rw [hm] at g
    refine carried_congr g (fun i _ => ?_) fun _ _ => rfl
    have := turned_back (-a) p i
    rwa [neg_neg] at this
  have hgap : cK r ds ≠ cK (-r) ds := by
    have h1 : cK r ds = cos (√r * ds) := by simp [cK, hr0, hr0.ne']
    have h2 : cK (-r) ds = cosh (√r * ds) := by
      simp [cK, hr0.ne', not_lt.2 hr0.le]
    rw [h1, h2]
    have : 1 < cosh (√r * ds) := one_lt_cosh.2 (mul_ne_zero (sqrt_ne_zero'.2 hr0) hds)
    have := cos_le_one (√r * ds)
    linarith
  have v1 : z 2 = sin a * cos a * (cK r ds - cK (-r) ds) := by
    rw [hx]
    simp only [p5]
    simp [turned, planes, quad2_closed, hp]
    ring
  have v2 : ∀ y, Carried (straight 0 k1) ds p y → y 2 = -(sin a * cos a * (cK r ds - cK (-r) ds)) := by
    intro y hy
    rw [straight_unique hy ht 2 (by omega)]
    simp only [p5]
    simp [turned, planes, quad2_closed, hp]
    ring
  have hn : sin a * cos a * (cK r ds - cK (-r) ds) ≠ 0 :=
    mul_ne_zero (mul_ne_zero hs hc.ne') (sub_ne_zero.2 hgap)
  have e2 : s'.x 2 = sin a * cos a * (cK r ds - cK (-r) ds) := by rw [ez 2 (by omega), v1]
  refine ⟨s', e, by rw [e2]; exact hn, fun y hy => by rw [v2 y hy, e2], fun hf => ?_⟩
  obtain ⟨y, hy, ey⟩ := point_follows hf
  have := ey 2 (by omega)
  rw [v2 y hy, e2] at this
  exact hn (by linarith)

/-- C263 is violated: the dipole of a magnet that has the least skew gradient deflects to the opposite side. -/
theorem skew_dipole_violated {b : ℝ} (hb : 0 < b) {k1 : Cx ℝ} (h : k1.im ≠ 0) :
    ∃ s', rectSlice 0 0 ⟨b, 0⟩ k1 (point 1 fun _ => 0) = .ok s' ∧ 0 < s'.x 1 ∧
      deflected ⟨b, 0⟩ k1 (fun _ => 0) 1 = -b := by
  obtain ⟨r, a, hr, ha, hr0, ha0, hc, hs, hre, him⟩ := half_angle h
  simp only [rectSlice_skew h (ha ▸ ha0), and_self, if_true]
  rw [← hr, ← ha]
  obtain ⟨s1, e1, q1, x4, x5, f1⟩ := rotateZ_follows (-a) (point 1 fun _ => 0)
  have q1' : s1.q = 1 := q1
  have hd1 : 1 + s1.x 5 ≠ 0 := by rw [x5]; norm_num
  obtain ⟨s2, e2, k2, f2⟩ := thin_follows ((⟨b, 0⟩ : Cx ℝ) * -(Cx.smul (1 / r) k1)) r hd1
  obtain ⟨s3, e3, q3, z4, z5, f3⟩ := rotateZ_follows a s2
  refine ⟨s3, by simp only [e1, e2, e3, Outcome.bind], ?_, by simp [deflected]⟩
  obtain ⟨y, ⟨u, hu, v, hv, hy⟩, ey⟩ := point_follows (follows_after f1 (follows_after f2 f3))
  have u0 : ∀ i < 6, u i = 0 := by
    intro i hi
    rw [hu i hi]
    interval_cases i <;> simp [turned, flat]
  have v1 := hv 1 (by omega)
  have v3 := hv 3 (by omega)
  simp [deflected, u0, Cx.smul] at v1 v3
  have e5 : s3.x 1 = b * cos a := by
    rw [ey 1 (by omega), hy 1 (by omega)]
    simp only [turned, flat]
    simp only [v1, v3, hre, him]
    have hcs := sin_sq_add_cos_sq a
    field_simp
    simp
    linear_combination b * cos a * hcs
  rw [e5]
  positivity

end

end Verif.SMPMaps
