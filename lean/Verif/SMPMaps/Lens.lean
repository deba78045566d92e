import Verif.SMPMaps.Lemmas

/-!
# Slices in straight magnets
-/

namespace Verif.SMPMaps
open Verif Real Verif.Multipole Verif.LinMap Verif.LinMap.Spec Verif.Slices Verif.Slices.Spec Verif.Transport
  Verif.SMPMaps.Spec

noncomputable section

/-! ## The equations of motion determine the motion -/

/-- The angle of the axes of a gradient. -/
theorem axes (k : Cx ℝ) : ∃ r a : ℝ, k.re = r * (cos a ^ 2 - sin a ^ 2) ∧ k.im = r * (2 * sin a * cos a) := by
  refine ⟨‖toC k‖, Complex.arg (toC k) / 2, ?_, ?_⟩
  · have h := Complex.norm_mul_cos_arg (toC k)
    have h2 := cos_two_mul' (Complex.arg (toC k) / 2)
    rw [show 2 * (Complex.arg (toC k) / 2) = Complex.arg (toC k) by ring] at h2
    rw [← h2, h]; rfl
  · have h := Complex.norm_mul_sin_arg (toC k)
    have h2 := sin_two_mul (Complex.arg (toC k) / 2)
    rw [show 2 * (Complex.arg (toC k) / 2) = Complex.arg (toC k) by ring] at h2
    rw [← h2, h]; rfl

/-- The motion in a dipole and a gradient is determined by its start. -/
theorem straight_unique {k0 k : Cx ℝ} {s : ℝ} {p a b : Pt} (ha : Carried (straight k0 k) s p a)
    (hb : Carried (straight k0 k) s p b) : ∀ i < 6, a i = b i := by
  obtain ⟨o, h0, hs, hd⟩ := ha
  obtain ⟨o', h0', hs', hd'⟩ := hb
  obtain ⟨r, φ, hre, him⟩ := axes k
  have c5 : ∀ t, o t 5 = p 5 := fun t => (const_of_deriv (fun t => hd t 5 (by omega)) t).trans (h0 5 (by omega))
  have c5' : ∀ t, o' t 5 = p 5 := fun t => (const_of_deriv (fun t => hd' t 5 (by omega)) t).trans (h0' 5 (by omega))
  have c4 : o s 4 = o 0 4 := const_of_deriv (u := fun t => o t 4) (fun t => hd t 4 (by omega)) s
  have c4' : o' s 4 = o' 0 4 := const_of_deriv (u := fun t => o' t 4) (fun t => hd' t 4 (by omega)) s
  have e0 : ∀ t, HasDerivAt (fun t => o t 0 - o' t 0) (o t 1 - o' t 1) t :=
    fun t => (hd t 0 (by omega)).sub (hd' t 0 (by omega))
  have e2 : ∀ t, HasDerivAt (fun t => o t 2 - o' t 2) (o t 3 - o' t 3) t :=
    fun t => (hd t 2 (by omega)).sub (hd' t 2 (by omega))
  have e1 : ∀ t, HasDerivAt (fun t => o t 1 - o' t 1)
      (-(k.re * (o t 0 - o' t 0) - k.im * (o t 2 - o' t 2)) / (1 + p 5)) t := fun t =>
    ((hd t 1 (by omega)).sub (hd' t 1 (by omega))).congr_deriv (by simp only [straight, c5, c5']; ring)
  have e3 : ∀ t, HasDerivAt (fun t => o t 3 - o' t 3)
      ((k.re * (o t 2 - o' t 2) + k.im * (o t 0 - o' t 0)) / (1 + p 5)) t := fun t =>
    ((hd t 3 (by omega)).sub (hd' t 3 (by omega))).congr_deriv (by simp only [straight, c5, c5']; ring)
  have hcs := sin_sq_add_cos_sq φ
  have x := hill_unique (k := r / (1 + p 5)) (u := fun t => cos φ * (o t 0 - o' t 0) - sin φ * (o t 2 - o' t 2))
    (v := fun t => cos φ * (o t 1 - o' t 1) - sin φ * (o t 3 - o' t 3))
    (fun t => ((e0 t).const_mul _).sub ((e2 t).const_mul _))
    (fun t => (((e1 t).const_mul _).sub ((e3 t).const_mul _)).congr_deriv (by
      rw [hre, him]
      linear_combination (-r / (1 + p 5) * (cos φ * (o t 0 - o' t 0) - sin φ * (o t 2 - o' t 2))) * hcs)) s
  have y := hill_unique (k := -(r / (1 + p 5))) (u := fun t => sin φ * (o t 0 - o' t 0) + cos φ * (o t 2 - o' t 2))
    (v := fun t => sin φ * (o t 1 - o' t 1) + cos φ * (o t 3 - o' t 3))
    (fun t => ((e0 t).const_mul _).add ((e2 t).const_mul _))
    (fun t => (((e1 t).const_mul _).add ((e3 t).const_mul _)).congr_deriv (by
      rw [hre, him]
      linear_combination (r / (1 + p 5) * (sin φ * (o t 0 - o' t 0) + cos φ * (o t 2 - o' t 2))) * hcs)) s
  simp only [h0 0 (by omega), h0' 0 (by omega), h0 1 (by omega), h0' 1 (by omega), h0 2 (by omega), h0' 2 (by omega),
    h0 3 (by omega), h0' 3 (by omega), sub_self, mul_zero, add_zero] at x y
  rw [h0 4 (by omega)] at c4
  rw [h0' 4 (by omega)] at c4'
  intro i hi
  rw [← hs i hi, ← hs' i hi]
  interval_cases i
  · linear_combination cos φ * x.1 + sin φ * y.1 - (o s 0 - o' s 0) * hcs
  · linear_combination cos φ * x.2 + sin φ * y.2 - (o s 1 - o' s 1) * hcs
  · linear_combination -sin φ * x.1 + cos φ * y.1 - (o s 2 - o' s 2) * hcs
  · linear_combination -sin φ * x.2 + cos φ * y.2 - (o s 3 - o' s 3) * hcs
  · rw [c4, c4']
  · rw [c5, c5']

/-- The motion about a circle is determined by its start. -/
theorem circle_unique {h k s : ℝ} {p a b : Pt} (ha : Carried (circle h k) s p a) (hb : Carried (circle h k) s p b) :
    ∀ i < 6, a i = b i := by
  obtain ⟨o, h0, hs, hd⟩ := ha
  obtain ⟨o', h0', hs', hd'⟩ := hb
  have c5 : ∀ t, o t 5 = p 5 := fun t => (const_of_deriv (fun t => hd t 5 (by omega)) t).trans (h0 5 (by omega))
  have c5' : ∀ t, o' t 5 = p 5 := fun t => (const_of_deriv (fun t => hd' t 5 (by omega)) t).trans (h0' 5 (by omega))
  have x := hill_unique (k := h * h + k) (u := fun t => o t 0 - o' t 0) (v := fun t => o t 1 - o' t 1)
    (fun t => (hd t 0 (by omega)).sub (hd' t 0 (by omega)))
    (fun t => ((hd t 1 (by omega)).sub (hd' t 1 (by omega))).congr_deriv (by simp only [circle, c5, c5']; ring))
  have y := hill_unique (k := -k) (u := fun t => o t 2 - o' t 2) (v := fun t => o t 3 - o' t 3)
    (fun t => (hd t 2 (by omega)).sub (hd' t 2 (by omega)))
    (fun t => ((hd t 3 (by omega)).sub (hd' t 3 (by omega))).congr_deriv (by simp only [circle, c5, c5']; ring)) s
  simp only [h0 0 (by omega), h0' 0 (by omega), h0 1 (by omega), h0' 1 (by omega), h0 2 (by omega), h0' 2 (by omega),
    h0 3 (by omega), h0' 3 (by omega), sub_self, mul_zero, add_zero] at x y
  have z := const_of_deriv (u := fun t => o t 4 - o' t 4)
    (fun t => ((hd t 4 (by omega)).sub (hd' t 4 (by omega))).congr_deriv (by
      simp only [circle]; linear_combination -h * (x t).1)) s
  simp only [h0 4 (by omega), h0' 4 (by omega), sub_self] at z
  intro i hi
  rw [← hs i hi, ← hs' i hi]
  interval_cases i
  · linarith [(x s).1]
  · linarith [(x s).2]
  · linarith [y.1]
  · linarith [y.2]
  · linarith
  · rw [c5, c5']

/-! ## Motion in gradients and dipoles -/

theorem carried_quad (k l : ℝ) (p : Pt) :
    Carried (straight 0 ⟨k, 0⟩) l p (planes (quad2 l (k / (1 + p 5))) (quad2 l (-k / (1 + p 5))) p) := by
  refine ⟨fun t => planes (quad2 t (k / (1 + p 5))) (quad2 t (-k / (1 + p 5))) p, ?_, fun i _ => rfl, ?_⟩
  · intro i hi
    interval_cases i <;> simp [planes, quad2_closed]
  · intro t i hi
    simp only [quad2_closed, neg_div]
    have cx := hasDerivAt_cK (k / (1 + p 5)) t
    have sx := hasDerivAt_sK (k / (1 + p 5)) t
    have cy := hasDerivAt_cK (-(k / (1 + p 5))) t
    have sy := hasDerivAt_sK (-(k / (1 + p 5))) t
    interval_cases i
    · exact ((cx.mul_const (p 0)).add (sx.mul_const (p 1))).congr_deriv (by simp only [straight, planes])
    · refine (((sx.const_mul (-(k / (1 + p 5)))).mul_const (p 0)).add (cx.mul_const (p 1))).congr_deriv ?_
      simp only [straight, planes, Cx.zero_re]; ring
    · exact ((cy.mul_const (p 2)).add (sy.mul_const (p 3))).congr_deriv (by simp only [straight, planes])
    · refine (((sy.const_mul (-(-(k / (1 + p 5))))).mul_const (p 2)).add (cy.mul_const (p 3))).congr_deriv ?_
      simp only [straight, planes, Cx.zero_im]; ring
    · exact hasDerivAt_const t (p 4)
    · exact hasDerivAt_const t (p 5)

/-- The orbit in a dipole. -/
def dipoleOrbit (k0 : Cx ℝ) (p : Pt) (t : ℝ) : Pt
  | 0 => p 0 + p 1 * t - k0.re / (1 + p 5) / 2 * t ^ 2
  | 1 => p 1 - k0.re / (1 + p 5) * t
  | 2 => p 2 + p 3 * t + k0.im / (1 + p 5) / 2 * t ^ 2
  | 3 => p 3 + k0.im / (1 + p 5) * t
  | n => p n

theorem carried_dipole (k0 : Cx ℝ) (l : ℝ) (p : Pt) : Carried (straight k0 0) l p (dipoleOrbit k0 p l) := by
  refine ⟨dipoleOrbit k0 p, ?_, fun i _ => rfl, ?_⟩
  · intro i hi
    interval_cases i <;> simp [dipoleOrbit]
  · intro t i hi
    have d1 := hasDerivAt_id' t
    have d2 : HasDerivAt (fun t : ℝ => t ^ 2) (2 * t) t := by simpa using hasDerivAt_pow 2 t
    interval_cases i
    · refine (((d1.const_mul (p 1)).const_add (p 0)).sub (d2.const_mul (k0.re / (1 + p 5) / 2))).congr_deriv ?_
      simp only [straight, dipoleOrbit]; ring
    · refine ((d1.const_mul (k0.re / (1 + p 5))).const_sub (p 1)).congr_deriv ?_
      simp only [straight, dipoleOrbit, Cx.zero_re, Cx.zero_im]; ring
    · refine (((d1.const_mul (p 3)).const_add (p 2)).add (d2.const_mul (k0.im / (1 + p 5) / 2))).congr_deriv ?_
      simp only [straight, dipoleOrbit]; ring
    · refine ((d1.const_mul (k0.im / (1 + p 5))).const_add (p 3)).congr_deriv ?_
      simp only [straight, dipoleOrbit, Cx.zero_re, Cx.zero_im]; ring
    · exact hasDerivAt_const t (p 4)
    · exact hasDerivAt_const t (p 5)

/-- The straight line. -/
theorem carried_drift (l : ℝ) (p : Pt) : Carried (straight 0 0) l p (mulVec 6 (driftMat l) p) := by
  obtain ⟨o, h0, hs, hd⟩ := carried_dipole 0 l p
  refine ⟨o, h0, fun i hi => (hs i hi).trans ?_, hd⟩
  interval_cases i <;> simp [dipoleOrbit, mulVec, sumTo6, driftMat] <;> ring

/-! ## The thick lens -/

theorem restore (s1 : Slice ℝ) (ct dp : ℝ) (h4 : s1.x 4 = ct) (h5 : s1.x 5 = dp) :
    ({ s1 with x := upd (upd s1.x 4 ct) 5 dp } : Slice ℝ) = s1 := by
  have : upd (upd s1.x 4 ct) 5 dp = s1.x := by
    funext i
    unfold upd
    split_ifs with h h' <;> simp_all
  rw [this]

theorem applyR2_keeps (rx ry : R2 ℝ) (s : Slice ℝ) : (applyR2 rx ry s).x 4 = s.x 4 ∧ (applyR2 rx ry s).x 5 = s.x 5 :=
  ⟨applyR2_x rx ry s 4, applyR2_x rx ry s 5⟩

/-- The lens with its deflection in the middle. -/
def lensSlice (l : ℝ) (k0 : Cx ℝ) (K : ℝ) (s : Slice ℝ) : Slice ℝ :=
  let mx := quad2 (l / 2) (K / (1 + s.x 5))
  let my := quad2 (l / 2) (-K / (1 + s.x 5))
  let s1 := applyR2 mx my s
  applyR2 mx my { s1 with x := fun i => s1.x i + if i = 1 then -k0.re * l / (1 + s.x 5) else
    if i = 3 then k0.im * l / (1 + s.x 5) else 0 }

theorem thick_none {s : Slice ℝ} (hd : 1 + s.x 5 ≠ 0) (l K : ℝ) :
    (Thick.new l 0 K).apply s = .ok (applyR2 (quad2 l (K / (1 + s.x 5))) (quad2 l (-K / (1 + s.x 5))) s) := by
  simp only [Thick.new, ne_eq, not_true_eq_false, if_false, Thick.apply, if_neg hd]
  obtain ⟨h4, h5⟩ := applyR2_keeps (quad2 l (K / (1 + s.x 5))) (quad2 l (-K / (1 + s.x 5))) s
  simp only [Bool.false_eq_true, if_false]
  rw [restore _ _ _ h4 h5]

theorem thick_kick {s : Slice ℝ} (hd : 1 + s.x 5 ≠ 0) (l : ℝ) {k0 : Cx ℝ} (hk : k0 ≠ 0) (K : ℝ) :
    (Thick.new l k0 K).apply s = .ok (lensSlice l k0 K s) := by
  simp only [Thick.new, ne_eq, hk, not_false_eq_true, if_true, Thick.apply, if_neg hd]
  have e : ∀ x : Pt, upd (upd x 1 (x 1 + -k0.re * l / (1 + s.x 5))) 3
      (upd x 1 (x 1 + -k0.re * l / (1 + s.x 5)) 3 + k0.im * l / (1 + s.x 5))
      = fun i => x i + if i = 1 then -k0.re * l / (1 + s.x 5) else if i = 3 then k0.im * l / (1 + s.x 5) else 0 := by
    intro x
    funext i
    unfold upd
    by_cases h1 : i = 1
    · subst h1; simp
    · by_cases h3 : i = 3
      · subst h3; simp
      · simp [h1, h3]
  rw [e]
  change Outcome.ok _ = Outcome.ok (lensSlice l k0 K s)
  congr 1
  rw [restore]
  · rfl
  · simp only [(applyR2_keeps _ _ _).1]; simp
  · simp only [(applyR2_keeps _ _ _).2]; simp

theorem lens_keeps (l : ℝ) (k0 : Cx ℝ) (K : ℝ) (s : Slice ℝ) :
    (lensSlice l k0 K s).x 4 = s.x 4 ∧ (lensSlice l k0 K s).x 5 = s.x 5 := by
  unfold lensSlice
  simp only [(applyR2_keeps _ _ _).1, (applyR2_keeps _ _ _).2]
  simp

/-- C261: a lens with a dipole is half of the gradient, the deflection by the whole dipole, and the other half. -/
theorem lens_follows (l : ℝ) (k0 : Cx ℝ) (K : ℝ) (s : Slice ℝ) :
    Follows (After (Carried (straight 0 ⟨K, 0⟩) (l / 2))
      (After (fun p p' => p' = deflected (Cx.smul l k0) 0 p) (Carried (straight 0 ⟨K, 0⟩) (l / 2)))) s
      (lensSlice l k0 K s) := by
  have h1 := applyR2_follows (quad2 (l / 2) (K / (1 + s.x 5))) (quad2 (l / 2) (-K / (1 + s.x 5))) s
  have h2 := shift_follows (applyR2 (quad2 (l / 2) (K / (1 + s.x 5))) (quad2 (l / 2) (-K / (1 + s.x 5))) s)
    (fun i => if i = 1 then -k0.re * l / (1 + s.x 5) else if i = 3 then k0.im * l / (1 + s.x 5) else 0) (by simp)
  have e5 := (applyR2_keeps (quad2 (l / 2) (K / (1 + s.x 5))) (quad2 (l / 2) (-K / (1 + s.x 5))) s).2
  have h3 := applyR2_follows (quad2 (l / 2) (K / (1 + s.x 5))) (quad2 (l / 2) (-K / (1 + s.x 5)))
    { applyR2 (quad2 (l / 2) (K / (1 + s.x 5))) (quad2 (l / 2) (-K / (1 + s.x 5))) s with
      x := fun i => (applyR2 (quad2 (l / 2) (K / (1 + s.x 5))) (quad2 (l / 2) (-K / (1 + s.x 5))) s).x i +
        (fun i => if i = 1 then -k0.re * l / (1 + s.x 5) else if i = 3 then k0.im * l / (1 + s.x 5) else 0) i }
  refine follows_mono (follows_after h1 (follows_after h2 h3)) ?_
  rintro p r hp ⟨q, rfl, q', hq', rfl⟩
  have q5 : planes (quad2 (l / 2) (K / (1 + s.x 5))) (quad2 (l / 2) (-K / (1 + s.x 5))) p 5 = s.x 5 := hp
  have q5' : q' 5 = s.x 5 := by rw [hq' 5, q5]; simp
  refine ⟨_, hp ▸ carried_quad K (l / 2) p, q', ?_, q5' ▸ carried_quad K (l / 2) q'⟩
  funext i
  rw [hq' i]
  match i with
  | 0 => simp [deflected]
  | 1 => simp only [deflected, q5, hp, Cx.smul, Cx.zero_re, Cx.zero_im, if_true]; ring
  | 2 => simp [deflected]
  | 3 => simp only [deflected, q5, hp, Cx.smul, Cx.zero_re, Cx.zero_im]; simp; ring
  | n + 4 => simp [deflected]

/-- C260: a slice in a gradient, or in a dipole, stands for the particles that move in it. -/
theorem thick_follows (l : ℝ) {k0 : Cx ℝ} {K : ℝ} (h : k0 = 0 ∨ K = 0) {s : Slice ℝ} (hd : 1 + s.x 5 ≠ 0) :
    ∃ s', (Thick.new l k0 K).apply s = .ok s' ∧ s'.x 4 = s.x 4 ∧ s'.x 5 = s.x 5 ∧
      Follows (Carried (straight k0 ⟨K, 0⟩) l) s s' := by
  by_cases h0 : k0 = 0
  · subst h0
    refine ⟨_, thick_none hd l K, (applyR2_keeps _ _ _).1, (applyR2_keeps _ _ _).2, ?_⟩
    refine follows_mono (applyR2_follows _ _ _) ?_
    rintro p r hp rfl
    rw [← hp]
    exact carried_quad K l p
  · have hK : K = 0 := h.resolve_left h0
    subst hK
    refine ⟨_, thick_kick hd l h0 0, (lens_keeps _ _ _ _).1, (lens_keeps _ _ _ _).2, ?_⟩
    refine follows_mono (lens_follows l k0 0 s) ?_
    rintro p r hp ⟨q, h1, q', rfl, h3⟩
    have e1 := straight_unique h1 (carried_drift (l / 2) p)
    have e3 := straight_unique h3 (carried_drift (l / 2) (deflected (Cx.smul l k0) 0 q))
    obtain ⟨o, ho, hs, hdv⟩ := carried_dipole k0 l p
    refine ⟨o, ho, fun i hi => (hs i hi).trans ?_, hdv⟩
    rw [e3 i hi]
    have q0 := e1 0 (by omega)
    have q1 := e1 1 (by omega)
    have q2 := e1 2 (by omega)
    have q3 := e1 3 (by omega)
    have q4 := e1 4 (by omega)
    have q5 := e1 5 (by omega)
    simp only [mulVec, sumTo6, driftMat] at q0 q1 q2 q3 q4 q5
    simp at q0 q1 q2 q3 q4 q5
    interval_cases i <;> simp [dipoleOrbit, mulVec, sumTo6, driftMat, deflected, q0, q1, q2, q3, q4, q5, Cx.smul] <;> ring

end

end Verif.SMPMaps
