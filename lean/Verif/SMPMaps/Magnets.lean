import Verif.SMPMaps.Lens

/-!
# Slices in straight magnets
-/

namespace Verif.SMPMaps
open Verif Real Verif.Multipole Verif.LinMap Verif.LinMap.Spec Verif.Slices Verif.Slices.Spec Verif.Transport
  Verif.SMPMaps.Spec

noncomputable section

/-! ## Loops -/

theorem forEach_ok {f : Slice ℝ → Outcome Unit (Slice ℝ)} {P : Slice ℝ → Slice ℝ → Prop} : ∀ {l : List (Slice ℝ)},
    (∀ s ∈ l, ∃ s', f s = .ok s' ∧ P s s') → ∃ l', forEach f l = .ok l' ∧ List.Forall₂ P l l'
  | [], _ => ⟨[], rfl, .nil⟩
  | s :: l, h => by
    obtain ⟨s', h1, h2⟩ := h s List.mem_cons_self
    obtain ⟨l', h3, h4⟩ := forEach_ok (l := l) fun s hs => h s (List.mem_cons_of_mem _ hs)
    exact ⟨s' :: l', by simp [forEach, h1, h3, Outcome.bind], .cons h2 h4⟩

theorem onBunch_ok {f : Slice ℝ → Outcome Unit (Slice ℝ)} {P : Slice ℝ → Slice ℝ → Prop} {b : SBunch ℝ}
    (h : ∀ s ∈ b.slices, ∃ s', f s = .ok s' ∧ P s s') :
    ∃ b', onBunch f b = .ok b' ∧ b'.p0 = b.p0 ∧ b'.ct0 = b.ct0 ∧ b'.qt = b.qt ∧ List.Forall₂ P b.slices b'.slices := by
  obtain ⟨l', h1, h2⟩ := forEach_ok h
  exact ⟨{ b with slices := l' }, by simp [onBunch, h1, Outcome.bind], rfl, rfl, rfl, h2⟩

theorem onBunch_tracked {f : Slice ℝ → Outcome Unit (Slice ℝ)} {R : Pt → Pt → Prop} {b : SBunch ℝ}
    (h : ∀ s ∈ b.slices, ∃ s', f s = .ok s' ∧ Kept s s' ∧ Follows R s s') :
    ∃ b', onBunch f b = .ok b' ∧ Tracked R b b' := by
  obtain ⟨b', h1, h2, h3, h4, h5⟩ := onBunch_ok h
  exact ⟨b', h1, h2, h3, h4, h5⟩

/-! ## C260: drifts, gradients and dipoles -/

/-- C260: the drift of a bunch. -/
theorem drift_tracked (ds : ℝ) (b : SBunch ℝ) : ∃ b', drift ds b = .ok b' ∧ Tracked (Carried (straight 0 0) ds) b b' :=
  onBunch_tracked fun s _ => ⟨_, rfl, ⟨rfl, by simp [driftApply, driftVec, upd]⟩, follows_mono (drift_follows ds s)
    fun p p' _ h => by
      obtain ⟨o, h0, hs, hd⟩ := carried_drift ds p
      exact ⟨o, h0, fun i hi => (hs i hi).trans (h i hi).symm, hd⟩⟩

theorem strength_ok {ec q p0 : ℝ} (hp : p0 ≠ 0) (he : ec ≠ 0) (m : MField ℝ) {n : Nat} (hn : n ≤ 1) :
    strength ec q p0 m n = .ok (component ec q p0 m n) := by
  have hr : p0 / ec ≠ 0 := div_ne_zero hp he
  unfold strength getKn component
  rw [if_neg hr]
  have hf : (Multipole.factorial n : ℝ) = 1 := by
    interval_cases n <;> simp [Multipole.factorial, factLoop]
  cases h : m.terms[n]? with
  | none =>
    simp only [Outcome.bind]
    have : m.terms.getD n 0 = 0 := by simp [List.getD, h]
    rw [this]
    congr 1
    ext <;> simp [Cx.smul]
  | some c =>
    simp only [Outcome.bind, hf]
    have : m.terms.getD n 0 = c := by simp [List.getD, h]
    rw [this]
    congr 1
    ext <;> simp only [Cx.smul] <;> field_simp

/-- The step of a magnet with a field, reduced to slices. -/
theorem rect_eq {eps ec q len : ℝ} {m : MField ℝ} {ds : ℝ} {b : SBunch ℝ} (hp : b.p0 ≠ 0) (he : ec ≠ 0)
    (hn : eps < |m.b0|) {n : Nat} (hl : lowest m = .ok n) (hn1 : n ≤ 1) :
    rectStep eps ec q len m ds b
      = onBunch (rectSlice len ds (component ec q b.p0 m 0) (component ec q b.p0 m 1)) b := by
  have h0 : isNull eps m = false := by simp [isNull, hn]
  simp only [rectStep, h0, Bool.false_eq_true, if_false, hl, Outcome.bind, strength_ok hp he m (le_refl 1),
    strength_ok hp he m (Nat.zero_le 1), show ¬ n > 1 by omega]

theorem rectSlice_normal {len ds : ℝ} {k0 k1 : Cx ℝ} (h1 : k1.im = 0) (s : Slice ℝ) :
    rectSlice len ds k0 k1 s = if len = 0 ∧ ds = 0 then thinApply k0 k1.re s else (Thick.new ds k0 k1.re).apply s := by
  simp only [rectSlice, h1, if_true, neg_zero, ne_eq, not_true_eq_false, if_false, Outcome.bind]
  split_ifs
  · cases thinApply k0 k1.re s <;> rfl
  · cases (Thick.new ds k0 k1.re).apply s <;> rfl

theorem component_im {ec q p0 : ℝ} {m : MField ℝ} {n : Nat} (h : (m.terms.getD n 0).im = 0) :
    (component ec q p0 m n).im = 0 := by
  simp only [component, Cx.smul, h, mul_zero]

theorem component_zero {ec q p0 : ℝ} {m : MField ℝ} {n : Nat} (h : m.terms.getD n 0 = 0) :
    component ec q p0 m n = 0 := by
  ext <;> simp only [component, Cx.smul, h, Cx.zero_re, Cx.zero_im, mul_zero]

/-- C260: in a magnet with a normal gradient, or with a dipole in any direction, each slice of a bunch stands after the step
for the particles it stood for before, each of which has moved according to the field. -/
theorem rect_tracked {eps ec q len : ℝ} {m : MField ℝ} {ds : ℝ} {b : SBunch ℝ} (hp : b.p0 ≠ 0) (he : ec ≠ 0)
    (hn : eps < |m.b0|) {n : Nat} (hl : lowest m = .ok n) (hn1 : n ≤ 1) (h1 : (m.terms.getD 1 0).im = 0)
    (h0 : m.terms.getD 0 0 = 0 ∨ m.terms.getD 1 0 = 0) (hz : len ≠ 0 ∨ ds ≠ 0) (hd : ∀ s ∈ b.slices, 1 + s.x 5 ≠ 0) :
    ∃ b', rectStep eps ec q len m ds b = .ok b' ∧
      Tracked (Carried (straight (component ec q b.p0 m 0) (component ec q b.p0 m 1)) ds) b b' := by
  rw [rect_eq hp he hn hl hn1]
  refine onBunch_tracked fun s hs => ?_
  have hk : component ec q b.p0 m 0 = 0 ∨ (component ec q b.p0 m 1).re = 0 :=
    h0.imp component_zero fun h => by rw [component_zero h]; rfl
  obtain ⟨s', e, _, e5, f⟩ := thick_follows ds hk (hd s hs)
  have ek : component ec q b.p0 m 1 = ⟨(component ec q b.p0 m 1).re, 0⟩ := by
    ext <;> simp [component_im h1]
  rw [rectSlice_normal (component_im h1), if_neg (by tauto), e, ek]
  refine ⟨s', rfl, ⟨?_, e5⟩, f⟩
  by_cases hk0 : component ec q b.p0 m 0 = 0
  · rw [hk0, thick_none (hd s hs)] at e
    cases e; rfl
  · rw [thick_kick (hd s hs) ds hk0] at e
    cases e; rfl

/-- C260: a magnet that is off, and one with nonlinear components only, is a drift. -/
theorem rect_drift {eps ec q len : ℝ} {m : MField ℝ} {ds : ℝ} {b : SBunch ℝ}
    (h : |m.b0| ≤ eps ∨ ∃ n, lowest m = .ok n ∧ 1 < n) :
    ∃ b', rectStep eps ec q len m ds b = .ok b' ∧ Tracked (Carried (straight 0 0) ds) b b' := by
  have e : rectStep eps ec q len m ds b = drift ds b := by
    by_cases h0 : |m.b0| ≤ eps
    · simp [rectStep, isNull, h0]
    · obtain ⟨n, h1, h2⟩ := h.resolve_left h0
      simp [rectStep, isNull, h0, h1, Outcome.bind, h2]
  rw [e]
  exact drift_tracked ds b

/-! ## C261: a dipole together with a gradient -/

/-- C261: with a dipole and a normal gradient the deflection is made at once in the middle of the step. -/
theorem combined_partial {eps ec q len : ℝ} {m : MField ℝ} {ds : ℝ} {b : SBunch ℝ} (hp : b.p0 ≠ 0) (he : ec ≠ 0)
    (hn : eps < |m.b0|) {n : Nat} (hl : lowest m = .ok n) (hn1 : n ≤ 1) (h1 : (m.terms.getD 1 0).im = 0)
    (h0 : component ec q b.p0 m 0 ≠ 0) (hz : len ≠ 0 ∨ ds ≠ 0) (hd : ∀ s ∈ b.slices, 1 + s.x 5 ≠ 0) :
    ∃ b', rectStep eps ec q len m ds b = .ok b' ∧
      Tracked (After (Carried (straight 0 (component ec q b.p0 m 1)) (ds / 2))
        (After (fun p p' => p' = deflected (Cx.smul ds (component ec q b.p0 m 0)) 0 p)
          (Carried (straight 0 (component ec q b.p0 m 1)) (ds / 2)))) b b' := by
  rw [rect_eq hp he hn hl hn1]
  refine onBunch_tracked fun s hs => ?_
  have ek : component ec q b.p0 m 1 = ⟨(component ec q b.p0 m 1).re, 0⟩ := by
    ext <;> simp [component_im h1]
  rw [rectSlice_normal (component_im h1), if_neg (by tauto), thick_kick (hd s hs) ds h0, ek]
  exact ⟨_, rfl, ⟨rfl, (lens_keeps _ _ _ _).2⟩, lens_follows _ _ _ _⟩

/-- A slice that is a point. -/
def point (q : ℝ) (x : Pt) : Slice ℝ := ⟨x, fun _ => 0, q⟩

theorem point_stands (q : ℝ) (x : Pt) : Stands (point q x) [(q, x)] := by
  refine ⟨by simp [total, point], fun i _ => by simp [first, point], fun i _ j _ => ?_⟩
  simp [second, point, sig]

/-- What a point of charge one follows. -/
theorem point_follows {R : Pt → Pt → Prop} {x : Pt} {s' : Slice ℝ} (h : Follows R (point 1 x) s') :
    ∃ y, R x y ∧ ∀ i < 6, s'.x i = y i := by
  obtain ⟨f, h1, h2, _⟩ := h [(1, x)] (point_stands 1 x) (by intro p hp; simp at hp; subst hp; rfl)
  refine ⟨f x, h1 (1, x) (by simp), fun i hi => ?_⟩
  have hq := h2.charge
  have hm := h2.mean i hi
  simp [moved, total, first] at hq hm
  rw [← hq] at hm
  linarith

/-- C261 is violated: in a quadrupole with a dipole a slice does not follow the field.  In the witness the phase advance of the
magnet is a full turn: a particle on the axis comes back with its direction, the slice is deflected. -/
theorem combined_violated : ∃ s', (Thick.new (2 * π) ⟨1, 0⟩ 1).apply (point 1 fun _ => 0) = .ok s' ∧
    s'.x 1 = 2 * π ∧ ¬ Follows (Carried (straight ⟨1, 0⟩ ⟨1, 0⟩) (2 * π)) (point 1 fun _ => 0) s' := by
  have hk : (⟨1, 0⟩ : Cx ℝ) ≠ 0 := fun h => one_ne_zero (congrArg Cx.re h)
  refine ⟨_, thick_kick (s := point 1 fun _ => 0) (by simp [point]) (2 * π) hk 1, ?_, ?_⟩
  · unfold lensSlice
    rw [applyR2_x]
    simp only [planes, applyR2_x, point, quad2_closed]
    simp [cK, sK]
  · intro h
    obtain ⟨y, hy, e⟩ := point_follows h
    have e1 := e 1 (by omega)
    have ho : Carried (straight ⟨1, 0⟩ ⟨1, 0⟩) (2 * π) (fun _ => 0) (fun i => 0) := by
      refine ⟨fun t i => if i = 0 then cos t - 1 else if i = 1 then -sin t else 0, ?_, ?_, ?_⟩
      · intro i hi; interval_cases i <;> simp
      · intro i hi; interval_cases i <;> simp
      · intro t i hi
        interval_cases i
        · simpa [straight] using (hasDerivAt_cos t).sub_const 1
        · refine (hasDerivAt_sin t).neg.congr_deriv ?_
          simp [straight]
        · simpa [straight] using hasDerivAt_const t (0 : ℝ)
        · simpa [straight] using hasDerivAt_const t (0 : ℝ)
        · simpa [straight] using hasDerivAt_const t (0 : ℝ)
        · simpa [straight] using hasDerivAt_const t (0 : ℝ)
    have e0 := straight_unique hy ho 1 (by omega)
    rw [e0] at e1
    unfold lensSlice at e1
    rw [applyR2_x] at e1
    simp only [planes, applyR2_x, point, quad2_closed] at e1
    simp [cK, sK] at e1

/-! ## C262: magnets of length zero -/

theorem thinMap_within (k : ℝ) : Within 6 (idMap ++ [term 2 1 k, term 4 3 (-k)]) := by
  intro t ht
  simp [idMap, term] at ht
  rcases ht with rfl | rfl | rfl | rfl | rfl | rfl | rfl | rfl <;> simp

theorem thinMap_mat (k : ℝ) (p : Pt) : mulVec 6 (mat (idMap ++ [term 2 1 k, term 4 3 (-k)])) p
    = fun i => if i = 1 then k * p 0 + p 1 else if i = 3 then -k * p 2 + p 3 else if i < 6 then p i else 0 := by
  funext i
  unfold mulVec
  rw [sumTo6]
  by_cases hi : i < 6
  · interval_cases i <;> simp [idMap, mat_cons, mat_nil, term]
  · simp [idMap, mat_cons, mat_nil, term, show i ≠ 0 by omega, show i ≠ 1 by omega, show i ≠ 2 by omega,
      show i ≠ 3 by omega, show i ≠ 4 by omega, show i ≠ 5 by omega, hi]

/-- C262: what a lens of zero length does: the dipole deflects as it should, the gradient the other way. -/
theorem thin_follows (k0 : Cx ℝ) (k1 : ℝ) {s : Slice ℝ} (hd : 1 + s.x 5 ≠ 0) :
    ∃ s', thinApply k0 k1 s = .ok s' ∧ Kept s s' ∧
      Follows (fun p p' => ∀ i < 6, p' i = deflected k0 ⟨-k1, 0⟩ p i) s s' := by
  have e : upd (upd s.x 1 (s.x 1 - 1 / (1 + s.x 5) * k0.re)) 3
      (upd s.x 1 (s.x 1 - 1 / (1 + s.x 5) * k0.re) 3 + 1 / (1 + s.x 5) * k0.im)
      = fun i => s.x i + (if i = 1 then -(1 / (1 + s.x 5) * k0.re) else if i = 3 then 1 / (1 + s.x 5) * k0.im else 0) := by
    funext i
    unfold upd
    by_cases h1 : i = 1
    · subst h1; simp; ring
    · by_cases h3 : i = 3
      · subst h3; simp
      · simp [h1, h3]
  have h2 := shift_follows s
    (fun i => if i = 1 then -(1 / (1 + s.x 5) * k0.re) else if i = 3 then 1 / (1 + s.x 5) * k0.im else 0) (by simp)
  unfold thinApply
  rw [if_neg hd]
  simp only [e]
  by_cases hk : k1 = 0
  · subst hk
    rw [if_neg (by simp)]
    refine ⟨_, rfl, ⟨rfl, by simp⟩, follows_mono h2 ?_⟩
    intro p p' hp h i hi
    rw [h i]
    interval_cases i <;> simp [deflected, hp] <;> field_simp
    ring
  · rw [if_pos hk]
    obtain ⟨s', f1, f2, f3⟩ := applyR_follows (thinMap_within (1 / (1 + s.x 5) * k1))
      (by intro i hi; interval_cases i <;> simp [idMap, mat_cons, mat_nil, term])
      (by intro j hj; interval_cases j <;> simp [idMap, mat_cons, mat_nil, term])
      { s with x := fun i => s.x i +
        (if i = 1 then -(1 / (1 + s.x 5) * k0.re) else if i = 3 then 1 / (1 + s.x 5) * k0.im else 0) }
    have hq : s'.q = s.q := by
      obtain ⟨s'', g1, g2, _⟩ := applyR_ok (thinMap_within (1 / (1 + s.x 5) * k1)) { s with x := fun i => s.x i +
        (if i = 1 then -(1 / (1 + s.x 5) * k0.re) else if i = 3 then 1 / (1 + s.x 5) * k0.im else 0) }
      rw [f1] at g1
      cases g1
      exact g2
    refine ⟨s', f1, ⟨hq, by rw [f3]; simp⟩, follows_mono (follows_after h2 f2) ?_⟩
    rintro p p' hp ⟨q, hq, hp'⟩ i hi
    rw [hp' i, thinMap_mat]
    interval_cases i <;> simp [deflected, hq, hp] <;> field_simp
    all_goals ring

/-- C262: a corrector of length zero deflects all particles of a slice by its integrated field. -/
theorem corrector_tracked {eps ec q : ℝ} {m : MField ℝ} {b : SBunch ℝ} (hp : b.p0 ≠ 0) (he : ec ≠ 0)
    (hn : eps < |m.b0|) (hl : lowest m = .ok 0) (h1 : m.terms.getD 1 0 = 0) (hd : ∀ s ∈ b.slices, 1 + s.x 5 ≠ 0) :
    ∃ b', rectStep eps ec q 0 m 0 b = .ok b' ∧
      Tracked (fun p p' => ∀ i < 6, p' i = deflected (component ec q b.p0 m 0) 0 p i) b b' := by
  rw [rect_eq hp he hn hl (Nat.zero_le 1)]
  refine onBunch_tracked fun s hs => ?_
  rw [component_zero h1, rectSlice_normal rfl, if_pos ⟨rfl, rfl⟩]
  obtain ⟨s', e1, e2, e3⟩ := thin_follows (component ec q b.p0 m 0) (0 : Cx ℝ).re (hd s hs)
  refine ⟨s', e1, e2, follows_mono e3 fun p p' _ h i hi => ?_⟩
  rw [h i hi]
  congr 1
  ext <;> simp

/-- C262 is violated: a quadrupole of length zero defocuses where one of any length with the same integrated strength
focuses. -/
theorem thin_quadrupole_violated {k : ℝ} (hk : 0 < k) : ∃ s', thinApply 0 k (point 1 fun i => if i = 0 then 1 else 0) = .ok s' ∧
    s'.x 1 = k ∧
    ¬ Follows (fun p p' => ∀ i < 6, p' i = deflected 0 ⟨k, 0⟩ p i) (point 1 fun i => if i = 0 then 1 else 0) s' ∧
    ∀ l, 0 < l → l * √(k / l) < π → ∀ s'', (Thick.new l 0 (k / l)).apply (point 1 fun i => if i = 0 then 1 else 0) = .ok s'' →
      s''.x 1 < 0 := by
  have hd : 1 + (point 1 fun i => if i = 0 then (1 : ℝ) else 0).x 5 ≠ 0 := by simp [point]
  obtain ⟨s', e1, _, e3⟩ := thin_follows 0 k hd
  obtain ⟨y, hy, e⟩ := point_follows e3
  have ex : s'.x 1 = k := by rw [e 1 (by omega), hy 1 (by omega)]; simp [deflected]
  refine ⟨s', e1, ex, ?_, ?_⟩
  · intro h
    obtain ⟨z, hz, e'⟩ := point_follows h
    have := e' 1 (by omega)
    rw [ex, hz 1 (by omega)] at this
    simp [deflected] at this
    linarith
  · intro l hl hphase s'' hs
    rw [thick_none hd] at hs
    cases hs
    rw [applyR2_x]
    have hkl : 0 < k / l := div_pos hk hl
    simp [planes, quad2_closed, point, sK, hkl, hkl.ne']
    have hr : 0 < √(k / l) := sqrt_pos.2 hkl
    have hsin : 0 < sin (√(k / l) * l) := sin_pos_of_pos_of_lt_pi (by positivity) (by rw [mul_comm]; exact hphase)
    positivity

end

end Verif.SMPMaps
