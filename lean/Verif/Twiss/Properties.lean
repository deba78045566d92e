import Verif.Twiss.Start

/-!
# Properties: lattice functions along the beamline, the table and the phase advance (C179-C183)
-/

namespace Verif.Twiss

open Verif Finset

/-! ## Along the beamline -/

section Along

variable {n : Nat}

/-- One pass without `Symplectify`: `N` becomes `M2 M1 N`, and `M1 N` stays. -/
theorem node_regular (hn : n ≤ 6) (delta : ℝ) (t : St n)
    (h : (quot hn delta (fun c => scaled n t.e t.e0 (t.q c)) (scaled n t.e t.e0 t.ref2)).det ≠ 0) :
    ∃ m1 : Matrix (Fin n) (Fin n) ℝ, node hn delta false t = .ok
      { t with q := fun c => scaled n t.e t.e0 (t.q c), e0 := t.e, m1 := m1,
               nn := quot hn delta (fun c => scaled n t.e t.e0 (t.q c)) (scaled n t.e t.e0 t.ref2) * (t.m1 * t.nn) } ∧
      m1 * (quot hn delta (fun c => scaled n t.e t.e0 (t.q c)) (scaled n t.e t.e0 t.ref2) * (t.m1 * t.nn)) = t.m1 * t.nn := by
  rcases LinAlg.inverse_spec (fun x : ℝ => |x|) (fun z => abs_nonneg z) (fun z => abs_eq_zero)
    (quot hn delta (fun c => scaled n t.e t.e0 (t.q c)) (scaled n t.e t.e0 t.ref2)) with ⟨_, h2⟩ | ⟨b, m, h1, _, h3, _⟩
  · exact absurd h2 h
  · refine ⟨b, ?_, ?_⟩
    · rw [node]
      simp only [h1, Bool.false_eq_true, if_false, Outcome.bind]
      rw [Matrix.mul_assoc]
    · rw [← Matrix.mul_assoc, h3, Matrix.one_mul]

/-- A singular matrix of quotients is an exception. -/
theorem node_singular (hn : n ≤ 6) (delta : ℝ) (sym : Bool) (t : St n)
    (h : (quot hn delta (fun c => scaled n t.e t.e0 (t.q c)) (scaled n t.e t.e0 t.ref2)).det = 0) :
    node hn delta sym t = .throw .singular := by
  rcases LinAlg.inverse_spec (fun x : ℝ => |x|) (fun z => abs_nonneg z) (fun z => abs_eq_zero)
    (quot hn delta (fun c => scaled n t.e t.e0 (t.q c)) (scaled n t.e t.e0 t.ref2)) with ⟨h1, _⟩ | ⟨b, m, h1, _, h3, _⟩
  · rw [node]
    simp only [h1]
  · have := congrArg Matrix.det h3
    rw [Matrix.det_mul, h, mul_zero, Matrix.det_one] at this
    exact absurd this zero_ne_one

theorem scaled_same (n : Nat) (e : ℝ) (p : PS) : scaled n e e p = p := by
  funext i
  simp [scaled]

theorem behind_cons (f : PS → PS) (fs : List (PS → PS)) (p : PS) : Spec.behind (f :: fs) p = Spec.behind fs (f p) := rfl

theorem loop_const (hn : n ≤ 6) (delta : ℝ) (ok : Bool) (cols : List Ix) (hv : ∀ x ∈ cols, Valid n ok x) (p : PS)
    (nn0 : Matrix (Fin n) (Fin n) ℝ) (cs : List Comp) : ∀ (g : PS → PS) (t : St n), t.ref1 = g p → t.ref2 = g p →
      (∀ k : Fin n, t.q k = g (fun i => if i.val = k.val then p i + delta else p i)) → t.e0 = t.e → (∀ c ∈ cs, c.e = t.e) → t.m1 * t.nn = nn0 →
      (∀ m ≤ cs.length, (Spec.gradient hn (fun x => Spec.behind ((cs.take m).map Comp.f) (g x)) delta p).det ≠ 0) →
      ∃ l, loop hn delta false ok cols t cs = .ok l ∧ l.length = cs.length + 1 ∧ ∀ m ≤ cs.length, ∃ N r, l[m]? = some (N, r) ∧
        N = Spec.gradient hn (fun x => Spec.behind ((cs.take m).map Comp.f) (g x)) delta p * nn0 ∧
        row ok (t.s + ((cs.take m).map Comp.len).sum) (Spec.behind ((cs.take m).map Comp.f) (g p)) N cols = .ok r := by
  induction cs with
  | nil =>
    intro g t h1 h2 h3 h4 _ h6 h7
    have hq : quot hn delta (fun c => scaled n t.e t.e0 (t.q c)) (scaled n t.e t.e0 t.ref2) = Spec.gradient hn g delta p := by
      funext r c
      rw [quot, h4, scaled_same, scaled_same, h2, h3]
      rfl
    have h0 := h7 0 (by simp)
    obtain ⟨m1, e1, e2⟩ := node_regular hn delta t (by rw [hq]; exact h0)
    rw [hq, h6] at e1 e2
    obtain ⟨r, hr⟩ := row_valid ok t.s t.ref1 (Spec.gradient hn g delta p * nn0) cols hv
    refine ⟨[(Spec.gradient hn g delta p * nn0, r)], ?_, rfl, ?_⟩
    · rw [loop, e1]
      simp only [Outcome.bind, hr]
    · intro m hm
      have : m = 0 := by simpa using hm
      subst this
      refine ⟨_, r, rfl, rfl, ?_⟩
      rw [h1] at hr
      simpa [Spec.behind] using hr
  | cons c cs ih =>
    intro g t h1 h2 h3 h4 h5 h6 h7
    have hq : quot hn delta (fun c => scaled n t.e t.e0 (t.q c)) (scaled n t.e t.e0 t.ref2) = Spec.gradient hn g delta p := by
      funext r c
      rw [quot, h4, scaled_same, scaled_same, h2, h3]
      rfl
    have h0 := h7 0 (by simp)
    obtain ⟨m1, e1, e2⟩ := node_regular hn delta t (by rw [hq]; exact h0)
    rw [hq, h6] at e1 e2
    obtain ⟨r, hr⟩ := row_valid ok t.s t.ref1 (Spec.gradient hn g delta p * nn0) cols hv
    obtain ⟨l, hl, hlen, hall⟩ := ih (fun x => c.f (g x))
      (step c { t with q := fun c => scaled n t.e t.e0 (t.q c), e0 := t.e, m1 := m1, nn := Spec.gradient hn g delta p * nn0 })
      (by simp [step, h1]) (by simp [step, h2]) (fun k => by simp only [step]; rw [h4, scaled_same, h3])
      (by simp only [step]; exact (h5 c (by simp)).symm) (fun c' hc' => by simp only [step]; rw [h5 c' (by simp [hc']), h5 c (by simp)])
      (by simp only [step]; exact e2) (fun m hm => h7 (m + 1) (by simpa using hm))
    refine ⟨(Spec.gradient hn g delta p * nn0, r) :: l, ?_, by simp [hlen], ?_⟩
    · rw [loop, e1]
      simp only [Outcome.bind, hr, hl]
    · intro m hm
      cases m with
      | zero =>
        refine ⟨_, r, rfl, rfl, ?_⟩
        rw [h1] at hr
        simpa [Spec.behind] using hr
      | succ m =>
        obtain ⟨N, r', a1, a2, a3⟩ := hall m (by simpa using hm)
        refine ⟨N, r', by simpa using a1, a2, ?_⟩
        rw [← a3]
        simp only [step, List.take_succ_cons, List.map_cons, List.sum_cons, behind_cons]
        congr 1
        ring

/-- C179: as long as the reference momentum does not change and the matrices are not symplectified, the table has one row at
every component and one at the end; the matrix there is the gradient of the map from the start to that place, times the
matrix at the start, and the row is made of the length so far, the orbit there and this matrix. -/
theorem table (hn : n ≤ 6) (delta p0 : ℝ) (hdelta : delta ≠ 0) (ok : Bool) (cols : List Ix) (hv : ∀ x ∈ cols, Valid n ok x) (p : PS)
    (nn : Matrix (Fin n) (Fin n) ℝ) (cs : List Comp) (hcs : cs ≠ []) (he : ∀ c ∈ cs, c.e = p0)
    (hreg : ∀ m ≤ cs.length, (Spec.gradient hn (Spec.behind ((cs.take m).map Comp.f)) delta p).det ≠ 0) :
    ∃ l, calculate hn delta p0 false ok cols p nn cs = .ok l ∧ l.length = cs.length + 1 ∧ ∀ m ≤ cs.length, ∃ N r, l[m]? = some (N, r) ∧
      N = Spec.gradient hn (Spec.behind ((cs.take m).map Comp.f)) delta p * nn ∧
      row ok ((cs.take m).map Comp.len).sum (Spec.behind ((cs.take m).map Comp.f) p) N cols = .ok r := by
  obtain ⟨l, h1, h2, h3⟩ := loop_const hn delta ok cols hv p nn cs id (start delta p0 p nn) rfl rfl (fun _ => rfl) rfl he
    (by simp [start]) hreg
  refine ⟨l, ?_, h2, ?_⟩
  · rw [calculate, if_neg (by simp [hdelta, hcs])]
    exact h1
  · intro m hm
    obtain ⟨N, r, a1, a2, a3⟩ := h3 m hm
    refine ⟨N, r, a1, a2, ?_⟩
    simpa [start] using a3

/-- C179: a function of two coordinates is carried along by the gradient. -/
theorem twiss_carried (g m : Matrix (Fin n) (Fin n) ℝ) (i j a b : Fin n) :
    Spec.twiss (g * m) i j a b = Spec.carried g (fun x y => Spec.twiss m x y a b) i j := by
  simp only [Spec.twiss, Spec.carried, Matrix.mul_apply, Finset.sum_mul_sum, mul_add, Finset.sum_add_distrib]
  congr 1 <;> refine sum_congr rfl fun x _ => sum_congr rfl fun y _ => ?_ <;> ring

/-- C179: beta times gamma minus alpha squared: within one plane it is the square of a determinant, hence never negative. -/
theorem beta_gamma (m : Matrix (Fin n) (Fin n) ℝ) (i j a b : Fin n) :
    Spec.twiss m i i a b * Spec.twiss m j j a b - Spec.twiss m i j a b ^ 2 = (m i a * m j b - m i b * m j a) ^ 2 ∧
    Spec.twiss m i j a b = Spec.twiss m j i a b ∧ 0 ≤ Spec.twiss m i i a b := by
  refine ⟨by simp only [Spec.twiss]; ring, by simp only [Spec.twiss]; ring, ?_⟩
  simp only [Spec.twiss]
  exact add_nonneg (mul_self_nonneg _) (mul_self_nonneg _)

/-- C179: an affine map has its matrix as gradient, whatever the step and the particle. -/
theorem gradient_affine (hn : n ≤ 6) (delta : ℝ) (hd : delta ≠ 0) (p : PS) (T : Matrix (Fin 6) (Fin 6) ℝ) (b : PS) (r c : Fin n) :
    Spec.gradient hn (fun x => T.mulVec x + b) delta p r c = T (Fin.castLE hn r) (Fin.castLE hn c) := by
  have h : (fun i : Fin 6 => if i.val = c.val then p i + delta else p i) = p + delta • Pi.single (Fin.castLE hn c) 1 := by
    funext i
    by_cases hi : i.val = c.val
    · have : i = Fin.castLE hn c := Fin.ext (by simpa using hi)
      subst this
      simp
    · have : i ≠ Fin.castLE hn c := fun e => hi (by rw [e]; simp)
      simp [hi, this]
  rw [Spec.gradient, h, Matrix.mulVec_add, Matrix.mulVec_smul, Matrix.mulVec_single_one]
  simp only [Pi.add_apply, Pi.smul_apply, Matrix.col_apply, smul_eq_mul]
  field_simp
  ring

end Along

/-! ## One turn -/

section Turn

variable {d : Nat}

theorem turn_ix (hd : 2 * d ≤ 6) (ev : Fin 3 → Fin 6 → ℂ) (lam : Fin d → ℂ) (G : Matrix (Fin (2 * d)) (Fin (2 * d)) ℝ)
    (h : ∀ c r, ∑ x, (G r x : ℂ) * vec hd ev c x = lam c * vec hd ev c r) (c : Fin d) (r : Fin (2 * d)) :
    (G * startN hd ev) r (ix c 0) = Real.sqrt 2 * (lam c * turned hd ev c r).re ∧
    (G * startN hd ev) r (ix c 1) = Real.sqrt 2 * (lam c * turned hd ev c r).im := by
  have e : ∑ x, (G r x : ℂ) * turned hd ev c x = lam c * turned hd ev c r := by
    simp only [turned]
    rw [← mul_assoc, ← h c r, Finset.sum_mul]
    exact sum_congr rfl fun x _ => by ring
  refine ⟨?_, ?_⟩
  · rw [Matrix.mul_apply, ← e, Complex.re_sum, Finset.mul_sum]
    refine sum_congr rfl fun x _ => ?_
    rw [(startN_ix hd ev c x).1, Complex.re_ofReal_mul]
    ring
  · rw [Matrix.mul_apply, ← e, Complex.im_sum, Finset.mul_sum]
    refine sum_congr rfl fun x _ => ?_
    rw [(startN_ix hd ev c x).2, Complex.im_ofReal_mul]
    ring

/-- C180: if the eigenvectors belong to eigenvalues of modulus one of the gradient of one turn, the functions of two
coordinates behind the turn are those at the start. -/
theorem periodic (hd : 2 * d ≤ 6) (ev : Fin 3 → Fin 6 → ℂ) (lam : Fin d → ℂ) (G : Matrix (Fin (2 * d)) (Fin (2 * d)) ℝ)
    (h : ∀ c r, ∑ x, (G r x : ℂ) * vec hd ev c x = lam c * vec hd ev c r) (hl : ∀ c, ‖lam c‖ = 1) (c : Fin d) (i j : Fin (2 * d)) :
    Spec.twiss (G * startN hd ev) i j (ix c 0) (ix c 1) = Spec.twiss (startN hd ev) i j (ix c 0) (ix c 1) := by
  have e : (lam c).re ^ 2 + (lam c).im ^ 2 = 1 := by
    have := Complex.sq_norm (lam c)
    rw [hl c, Complex.normSq_apply] at this
    linarith
  simp only [Spec.twiss, (turn_ix hd ev lam G h c i).1, (turn_ix hd ev lam G h c i).2, (turn_ix hd ev lam G h c j).1,
    (turn_ix hd ev lam G h c j).2, (startN_ix hd ev c i).1, (startN_ix hd ev c i).2, (startN_ix hd ev c j).1, (startN_ix hd ev c j).2,
    Complex.mul_re, Complex.mul_im]
  linear_combination (Real.sqrt 2 ^ 2 * ((turned hd ev c i).re * (turned hd ev c j).re + (turned hd ev c i).im * (turned hd ev c j).im)) * e

/-- C180: and the phase of a plane behind the turn is the tune of its eigenvalue. -/
theorem turn_phase (hd : 2 * d ≤ 6) (ev : Fin 3 → Fin 6 → ℂ) (lam : Fin d → ℂ) (G : Matrix (Fin (2 * d)) (Fin (2 * d)) ℝ)
    (h : ∀ c r, ∑ x, (G r x : ℂ) * vec hd ev c x = lam c * vec hd ev c r) (hl : ∀ c, ‖lam c‖ = 1) (c : Fin d)
    (h0 : vec hd ev c (ix c 0) ≠ 0) (ok : Bool) (s : ℝ) (p : PS) (h2 : c.val = 2 → ok = true) :
    ∃ v, value ok s p (G * startN hd ev) (0, 0, c.val + 1) = .ok v ∧
      lam c = Complex.exp (2 * Real.pi * v * Complex.I) ∧
      (c.val ≠ 2 → -(1 / 1000000000) ≤ v ∧ v < 1) ∧ (c.val = 2 → -(1 / 2) < v ∧ v ≤ 1 / 2) := by
  obtain ⟨v, h3, ⟨h4, h5⟩, h6⟩ := value_phase ok s p (G * startN hd ev) c h2
  refine ⟨v, h3, ?_, h6⟩
  have e : (lam c).re ^ 2 + (lam c).im ^ 2 = 1 := by
    have := Complex.sq_norm (lam c)
    rw [hl c, Complex.normSq_apply] at this
    linarith
  have hr : 0 < Real.sqrt 2 * ‖vec hd ev c (ix c 0)‖ := mul_pos (by positivity) (norm_pos_iff.2 h0)
  have x1 : (G * startN hd ev) (ix c 0) (ix c 0) = Real.sqrt 2 * ‖vec hd ev c (ix c 0)‖ * (lam c).re := by
    rw [(turn_ix hd ev lam G h c (ix c 0)).1, turned_first, Complex.re_mul_ofReal]; ring
  have x2 : (G * startN hd ev) (ix c 0) (ix c 1) = Real.sqrt 2 * ‖vec hd ev c (ix c 0)‖ * (lam c).im := by
    rw [(turn_ix hd ev lam G h c (ix c 0)).2, turned_first, Complex.im_mul_ofReal]; ring
  have hs : Real.sqrt ((G * startN hd ev) (ix c 0) (ix c 0) ^ 2 + (G * startN hd ev) (ix c 0) (ix c 1) ^ 2) =
      Real.sqrt 2 * ‖vec hd ev c (ix c 0)‖ := by
    rw [x1, x2, mul_pow _ (lam c).re, mul_pow _ (lam c).im, ← mul_add, e, mul_one, Real.sqrt_sq hr.le]
  rw [hs] at h4 h5
  rw [x1] at h4
  rw [x2] at h5
  have f1 := mul_left_cancel₀ hr.ne' h4
  have f2 := mul_left_cancel₀ hr.ne' h5
  apply Complex.ext
  · rw [show (2 * Real.pi * v * Complex.I : ℂ) = ((2 * Real.pi * v : ℝ) : ℂ) * Complex.I by push_cast; ring,
      Complex.exp_ofReal_mul_I_re, f1]
  · rw [show (2 * Real.pi * v * Complex.I : ℂ) = ((2 * Real.pi * v : ℝ) : ℂ) * Complex.I by push_cast; ring,
      Complex.exp_ofReal_mul_I_im, f2]

end Turn

/-! ## Acceleration -/

section Acceleration

theorem scaled_all (e e0 : ℝ) (h0 : e0 ≠ 0) (p : PS) : scaled 6 e e0 p = Real.sqrt (e / e0) • p := by
  funext i
  by_cases h : e = e0
  · subst h
    simp [scaled, div_self h0]
  · simp only [scaled, Pi.smul_apply, smul_eq_mul]
    rw [if_pos ⟨h, i.isLt⟩]
    ring

/-- The reference momentum behind some components. -/
def momentum (p0 : ℝ) (cs : List Comp) : ℝ := cs.foldl (fun _ c => c.e) p0

theorem loop_zero (delta : ℝ) (ok : Bool) (cols : List Ix) (hv : ∀ x ∈ cols, Valid 6 ok x) (p0 : ℝ) (hp0 : 0 < p0)
    (nn0 : Matrix (Fin 6) (Fin 6) ℝ) (cs : List Comp) : ∀ (g : PS → PS) (t : St 6), g 0 = 0 → t.ref1 = 0 → t.ref2 = 0 →
      0 < t.e → 0 < t.e0 → (∀ k : Fin 6, t.q k = Real.sqrt (t.e0 / p0) • g (fun i => if i.val = k.val then (0 : PS) i + delta else (0 : PS) i)) →
      (∀ c ∈ cs, 0 < c.e ∧ ∀ (r : ℝ) x, c.f (r • x) = r • c.f x) → t.m1 * t.nn = nn0 →
      (∀ m ≤ cs.length, (Spec.gradient (le_refl 6) (fun x => Spec.behind ((cs.take m).map Comp.f) (g x)) delta 0).det ≠ 0) →
      ∃ l, loop (le_refl 6) delta false ok cols t cs = .ok l ∧ l.length = cs.length + 1 ∧ ∀ m ≤ cs.length, ∃ N r, l[m]? = some (N, r) ∧
        N = Real.sqrt (momentum t.e (cs.take m) / p0) • (Spec.gradient (le_refl 6) (fun x => Spec.behind ((cs.take m).map Comp.f) (g x)) delta 0 * nn0) ∧
        row ok (t.s + ((cs.take m).map Comp.len).sum) 0 N cols = .ok r := by
  have key : ∀ (g : PS → PS) (t : St 6), g 0 = 0 → t.ref2 = 0 → 0 < t.e → 0 < t.e0 →
      (∀ k : Fin 6, t.q k = Real.sqrt (t.e0 / p0) • g (fun i => if i.val = k.val then (0 : PS) i + delta else (0 : PS) i)) →
      (∀ k : Fin 6, scaled 6 t.e t.e0 (t.q k) = Real.sqrt (t.e / p0) • g (fun i => if i.val = k.val then (0 : PS) i + delta else (0 : PS) i)) ∧
      quot (le_refl 6) delta (fun c => scaled 6 t.e t.e0 (t.q c)) (scaled 6 t.e t.e0 t.ref2) =
        Real.sqrt (t.e / p0) • Spec.gradient (le_refl 6) g delta 0 := by
    intro g t hg h2 he he0 h3
    have hk : ∀ k : Fin 6, scaled 6 t.e t.e0 (t.q k) =
        Real.sqrt (t.e / p0) • g (fun i => if i.val = k.val then (0 : PS) i + delta else (0 : PS) i) := by
      intro k
      rw [scaled_all _ _ he0.ne', h3, smul_smul, ← Real.sqrt_mul (by positivity)]
      congr 2
      field_simp
    refine ⟨hk, ?_⟩
    funext r c
    rw [quot, hk, h2, scaled_all _ _ he0.ne', smul_zero, Matrix.smul_apply, Spec.gradient, hg]
    simp only [Pi.smul_apply, Pi.zero_apply, sub_zero, smul_eq_mul]
    ring
  have reg : ∀ (a : ℝ) (m : Matrix (Fin 6) (Fin 6) ℝ), 0 < a → m.det ≠ 0 → (a • m).det ≠ 0 := fun a m ha hm => by
    rw [Matrix.det_smul]
    exact mul_ne_zero (pow_ne_zero _ ha.ne') hm
  induction cs with
  | nil =>
    intro g t hg h1 h2 he he0 h3 _ h6 h7
    obtain ⟨hk, hq⟩ := key g t hg h2 he he0 h3
    obtain ⟨m1, e1, e2⟩ := node_regular (le_refl 6) delta t (by rw [hq]; exact reg _ _ (Real.sqrt_pos.2 (by positivity)) (h7 0 (by simp)))
    rw [hq, h6, Matrix.smul_mul] at e1 e2
    obtain ⟨r, hr⟩ := row_valid ok t.s t.ref1 (Real.sqrt (t.e / p0) • (Spec.gradient (le_refl 6) g delta 0 * nn0)) cols hv
    refine ⟨[(Real.sqrt (t.e / p0) • (Spec.gradient (le_refl 6) g delta 0 * nn0), r)], ?_, rfl, ?_⟩
    · rw [loop, e1]
      simp only [Outcome.bind, hr]
    · intro m hm
      have : m = 0 := by simpa using hm
      subst this
      refine ⟨_, r, rfl, rfl, ?_⟩
      rw [h1] at hr
      simpa [Spec.behind, momentum] using hr
  | cons c cs ih =>
    intro g t hg h1 h2 he he0 h3 h5 h6 h7
    obtain ⟨hk, hq⟩ := key g t hg h2 he he0 h3
    obtain ⟨m1, e1, e2⟩ := node_regular (le_refl 6) delta t (by rw [hq]; exact reg _ _ (Real.sqrt_pos.2 (by positivity)) (h7 0 (by simp)))
    rw [hq, h6, Matrix.smul_mul] at e1 e2
    obtain ⟨r, hr⟩ := row_valid ok t.s t.ref1 (Real.sqrt (t.e / p0) • (Spec.gradient (le_refl 6) g delta 0 * nn0)) cols hv
    have hc := h5 c (by simp)
    have hc0 : c.f 0 = 0 := by
      have := hc.2 0 0
      simpa using this
    obtain ⟨l, hl, hlen, hall⟩ := ih (fun x => c.f (g x))
      (step c { t with q := fun c => scaled 6 t.e t.e0 (t.q c), e0 := t.e, m1 := m1,
                       nn := Real.sqrt (t.e / p0) • (Spec.gradient (le_refl 6) g delta 0 * nn0) })
      (by simp only [hg, hc0]) (by simp only [step, h1, hc0]) (by simp only [step, h2, hc0]) (by simp only [step]; exact hc.1)
      (by simp only [step]; exact he)
      (fun k => by simp only [step]; rw [hk, hc.2]) (fun c' hc' => h5 c' (by simp [hc']))
      (by simp only [step]; exact e2) (fun m hm => h7 (m + 1) (by simpa using hm))
    refine ⟨(Real.sqrt (t.e / p0) • (Spec.gradient (le_refl 6) g delta 0 * nn0), r) :: l, ?_, by simp [hlen], ?_⟩
    · rw [loop, e1]
      simp only [Outcome.bind, hr, hl]
    · intro m hm
      cases m with
      | zero =>
        refine ⟨_, r, rfl, rfl, ?_⟩
        rw [h1] at hr
        simpa [Spec.behind, momentum] using hr
      | succ m =>
        obtain ⟨N, r', a1, a2, a3⟩ := hall m (by simpa using hm)
        refine ⟨N, r', by simpa using a1, a2, ?_⟩
        rw [← a3]
        simp only [step, List.take_succ_cons, List.map_cons, List.sum_cons]
        congr 1
        ring

/-- C181 (partial: the orbit is zero, the components are linear in scale and the motion has six dimensions): behind a
change of the reference momentum the matrix is the gradient times the matrix at the start times the root of the ratio of the
momenta, so that the functions of two coordinates grow as the momentum. -/
theorem acceleration_partial (delta p0 : ℝ) (hdelta : delta ≠ 0) (hp0 : 0 < p0) (ok : Bool) (cols : List Ix)
    (hv : ∀ x ∈ cols, Valid 6 ok x) (nn : Matrix (Fin 6) (Fin 6) ℝ) (cs : List Comp) (hcs : cs ≠ [])
    (hc : ∀ c ∈ cs, 0 < c.e ∧ ∀ (r : ℝ) x, c.f (r • x) = r • c.f x)
    (hreg : ∀ m ≤ cs.length, (Spec.gradient (le_refl 6) (Spec.behind ((cs.take m).map Comp.f)) delta 0).det ≠ 0) :
    ∃ l, calculate (le_refl 6) delta p0 false ok cols 0 nn cs = .ok l ∧ l.length = cs.length + 1 ∧ ∀ m ≤ cs.length, ∃ N r,
      l[m]? = some (N, r) ∧ row ok ((cs.take m).map Comp.len).sum 0 N cols = .ok r ∧ ∀ i j a b, Spec.twiss N i j a b =
        momentum p0 (cs.take m) / p0 *
          Spec.carried (Spec.gradient (le_refl 6) (Spec.behind ((cs.take m).map Comp.f)) delta 0) (fun x y => Spec.twiss nn x y a b) i j := by
  obtain ⟨l, h1, h2, h3⟩ := loop_zero delta ok cols hv p0 hp0 nn cs id (start delta p0 0 nn) rfl rfl rfl hp0 hp0
    (fun k => by rw [start, div_self hp0.ne', Real.sqrt_one, one_smul]; rfl) hc (by simp [start]) hreg
  refine ⟨l, ?_, h2, ?_⟩
  · rw [calculate, if_neg (by simp [hdelta, hcs])]
    exact h1
  · intro m hm
    obtain ⟨N, r, a1, a2, a3⟩ := h3 m hm
    refine ⟨N, r, a1, by simpa [start] using a3, ?_⟩
    intro i j a b
    have hpos : 0 < momentum p0 (cs.take m) := by
      have : ∀ (l : List Comp) (e : ℝ), 0 < e → (∀ c ∈ l, 0 < c.e) → 0 < momentum e l := by
        intro l
        induction l with
        | nil => exact fun e he _ => he
        | cons c l ih => exact fun e _ h => ih c.e (h c (by simp)) (fun c' hc' => h c' (by simp [hc']))
      exact this _ _ hp0 (fun c hc' => (hc c (List.mem_of_mem_take hc')).1)
    rw [← twiss_carried, a2]
    simp only [Spec.twiss, Matrix.smul_apply, smul_eq_mul, start, id_eq]
    have hs := Real.mul_self_sqrt (le_of_lt (div_pos hpos hp0))
    set w := Real.sqrt (momentum p0 (cs.take m) / p0)
    rw [← hs]
    ring

/-- C181 is violated: with a closed orbit off the axis the matrix is wrong from the second component behind the change on,
since the particles of the columns keep the factor and the second reference particle does not: components which do nothing
but double the momentum, an orbit of 1 in all coordinates and a step of 1/1000 give a first element of `√2`, as it should be,
and then of `√2 + 1000 (√2 - 1)`. -/
theorem acceleration_violated : ∃ l, calculate (le_refl 6) (1 / 1000) 1 false true [(0, 0, 0)] (fun _ => 1) 1 [⟨1, id, 2⟩, ⟨1, id, 2⟩] = .ok l ∧
    l.map (fun x => x.1 0 0) = [1, Real.sqrt 2, Real.sqrt 2 + 1000 * (Real.sqrt 2 - 1)] := by
  have hs2 : Real.sqrt 2 ≠ 0 := by positivity
  have hs1 : 1 < Real.sqrt 2 := by rw [Real.lt_sqrt (by norm_num)]; norm_num
  have sc : ∀ p : PS, scaled 6 2 1 p = Real.sqrt 2 • p := fun p => by rw [scaled_all _ _ one_ne_zero]; norm_num
  -- the first place
  have q0 : quot (le_refl 6) (1 / 1000) (fun c => scaled 6 1 1 (Orbit.shifted (1 / 1000) (fun _ => (1 : ℝ)) c.val)) (scaled 6 1 1 fun _ => 1) = 1 := by
    funext r c
    rw [quot, scaled_same, scaled_same, Orbit.shifted, Matrix.one_apply]
    by_cases h : r = c
    · subst h; simp
    · have : r.val ≠ c.val := fun e => h (Fin.ext e)
      simp [h, this]
  obtain ⟨m0, a1, a2⟩ := node_regular (le_refl 6) (1 / 1000) (start (1 / 1000) 1 (fun _ => 1) 1) (by
    simp only [start]; rw [q0]; simp)
  simp only [scaled_same] at q0
  simp only [start, scaled_same, q0, Matrix.mul_one] at a1 a2
  -- the second place
  have q1 : quot (le_refl 6) (1 / 1000) (fun c => scaled 6 2 1 (Orbit.shifted (1 / 1000) (fun _ => (1 : ℝ)) c.val)) (scaled 6 2 1 fun _ => 1) =
      Real.sqrt 2 • 1 := by
    funext r c
    rw [quot, sc, sc, Matrix.smul_apply, Matrix.one_apply]
    simp only [Orbit.shifted, Pi.smul_apply, smul_eq_mul]
    by_cases h : r = c
    · subst h; simp; ring
    · have : r.val ≠ c.val := fun e => h (Fin.ext e)
      simp [h, this]
  obtain ⟨m1, b1, b2⟩ := node_regular (le_refl 6) (1 / 1000)
    (⟨fun _ => 1, fun _ => 1, fun k => Orbit.shifted (1 / 1000) (fun _ => (1 : ℝ)) k.val, 2, 1, m0, 1, 0 + 1⟩ : St 6) (by
      simp only; rw [q1]; simp)
  simp only [q1, Matrix.mul_one] at b1 b2
  subst a2
  simp only [Matrix.mul_one] at b1 b2
  -- the third place
  have q2 : ∀ r c, quot (le_refl 6) (1 / 1000) (fun c => scaled 6 2 2 (scaled 6 2 1 (Orbit.shifted (1 / 1000) (fun _ => (1 : ℝ)) c.val)))
      (scaled 6 2 2 fun _ => 1) r c = (if r = c then Real.sqrt 2 else 0) + 1000 * (Real.sqrt 2 - 1) := by
    intro r c
    rw [quot, scaled_same, scaled_same, sc]
    simp only [Orbit.shifted, Pi.smul_apply, smul_eq_mul]
    by_cases h : r = c
    · subst h; simp; ring
    · have : r.val ≠ c.val := fun e => h (Fin.ext e)
      simp [h, this]; ring
  have reg : (quot (le_refl 6) (1 / 1000) (fun c => scaled 6 2 2 (scaled 6 2 1 (Orbit.shifted (1 / 1000) (fun _ => (1 : ℝ)) c.val)))
      (scaled 6 2 2 fun _ => 1)).det ≠ 0 := by
    intro hdet
    obtain ⟨v, hv0, hv⟩ := Matrix.exists_mulVec_eq_zero_iff.2 hdet
    have hr : ∀ r, Real.sqrt 2 * v r + 1000 * (Real.sqrt 2 - 1) * ∑ c, v c = 0 := by
      intro r
      have := congrFun hv r
      simp only [Matrix.mulVec, dotProduct, q2, add_mul, Finset.sum_add_distrib, ite_mul, zero_mul, Finset.sum_ite_eq, Finset.mem_univ, if_true,
        Pi.zero_apply, ← Finset.mul_sum] at this
      linarith
    have hsum : (Real.sqrt 2 + 6000 * (Real.sqrt 2 - 1)) * ∑ c, v c = 0 := by
      have := Finset.sum_congr (rfl : (Finset.univ : Finset (Fin 6)) = Finset.univ) fun r _ => hr r
      rw [Finset.sum_add_distrib, ← Finset.mul_sum, Finset.sum_const, Finset.sum_const_zero] at this
      simp at this
      linarith
    have hz : ∑ c, v c = 0 := by
      rcases mul_eq_zero.1 hsum with h | h
      · linarith
      · exact h
    apply hv0
    funext r
    have := hr r
    rw [hz, mul_zero, add_zero] at this
    exact (mul_eq_zero.1 this).resolve_left hs2
  obtain ⟨m2, c1, c2⟩ := node_regular (le_refl 6) (1 / 1000)
    (⟨fun _ => 1, fun _ => 1, fun c => scaled 6 2 1 (Orbit.shifted (1 / 1000) (fun _ => (1 : ℝ)) c.val), 2, 2, m1, Real.sqrt 2 • 1,
      0 + 1 + 1⟩ : St 6) (by simpa using reg)
  simp only [b2] at c1
  rw [Matrix.mul_one] at c1
  refine ⟨[(1, [0]), (Real.sqrt 2 • 1, [0 + 1]), (quot (le_refl 6) (1 / 1000) (fun c => scaled 6 2 2 (scaled 6 2 1 (Orbit.shifted (1 / 1000) (fun _ => (1 : ℝ)) c.val)))
    (scaled 6 2 2 fun _ => 1), [0 + 1 + 1])], ?_, ?_⟩
  · rw [calculate, if_neg (by simp), loop, start, a1]
    simp only [Outcome.bind, row, value_place]
    rw [loop, step]
    simp only [id_eq]
    rw [b1]
    simp only [Outcome.bind, row, value_place]
    rw [loop, step]
    simp only [id_eq]
    rw [c1]
    simp only [Outcome.bind, row, value_place]
  · simp only [List.map_cons, List.map_nil, q2]
    simp

end Acceleration

/-! ## The table -/

/-- C182: the first column is always that of the places, and `orbitonly` says whether all functions are of the place and the
orbit, whatever the calls since the construction. -/
theorem orbitonly_spec (ops : List Op) :
    let t := ops.foldl Tab.op Tab.new
    (t.orbitonly = true ↔ ∀ c ∈ t.cols, c.ix.2.2 = 0) ∧ t.cols.head?.map Col.ix = some (0, 0, 0) := by
  have hadd : ∀ (t : Tab) (c : Ix), ((t.orbitonly = true ↔ ∀ c ∈ t.cols, c.ix.2.2 = 0) ∧ t.cols.head?.map Col.ix = some (0, 0, 0)) →
      (((t.add c).orbitonly = true ↔ ∀ x ∈ (t.add c).cols, x.ix.2.2 = 0) ∧ (t.add c).cols.head?.map Col.ix = some (0, 0, 0)) := by
    rintro t c ⟨h1, h2⟩
    refine ⟨?_, ?_⟩
    · simp only [Tab.add, List.mem_append, List.mem_singleton]
      by_cases h : c.2.2 = 0
      · rw [if_neg (by simpa using h), h1]
        constructor
        · rintro h3 x (h4 | h4)
          · exact h3 x h4
          · rw [h4]; exact h
        · exact fun h3 x hx => h3 x (Or.inl hx)
      · rw [if_pos h]
        constructor
        · intro h3; cases h3
        · exact fun h3 => absurd (h3 ⟨c, []⟩ (Or.inr rfl)) h
    · simp only [Tab.add]
      cases hc : t.cols with
      | nil => rw [hc] at h2; simp at h2
      | cons x l => rw [hc] at h2; simpa using h2
  have hfold : ∀ (l : List Ix) (t : Tab), ((t.orbitonly = true ↔ ∀ c ∈ t.cols, c.ix.2.2 = 0) ∧ t.cols.head?.map Col.ix = some (0, 0, 0)) →
      (((l.foldl Tab.add t).orbitonly = true ↔ ∀ c ∈ (l.foldl Tab.add t).cols, c.ix.2.2 = 0) ∧
        (l.foldl Tab.add t).cols.head?.map Col.ix = some (0, 0, 0)) := by
    intro l
    induction l with
    | nil => exact fun t h => h
    | cons c l ih => exact fun t h => ih _ (hadd t c h)
  have hrem : ∀ t : Tab, (t.removeAll.orbitonly = true ↔ ∀ c ∈ t.removeAll.cols, c.ix.2.2 = 0) ∧
      t.removeAll.cols.head?.map Col.ix = some (0, 0, 0) := fun t => by simp [Tab.removeAll]
  intro t
  have hmain : ∀ (l : List Op) (t : Tab), ((t.orbitonly = true ↔ ∀ c ∈ t.cols, c.ix.2.2 = 0) ∧ t.cols.head?.map Col.ix = some (0, 0, 0)) →
      (((l.foldl Tab.op t).orbitonly = true ↔ ∀ c ∈ (l.foldl Tab.op t).cols, c.ix.2.2 = 0) ∧
        (l.foldl Tab.op t).cols.head?.map Col.ix = some (0, 0, 0)) := by
    intro l
    induction l with
    | nil => exact fun t h => h
    | cons o l ih =>
      intro t h
      apply ih
      cases o with
      | add c => exact hadd t c h
      | removeAll => exact hrem t
      | useOrbit => exact hfold _ _ (hrem t)
      | useDefault => exact hfold _ _ (hrem t)
  exact hmain ops _ (hfold _ _ (hrem _))

/-- C182: `AddFunction` keeps the functions there are and adds the new one at the end. -/
theorem add_columns (t : Tab) (cs : List Ix) : (cs.foldl Tab.add t).cols.map Col.ix = t.cols.map Col.ix ++ cs := by
  induction cs generalizing t with
  | nil => simp
  | cons c cs ih => rw [List.foldl_cons, ih]; simp [Tab.add]

/-- C182: a function which is not in the table cannot be asked for: the end of the list is dereferenced. -/
theorem missing_undefined (t : Tab) (c : Ix) (n : Int) : t.value c n = .ub ↔ ∀ x ∈ t.cols, x.ix ≠ c := by
  rw [Tab.value, Tab.column]
  cases h : t.cols.find? fun x => decide (x.ix = c) with
  | none =>
    have := List.find?_eq_none.1 h
    simp only [true_iff]
    intro x hx
    simpa using this x hx
  | some x =>
    have h1 := List.find?_some h
    have h2 := List.mem_of_find?_eq_some h
    have : ∀ n, Col.at x n ≠ .ub := by
      intro n
      rw [Col.at]
      split
      · simp
      · split <;> simp
    simp only [this, false_iff, not_forall]
    exact ⟨x, h2, by simpa using h1⟩

/-- C182: if the functions of the table are different, the value is that of the row asked for; there is an exception outside. -/
theorem value_spec (t : Tab) (hd : (t.cols.map Col.ix).Nodup) (x : Col) (hx : x ∈ t.cols) (n : Nat) :
    (∀ v, t.value x.ix n = .ok v ↔ x.value[n]? = some v) ∧ (t.value x.ix n = .throw .range ↔ x.value.length ≤ n) := by
  have hf : t.column x.ix = some x := by
    rw [Tab.column]
    generalize t.cols = l at hd hx
    induction l with
    | nil => simp at hx
    | cons a l ih =>
      simp only [List.map_cons, List.nodup_cons] at hd
      rw [List.find?_cons]
      rcases List.mem_cons.1 hx with rfl | h
      · simp
      · have : a.ix ≠ x.ix := fun e => hd.1 (e ▸ List.mem_map_of_mem h)
        simp only [this, decide_false]
        exact ih hd.2 h
  rw [Tab.value, hf]
  simp only
  rw [Col.at, if_neg (by omega)]
  simp only [Int.toNat_natCast]
  cases h : x.value[n]? with
  | none =>
    have := List.getElem?_eq_none_iff.1 h
    simp [this]
  | some w =>
    have := (List.getElem?_eq_some_iff.1 h).1
    simp
    exact this

/-- C182: `GetSPosIndex` is the first row not before the place, or -1 if there is none. -/
theorem sIndex_spec (x : ℝ) (l : List ℝ) :
    (sIndex x 0 l = -1 ∧ ∀ s ∈ l, s < x) ∨ ∃ k s, sIndex x 0 l = (k : Nat) ∧ l[k]? = some s ∧ x ≤ s ∧ ∀ j r, j < k → l[j]? = some r → r < x := by
  have main : ∀ (l : List ℝ) (n : Nat), (sIndex x n l = -1 ∧ ∀ s ∈ l, s < x) ∨
      ∃ k s, sIndex x n l = ((n + k : Nat) : Int) ∧ l[k]? = some s ∧ x ≤ s ∧ ∀ j r, j < k → l[j]? = some r → r < x := by
    intro l
    induction l with
    | nil => exact fun n => Or.inl ⟨rfl, by simp⟩
    | cons a l ih =>
      intro n
      by_cases h : a ≥ x
      · refine Or.inr ⟨0, a, ?_, rfl, h, by omega⟩
        rw [sIndex, if_pos h]
        simp
      · rw [sIndex, if_neg h]
        rcases ih (n + 1) with ⟨h1, h2⟩ | ⟨k, s, h1, h2, h3, h4⟩
        · left
          refine ⟨h1, ?_⟩
          intro s hs
          rcases List.mem_cons.1 hs with rfl | hs
          · exact not_le.1 h
          · exact h2 s hs
        · right
          refine ⟨k + 1, s, by rw [h1]; congr 1; omega, by simpa using h2, h3, ?_⟩
          intro j r hj hr
          cases j with
          | zero =>
            simp only [List.getElem?_cons_zero, Option.some.injEq] at hr
            subst hr
            exact not_le.1 h
          | succ j => exact h4 j r (by omega) (by simpa using hr)
  simpa using main l 0

/-! ## Rows -/

/-- C182: the table of the orbit has a row at every component, with the length so far and the orbit there ... -/
theorem orbit_rows (cols : List Ix) (hv : ∀ x ∈ cols, Valid 6 true x) (cs : List Comp) (hcs : cs ≠ []) (s : ℝ) (p : PS) :
    ∃ l, orbitRows cols s p cs = .ok l ∧ l.length = cs.length ∧ ∀ m < cs.length, ∃ r, l[m]? = some r ∧
      row true (s + ((cs.take m).map Comp.len).sum) (Spec.behind ((cs.take m).map Comp.f) p) (0 : Matrix (Fin 6) (Fin 6) ℝ) cols = .ok r := by
  induction cs generalizing s p with
  | nil => exact absurd rfl hcs
  | cons c cs ih =>
    obtain ⟨r, hr⟩ := row_valid true s p (0 : Matrix (Fin 6) (Fin 6) ℝ) cols hv
    cases cs with
    | nil =>
      refine ⟨[r], by rw [orbitRows, hr]; rfl, rfl, ?_⟩
      intro m hm
      have : m = 0 := by simpa using hm
      subst this
      exact ⟨r, rfl, by simpa [Spec.behind] using hr⟩
    | cons c' cs =>
      obtain ⟨l, h1, h2, h3⟩ := ih (by simp) (s + c.len) (c.f p)
      refine ⟨r :: l, by rw [orbitRows, hr]; simp only [Outcome.bind, h1], by simp [h2], ?_⟩
      intro m hm
      cases m with
      | zero => exact ⟨r, rfl, by simpa [Spec.behind] using hr⟩
      | succ m =>
        obtain ⟨r', a1, a2⟩ := h3 m (by simpa using hm)
        refine ⟨r', by simpa using a1, ?_⟩
        rw [← a2]
        simp only [List.take_succ_cons, List.map_cons, List.sum_cons, behind_cons]
        congr 1
        ring

/-- C182 is violated: ... but, unlike the table with other functions, none behind the last one. -/
theorem end_row_violated : ∃ cs : List Comp, ∃ l l', orbitRows [(0, 0, 0)] 0 0 cs = .ok l ∧
    calculate (le_refl 6) 1 1 false true [(0, 0, 0)] 0 1 cs = .ok l' ∧ l = [[0]] ∧ l'.map Prod.snd = [[0], [2]] := by
  have hgrad : Spec.gradient (le_refl 6) (fun x : PS => x) 1 0 = 1 := by
    funext r c
    have := gradient_affine (le_refl 6) 1 one_ne_zero 0 1 0 r c
    simp only [Matrix.one_mulVec, add_zero] at this
    exact this
  obtain ⟨l, h1, h2, h3⟩ := table (le_refl 6) 1 1 one_ne_zero true [(0, 0, 0)] (by simp [Valid]) 0 1 [⟨2, id, 1⟩] (by simp) (by simp)
    (by
      intro m hm
      have : m = 0 ∨ m = 1 := by simp at hm; omega
      rcases this with rfl | rfl
      · have : Spec.gradient (le_refl 6) (Spec.behind ((([⟨2, id, 1⟩] : List Comp).take 0).map Comp.f)) 1 0 = 1 := hgrad
        rw [this]; simp
      · have : Spec.gradient (le_refl 6) (Spec.behind ((([⟨2, id, 1⟩] : List Comp).take 1).map Comp.f)) 1 0 = 1 := hgrad
        rw [this]; simp)
  refine ⟨[⟨2, id, 1⟩], [[0]], l, ?_, h1, rfl, ?_⟩
  · simp [orbitRows, row, value, Outcome.bind]
  · obtain ⟨N0, r0, a1, _, a3⟩ := h3 0 (by simp)
    obtain ⟨N1, r1, b1, _, b3⟩ := h3 1 (by simp)
    simp [row, value, Outcome.bind] at a3 b3
    match l, h2 with
    | [x, y], _ =>
      simp at a1 b1
      subst a1; subst b1
      simp [← a3, ← b3]

/-- C182 is violated: with `Symplectify` and motion in two planes only the calculation always ends with the exception of
matrices of different sizes. -/
theorem symplectify_planes_violated (delta p0 : ℝ) (hd : delta ≠ 0) (ok : Bool) (cols : List Ix) (p : PS) (nn : Matrix (Fin 4) (Fin 4) ℝ)
    (cs : List Comp) (hcs : cs ≠ []) : calculate (by decide : 4 ≤ 6) delta p0 true ok cols p nn cs = .throw .dimension := by
  have hq : quot (by decide : 4 ≤ 6) delta (fun c => scaled 4 p0 p0 (Orbit.shifted delta p c.val)) (scaled 4 p0 p0 p) = 1 := by
    funext r c
    rw [quot, scaled_same, scaled_same, Orbit.shifted, Matrix.one_apply]
    by_cases h : r = c
    · subst h
      simp [hd]
    · have : r.val ≠ c.val := fun e => h (Fin.ext e)
      simp [h, this]
  have hn : node (by decide : 4 ≤ 6) delta true (start delta p0 p nn) = .throw .dimension := by
    rcases LinAlg.inverse_spec (fun x : ℝ => |x|) (fun z => abs_nonneg z) (fun z => abs_eq_zero) (1 : Matrix (Fin 4) (Fin 4) ℝ) with
      ⟨_, h2⟩ | ⟨b, m, h1, _, _, _⟩
    · simp at h2
    · rw [node]
      simp only [start, hq, h1, if_true, symp, Outcome.bind]
  rw [calculate, if_neg (by simp [hd, hcs])]
  cases cs with
  | nil => exact absurd rfl hcs
  | cons c cs => rw [loop, hn]; rfl

/-! ## Mean values -/

theorem sums_cons (g : ℝ → ℝ → ℝ) (a b : ℝ × ℝ) (l : List (ℝ × ℝ)) : sums g (a :: b :: l) =
    ((b.1 - a.1) + (sums g (b :: l)).1, 1 / 2 * (b.1 - a.1) * g a.2 b.2 + (sums g (b :: l)).2) := rfl

theorem sums_length (g : ℝ → ℝ → ℝ) (a b : ℝ × ℝ) (l : List (ℝ × ℝ)) :
    (sums g (a :: b :: l)).1 = ((b :: l).getLast (by simp)).1 - a.1 := by
  induction l generalizing a b with
  | nil => simp [sums]
  | cons c l ih =>
    rw [sums]
    simp only [ih b c, List.getLast_cons_cons]
    ring

/-- C182: the default limits are those of the table. -/
theorem cut_all (l : List (ℝ × ℝ)) : cut l 0 (-1) = l := by
  have : ((l.length : Int) - 1 + 1).toNat = l.length := by omega
  simp [cut, limits, this]

/-- C182: limits within the table are kept. -/
theorem cut_within (l : List (ℝ × ℝ)) (n1 n2 k : Nat) (h1 : n1 ≤ n2) (h2 : n2 < l.length) : 
    (cut l n1 n2)[k]? = if n1 + k ≤ n2 then l[n1 + k]? else none := by
  have e : limits l.length n1 n2 = ((n1 : Int), (n2 : Int)) := by
    simp only [limits]
    rw [if_neg (by omega), if_neg (by omega)]
  rw [cut]
  simp only [e, Int.toNat_natCast]
  rw [List.getElem?_drop, List.getElem?_take, show ((n2 : Int) + 1).toNat = n2 + 1 from by omega]
  by_cases h : n1 + k ≤ n2
  · rw [if_pos (by omega), if_pos h]
  · rw [if_neg (by omega), if_neg h]

/-- C182: the mean of a function linear in the place is its value in the middle. -/
theorem mean_linear (l : List (ℝ × ℝ)) (n1 n2 : Int) (a b : ℝ × ℝ) (m : List (ℝ × ℝ)) (hl : cut l n1 n2 = a :: b :: m)
    (u w : ℝ) (hu : ∀ x ∈ l, x.2 = u + w * x.1) (h : a.1 ≠ ((b :: m).getLast (by simp)).1) :
    mean l n1 n2 = .ok (u + w * ((a.1 + ((b :: m).getLast (by simp)).1) / 2)) := by
  have hu' : ∀ x ∈ a :: b :: m, x.2 = u + w * x.1 := by
    intro x hx
    apply hu
    rw [← hl, cut] at hx
    exact List.mem_of_mem_take (List.mem_of_mem_drop hx)
  have hs : ∀ (m : List (ℝ × ℝ)) (a b : ℝ × ℝ), (∀ x ∈ a :: b :: m, x.2 = u + w * x.1) →
      (sums (fun a b => b + a) (a :: b :: m)).2 =
        (((b :: m).getLast (by simp)).1 - a.1) * (u + w * ((a.1 + ((b :: m).getLast (by simp)).1) / 2)) := by
    intro m
    induction m with
    | nil =>
      intro a b h
      simp only [sums, List.getLast_singleton]
      rw [h a (by simp), h b (by simp)]
      ring
    | cons c m ih =>
      intro a b h
      rw [sums]
      simp only [List.getLast_cons_cons]
      rw [ih b c (fun x hx => h x (List.mem_cons_of_mem _ hx)), h a (by simp), h b (by simp)]
      ring
  have hne : ((b :: m).getLast (by simp)).1 - a.1 ≠ 0 := sub_ne_zero.2 (Ne.symm h)
  simp only [mean, hl, sums_length, if_neg hne, hs m a b hu']
  congr 1
  field_simp

/-- C182: the mean lies within the bounds of the values, and its square is not greater than the mean square. -/
theorem mean_bounds (l : List (ℝ × ℝ)) (n1 n2 : Int) (hl : (cut l n1 n2).Pairwise (fun a b => a.1 < b.1)) (a b : ℝ × ℝ) (m : List (ℝ × ℝ))
    (hc : cut l n1 n2 = a :: b :: m) (lo hi : ℝ) (hb : ∀ x ∈ cut l n1 n2, lo ≤ x.2 ∧ x.2 ≤ hi) :
    ∃ v w, mean l n1 n2 = .ok v ∧ meanSquare l n1 n2 = .ok w ∧ lo ≤ v ∧ v ≤ hi ∧ v ^ 2 ≤ w := by
  rw [hc] at hl hb
  have key : ∀ (m : List (ℝ × ℝ)) (a b : ℝ × ℝ), (a :: b :: m).Pairwise (fun a b => a.1 < b.1) → (∀ x ∈ a :: b :: m, lo ≤ x.2 ∧ x.2 ≤ hi) →
      0 < (sums (fun a b => b + a) (a :: b :: m)).1 ∧
      (sums (fun a b => a * a + b * b) (a :: b :: m)).1 = (sums (fun a b => b + a) (a :: b :: m)).1 ∧
      lo * (sums (fun a b => b + a) (a :: b :: m)).1 ≤ (sums (fun a b => b + a) (a :: b :: m)).2 ∧
      (sums (fun a b => b + a) (a :: b :: m)).2 ≤ hi * (sums (fun a b => b + a) (a :: b :: m)).1 ∧
      ∀ v : ℝ, 2 * v * (sums (fun a b => b + a) (a :: b :: m)).2 - v ^ 2 * (sums (fun a b => b + a) (a :: b :: m)).1 ≤
        (sums (fun a b => a * a + b * b) (a :: b :: m)).2 := by
    have one : ∀ (a b : ℝ × ℝ), a.1 < b.1 → (lo ≤ a.2 ∧ a.2 ≤ hi) → (lo ≤ b.2 ∧ b.2 ≤ hi) →
        lo * (b.1 - a.1) ≤ 1 / 2 * (b.1 - a.1) * (b.2 + a.2) ∧ 1 / 2 * (b.1 - a.1) * (b.2 + a.2) ≤ hi * (b.1 - a.1) ∧
        ∀ v : ℝ, 2 * v * (1 / 2 * (b.1 - a.1) * (b.2 + a.2)) - v ^ 2 * (b.1 - a.1) ≤ 1 / 2 * (b.1 - a.1) * (a.2 * a.2 + b.2 * b.2) := by
      intro a b h1 h2 h3
      have h4 : 0 < b.1 - a.1 := sub_pos.2 h1
      refine ⟨by nlinarith, by nlinarith, fun v => ?_⟩
      have : 0 ≤ (b.1 - a.1) * ((a.2 - v) ^ 2 + (b.2 - v) ^ 2) := by positivity
      nlinarith
    intro m
    induction m with
    | nil =>
      intro a b h1 h2
      have hab : a.1 < b.1 := (List.pairwise_cons.1 h1).1 b (by simp)
      obtain ⟨o1, o2, o3⟩ := one a b hab (h2 a (by simp)) (h2 b (by simp))
      simp only [sums, add_zero]
      exact ⟨by linarith, trivial, o1, o2, o3⟩
    | cons c m ih =>
      intro a b h1 h2
      have hab : a.1 < b.1 := (List.pairwise_cons.1 h1).1 b (by simp)
      obtain ⟨o1, o2, o3⟩ := one a b hab (h2 a (by simp)) (h2 b (by simp))
      obtain ⟨i1, i2, i3, i4, i5⟩ := ih b c (List.pairwise_cons.1 h1).2 (fun x hx => h2 x (List.mem_cons_of_mem _ hx))
      rw [sums_cons (fun a b => b + a) a b (c :: m), sums_cons (fun a b => a * a + b * b) a b (c :: m)]
      refine ⟨by simp only; linarith, by simp only [i2], by simp only; linarith, by simp only; linarith, fun v => ?_⟩
      simp only
      linarith [o3 v, i5 v]
  obtain ⟨k1, k2, k3, k4, k5⟩ := key m a b hl hb
  refine ⟨_, _, by simp only [mean, hc]; rw [if_neg k1.ne'], by simp only [meanSquare, hc]; rw [if_neg (by rw [k2]; exact k1.ne')], ?_, ?_, ?_⟩
  · rw [le_div_iff₀ k1]; exact k3
  · rw [div_le_iff₀ k1]; exact k4
  · rw [k2, le_div_iff₀ k1]
    have := k5 ((sums (fun a b => b + a) (a :: b :: m)).2 / (sums (fun a b => b + a) (a :: b :: m)).1)
    set S := (sums (fun a b => b + a) (a :: b :: m)).1
    set T := (sums (fun a b => b + a) (a :: b :: m)).2
    have e : 2 * (T / S) * T - (T / S) ^ 2 * S = (T / S) ^ 2 * S := by
      field_simp
      ring
    linarith

/-- C182: without two rows at different places there is no mean. -/
theorem mean_empty (l : List (ℝ × ℝ)) (n1 n2 : Int) (h : (cut l n1 n2).length ≤ 1) : mean l n1 n2 = .ub ∧ meanSquare l n1 n2 = .ub := by
  have : ∀ g, sums g (cut l n1 n2) = (0, 0) := by
    intro g
    match cut l n1 n2, h with
    | [], _ => rfl
    | [_], _ => rfl
  simp [mean, meanSquare, this]

/-! ## Derivative by the energy -/

theorem passes_rest {c : Nat} (hc : c ≤ 6) (solve : Orbit.Solver ℝ c) (f : Orbit.PS ℝ → Orbit.PS ℝ) (delta tol : ℝ) :
    ∀ (n : Nat) (s s' : Orbit.State ℝ), Orbit.passes hc solve f delta tol n s = .ok s' → Orbit.Spec.SameRest c s'.p s.p
  | 0, s, s', h => by
    rw [Orbit.passes, Outcome.ok.injEq] at h
    subst h
    exact fun _ _ => rfl
  | n + 1, s, s', h => by
    rw [Orbit.passes] at h
    split at h
    · cases h1 : Orbit.pass hc solve f delta s with
      | throw e => rw [h1] at h; cases h
      | ub => rw [h1] at h; cases h
      | ok t =>
        rw [h1] at h
        have h2 := passes_rest hc solve f delta tol n t s' h
        rw [Orbit.pass] at h1
        split at h1
        · cases h1
        · cases h3 : solve (Orbit.dg hc f delta s.p) (Orbit.gap hc f s.p) with
          | throw e => rw [h3] at h1; cases h1
          | ub => rw [h3] at h1; cases h1
          | ok g =>
            rw [h3] at h1
            simp only [Outcome.bind, Outcome.ok.injEq] at h1
            subst h1
            exact Orbit.same_trans h2 (Orbit.same_correct s.p g)
    · rw [Outcome.ok.injEq] at h
      subst h
      exact fun _ _ => rfl

/-- C182 is violated: the derivative by the energy divides by zero for every function but the place, since both closed orbits
are those of the energy zero. -/
theorem energy_derivative_violated (c : Ix) (hc : c ≠ (0, 0, 0)) (solve : Orbit.Solver ℝ 4) (fP fM : Orbit.PS ℝ → Orbit.PS ℝ) (delta tol : ℝ)
    (maxIter : Nat) (sP sM : Orbit.State ℝ)
    (hP : Orbit.findOrbit (by decide) solve fP delta tol maxIter 0 = .ok sP)
    (hM : Orbit.findOrbit (by decide) solve fM delta tol maxIter 0 = .ok sM)
    (valuesP valuesM : PS → List ℝ) (h : valuesP sP.p ≠ []) :
    energyDerivative c (Orbit.findOrbit (by decide) solve fP delta tol maxIter 0) (Orbit.findOrbit (by decide) solve fM delta tol maxIter 0)
      valuesP valuesM = .ub := by
  rw [hP, hM, energyDerivative]
  have h1 := passes_rest (by decide) solve fP delta tol _ _ _ hP 5 (by decide)
  have h2 := passes_rest (by decide) solve fM delta tol _ _ _ hM 5 (by decide)
  simp only [h1, h2, sub_self]
  cases hp : valuesP sP.p with
  | nil => exact absurd hp h
  | cons a l =>
    cases valuesM sM.p with
    | nil => rfl
    | cons b m => rw [derivative, if_neg hc, if_pos rfl]

/-- C182: apart from that the derivative is the quotient of the differences, and the places are kept. -/
theorem derivative_spec (c : Ix) (dp : ℝ) (hdp : dp ≠ 0) (ms ps : List ℝ) (h : ms.length = ps.length) :
    derivative c dp ms ps = .ok (if c = (0, 0, 0) then ms else List.zipWith (fun m p => (p - m) / dp) ms ps) := by
  induction ms generalizing ps with
  | nil =>
    cases ps with
    | nil => simp [derivative]
    | cons p ps => simp at h
  | cons m ms ih =>
    cases ps with
    | nil => simp at h
    | cons p ps =>
      rw [derivative, ih ps (by simpa using h)]
      by_cases hc : c = (0, 0, 0)
      · simp [hc, Outcome.bind]
      · simp [hc, hdp, Outcome.bind]

/-! ## Phase advance -/

theorem counts_spec (x last : ℝ) (hx : 0 < x) (hl : 0 ≤ last) : counts x last = true ↔ x < 9999 / 10000 * last := by
  simp only [counts, Bool.and_eq_true, Bool.not_eq_true', Bool.or_eq_false_iff, decide_eq_false_iff_not, decide_eq_true_eq]
  constructor
  · rintro ⟨⟨_, h1⟩, h2⟩
    have : 0 < last := hx.trans h1
    rwa [div_lt_iff₀ this] at h2
  · intro h
    have h1 : x < last := by nlinarith
    have : 0 < last := hx.trans h1
    refine ⟨⟨⟨h1.ne, not_le.2 hx⟩, h1⟩, ?_⟩
    rwa [div_lt_iff₀ this]

theorem turns_floor (mu : Nat → ℝ) (h1 : ⌊mu 1⌋ = 0) (k : Nat) (hk : 1 ≤ k)
    (hstep : ∀ i, 1 ≤ i → i < k → mu i ≤ mu (i + 1) ∧ mu (i + 1) < mu i + 9999 / 10000) (hz : ∀ i, 2 ≤ i → i ≤ k → Int.fract (mu i) ≠ 0) :
    turns (fun i => Int.fract (mu i)) k = (⌊mu k⌋.toNat, Int.fract (mu k)) ∧ 0 ≤ ⌊mu k⌋ := by
  induction k with
  | zero => omega
  | succ k ih =>
    by_cases hk0 : k = 0
    · subst hk0
      have := Int.fract_nonneg (mu 1)
      have hc : ¬ counts (Int.fract (mu 1)) 0 = true := by
        simp only [counts, Bool.and_eq_true, decide_eq_true_eq]
        rintro ⟨⟨_, h⟩, _⟩
        linarith
      simp [turns, h1, hc]
    · obtain ⟨ih1, ih2⟩ := ih (by omega) (fun i a b => hstep i a (by omega)) (fun i a b => hz i a (by omega))
      obtain ⟨s1, s2⟩ := hstep k (by omega) (by omega)
      have z := hz (k + 1) (by omega) (le_refl _)
      have f0 := Int.fract_nonneg (mu k)
      have f1 := Int.fract_lt_one (mu k)
      have g0 := Int.fract_nonneg (mu (k + 1))
      have g1 := Int.fract_lt_one (mu (k + 1))
      have gp : 0 < Int.fract (mu (k + 1)) := lt_of_le_of_ne g0 (Ne.symm z)
      have e1 := Int.floor_add_fract (mu k)
      have e2 := Int.floor_add_fract (mu (k + 1))
      have le : ⌊mu k⌋ ≤ ⌊mu (k + 1)⌋ := Int.floor_le_floor s1
      have up : ⌊mu (k + 1)⌋ ≤ ⌊mu k⌋ + 1 := by
        by_contra hcon
        have : (⌊mu k⌋ : ℝ) + 2 ≤ ⌊mu (k + 1)⌋ := by exact_mod_cast (by omega : ⌊mu k⌋ + 2 ≤ ⌊mu (k + 1)⌋)
        linarith
      rw [turns, ih1]
      simp only
      refine ⟨?_, by omega⟩
      rcases (by omega : ⌊mu (k + 1)⌋ = ⌊mu k⌋ ∨ ⌊mu (k + 1)⌋ = ⌊mu k⌋ + 1) with e | e
      · have : ¬ counts (Int.fract (mu (k + 1))) (Int.fract (mu k)) = true := by
          rw [counts_spec _ _ gp f0]
          rw [e] at e2
          linarith
        rw [if_neg this, e]
        simp
      · have : counts (Int.fract (mu (k + 1))) (Int.fract (mu k)) = true := by
          rw [counts_spec _ _ gp f0]
          rw [e] at e2
          push_cast at e2
          linarith
        rw [if_pos this, e]
        congr 1
        omega

/-- C183 (partial: all phases behind the first component are no whole numbers of turns, the first two rows are in the first
turn and no step reaches 0.9999 of a turn): the phase given for a row has the right fraction and the whole turns of the row
before it. -/
theorem total_phase_partial (mu : Nat → ℝ) (h1 : ⌊mu 1⌋ = 0) (n : Nat) (hn : 2 ≤ n)
    (hstep : ∀ i, 1 ≤ i → i + 1 < n → mu i ≤ mu (i + 1) ∧ mu (i + 1) < mu i + 9999 / 10000)
    (hz : ∀ i, 2 ≤ i → i < n → Int.fract (mu i) ≠ 0) :
    totalPhase (fun i => Int.fract (mu i)) n = mu n - (⌊mu n⌋ - ⌊mu (n - 1)⌋) := by
  obtain ⟨h2, h3⟩ := turns_floor mu h1 (n - 1) (by omega) (fun i a b => hstep i a (by omega)) (fun i a b => hz i a (by omega))
  rw [totalPhase, h2]
  simp only
  have : ((⌊mu (n - 1)⌋.toNat : ℕ) : ℝ) = ⌊mu (n - 1)⌋ := by
    have : ((⌊mu (n - 1)⌋.toNat : ℕ) : ℤ) = ⌊mu (n - 1)⌋ := Int.toNat_of_nonneg h3
    exact_mod_cast this
  rw [this]
  have := Int.floor_add_fract (mu n)
  linarith

/-- C183 (partial, as above): if neither row begins a new turn the phase advance between two rows is the true one. -/
theorem between_partial (mu : Nat → ℝ) (h1 : ⌊mu 1⌋ = 0) (n1 n2 : Nat) (hn1 : 2 ≤ n1) (hn : n1 ≤ n2)
    (hstep : ∀ i, 1 ≤ i → i + 1 < n2 → mu i ≤ mu (i + 1) ∧ mu (i + 1) < mu i + 9999 / 10000)
    (hz : ∀ i, 2 ≤ i → i < n2 → Int.fract (mu i) ≠ 0)
    (e1 : ⌊mu n1⌋ = ⌊mu (n1 - 1)⌋) (e2 : ⌊mu n2⌋ = ⌊mu (n2 - 1)⌋) :
    between (fun i => Int.fract (mu i)) n1 n2 = mu n2 - mu n1 := by
  rw [between, total_phase_partial mu h1 n1 hn1 (fun i a b => hstep i a (by omega)) (fun i a b => hz i a (by omega)),
    total_phase_partial mu h1 n2 (by omega) hstep hz, e1, e2]
  ring

/-- C183: the phase advances of two stretches add. -/
theorem between_add (v : Nat → ℝ) (a b c : Nat) : between v a b + between v b c = between v a c ∧ between v a a = 0 := by
  simp only [between]
  exact ⟨by ring, by ring⟩

/-- C183 is violated: a turn which ends between a row and the one before it is not counted: with steps of 0.4 of a turn the
phases of rows 2, 3 and 4 are given as 0.8, 0.2 and 1.6, and the advance from row 3 to row 4 as 1.4 turns. -/
theorem last_turn_violated : ∃ mu : Nat → ℝ, (∀ i, mu i = 2 / 5 * i) ∧
    totalPhase (fun i => Int.fract (mu i)) 2 = 4 / 5 ∧ totalPhase (fun i => Int.fract (mu i)) 3 = 1 / 5 ∧
    totalPhase (fun i => Int.fract (mu i)) 4 = 8 / 5 ∧ between (fun i => Int.fract (mu i)) 3 4 = 7 / 5 := by
  have f1 : ⌊(2 / 5 * (1 : Nat) : ℝ)⌋ = 0 := by rw [Int.floor_eq_iff]; norm_num
  have f2 : ⌊(2 / 5 * (2 : Nat) : ℝ)⌋ = 0 := by rw [Int.floor_eq_iff]; norm_num
  have f3 : ⌊(2 / 5 * (3 : Nat) : ℝ)⌋ = 1 := by rw [Int.floor_eq_iff]; norm_num
  have f4 : ⌊(2 / 5 * (4 : Nat) : ℝ)⌋ = 1 := by rw [Int.floor_eq_iff]; norm_num
  have hs : ∀ i : Nat, (2 / 5 * i : ℝ) ≤ 2 / 5 * (i + 1 : Nat) ∧ (2 / 5 * (i + 1 : Nat) : ℝ) < 2 / 5 * i + 9999 / 10000 := by
    intro i; push_cast; constructor <;> linarith
  have hz : ∀ i : Nat, 2 ≤ i → i < 4 → Int.fract (2 / 5 * i : ℝ) ≠ 0 := by
    intro i h1 h2
    rcases (by omega : i = 2 ∨ i = 3) with rfl | rfl
    · rw [Int.fract, f2]; norm_num
    · rw [Int.fract, f3]; norm_num
  have t2 := total_phase_partial (fun i => (2 / 5 * i : ℝ)) f1 2 (by norm_num) (fun i _ _ => hs i) (fun i a b => hz i a (by omega))
  have t3 := total_phase_partial (fun i => (2 / 5 * i : ℝ)) f1 3 (by norm_num) (fun i _ _ => hs i) (fun i a b => hz i a (by omega))
  have t4 := total_phase_partial (fun i => (2 / 5 * i : ℝ)) f1 4 (by norm_num) (fun i _ _ => hs i) (fun i a b => hz i a (by omega))
  simp only [show (2 - 1 : Nat) = 1 from rfl, show (3 - 1 : Nat) = 2 from rfl, show (4 - 1 : Nat) = 3 from rfl] at t2 t3 t4
  rw [f1, f2] at t2
  rw [f2, f3] at t3
  rw [f3, f4] at t4
  norm_num at t2 t3 t4
  refine ⟨fun i => 2 / 5 * i, fun _ => rfl, t2, t3, t4, ?_⟩
  rw [between, t3, t4]
  norm_num

/-- C183 is violated: a phase of exactly a whole number of turns hides the turn: with steps of half a turn the phase of row 3
is given as one half. -/
theorem whole_turn_violated : ∃ mu : Nat → ℝ, (∀ i, mu i = 1 / 2 * i) ∧ totalPhase (fun i => Int.fract (mu i)) 3 = 1 / 2 := by
  have f1 : Int.fract (1 / 2 * (1 : Nat) : ℝ) = 1 / 2 := by rw [Int.fract_eq_iff]; exact ⟨by norm_num, by norm_num, 0, by norm_num⟩
  have f2 : Int.fract (1 / 2 * (2 : Nat) : ℝ) = 0 := by rw [Int.fract_eq_iff]; exact ⟨by norm_num, by norm_num, 1, by norm_num⟩
  have f3 : Int.fract (1 / 2 * (3 : Nat) : ℝ) = 1 / 2 := by rw [Int.fract_eq_iff]; exact ⟨by norm_num, by norm_num, 1, by norm_num⟩
  refine ⟨fun i => 1 / 2 * i, fun _ => rfl, ?_⟩
  rw [totalPhase]
  simp only [show (3 - 1 : Nat) = 2 from rfl, turns, zero_add, f1, f2, f3, Nat.reduceAdd]
  norm_num [counts]

/-! ## Examples -/

/-- The default functions can be had for stable motion ... -/
example : ∀ x ∈ Tab.new.cols.map Col.ix, Valid 6 true x := by
  simp [Tab.new, Tab.useDefault, Tab.removeAll, Tab.add, Valid]

/-- ... and the phases too. -/
example : Valid 6 true (0, 0, 1) ∧ Valid 6 true (0, 0, 3) ∧ Valid 4 false (0, 0, 2) ∧ ¬ Valid 4 false (1, 6, 3) := by
  simp [Valid]

/-- A drift. -/
def drift (len : ℝ) : Matrix (Fin 6) (Fin 6) ℝ := Matrix.transvection 0 1 len

/-- Two drifts of 2 and 3: the table can be made, and beta behind them is `1 + 5 ^ 2` if it is 1 at the start. -/
example : ∃ l N r, calculate (le_refl 6) (1 / 1000) 1 false true [(0, 0, 0), (1, 1, 1)] 0 1
      [⟨2, (drift 2).mulVec, 1⟩, ⟨3, (drift 3).mulVec, 1⟩] = .ok l ∧ l[2]? = some (N, r) ∧ r[1]? = some 26 := by
  have g : ∀ T : Matrix (Fin 6) (Fin 6) ℝ, Spec.gradient (le_refl 6) T.mulVec (1 / 1000) 0 = T := by
    intro T
    funext r c
    have := gradient_affine (le_refl 6) (1 / 1000) (by norm_num) 0 T 0 r c
    simp only [add_zero] at this
    exact this
  have g0 : Spec.gradient (le_refl 6) (Spec.behind ((([⟨2, (drift 2).mulVec, 1⟩, ⟨3, (drift 3).mulVec, 1⟩] : List Comp).take 0).map Comp.f))
      (1 / 1000) 0 = 1 := by
    have := g 1
    rw [← this]
    congr 1
    funext x
    simp [Spec.behind]
  have g1 : Spec.gradient (le_refl 6) (Spec.behind ((([⟨2, (drift 2).mulVec, 1⟩, ⟨3, (drift 3).mulVec, 1⟩] : List Comp).take 1).map Comp.f))
      (1 / 1000) 0 = drift 2 := g (drift 2)
  have g2 : Spec.gradient (le_refl 6) (Spec.behind ((([⟨2, (drift 2).mulVec, 1⟩, ⟨3, (drift 3).mulVec, 1⟩] : List Comp).take 2).map Comp.f))
      (1 / 1000) 0 = drift 3 * drift 2 := by
    rw [← g (drift 3 * drift 2)]
    congr 1
    funext x
    simp [Spec.behind]
  have d2 : ∀ c, (drift c).det = 1 := fun c => Matrix.det_transvection_of_ne _ _ (by decide) c
  obtain ⟨l, h1, h2, h3⟩ := table (le_refl 6) (1 / 1000) 1 (by norm_num) true [(0, 0, 0), (1, 1, 1)] (by simp [Valid]) 0 1
    [⟨2, (drift 2).mulVec, 1⟩, ⟨3, (drift 3).mulVec, 1⟩] (by simp) (by simp) (by
      intro m hm
      have : m = 0 ∨ m = 1 ∨ m = 2 := by simp at hm; omega
      rcases this with rfl | rfl | rfl
      · rw [g0]; simp
      · rw [g1, d2]; norm_num
      · rw [g2, Matrix.det_mul, d2, d2]; norm_num)
  obtain ⟨N, r, a1, a2, a3⟩ := h3 2 (by simp)
  refine ⟨l, N, r, h1, a1, ?_⟩
  obtain ⟨_, h4⟩ := row_values _ _ _ _ _ _ a3
  obtain ⟨v, h5, h6⟩ := h4 1 (1, 1, 1) rfl
  have h7 := value_twiss (d := 3) true ((([⟨2, (drift 2).mulVec, 1⟩, ⟨3, (drift 3).mulVec, 1⟩] : List Comp).take 2).map Comp.len).sum
    (Spec.behind ((([⟨2, (drift 2).mulVec, 1⟩, ⟨3, (drift 3).mulVec, 1⟩] : List Comp).take 2).map Comp.f) 0) N 0 0 0 (by simp)
  have h8 : (Outcome.ok v : Outcome Err ℝ) = Outcome.ok (Spec.twiss N 0 0 (ix (0 : Fin 3) 0) (ix (0 : Fin 3) 1)) := by rw [← h6]; exact h7
  rw [Outcome.ok.injEq] at h8
  rw [h5, h8, a2, g2, Matrix.mul_one, drift, drift, Matrix.transvection_mul_transvection_same _ _ (by decide)]
  have i0 : ix (0 : Fin 3) 0 = (0 : Fin 6) := rfl
  have i1 : ix (0 : Fin 3) 1 = (1 : Fin 6) := rfl
  simp only [Spec.twiss, i0, i1, Matrix.transvection, Matrix.add_apply, Matrix.one_apply, Matrix.single_apply]
  norm_num

/-- A turn with a phase advance of `phi` in one plane. -/
example (phi : ℝ) : ∃ (ev : Fin 3 → Fin 6 → ℂ) (lam : Fin 1 → ℂ) (G : Matrix (Fin (2 * 1)) (Fin (2 * 1)) ℝ),
    (∀ c r, ∑ x, (G r x : ℂ) * vec (by decide) ev c x = lam c * vec (by decide) ev c r) ∧ (∀ c, ‖lam c‖ = 1) ∧
    ∀ c, vec (d := 1) (by decide) ev c (ix c 0) ≠ 0 := by
  refine ⟨fun _ i => if i = 0 then 1 else Complex.I, fun _ => Complex.exp (phi * Complex.I),
    !![Real.cos phi, Real.sin phi; -Real.sin phi, Real.cos phi], ?_, ?_, ?_⟩
  · intro c r
    have e : Complex.exp (phi * Complex.I) = Complex.cos phi + Complex.sin phi * Complex.I := Complex.exp_mul_I _
    fin_cases r
    · simp [vec, Fin.sum_univ_two, e]
    · simp [vec, Fin.sum_univ_two, e]
      ring_nf
      rw [Complex.I_sq]
      ring
  · exact fun _ => Complex.norm_exp_ofReal_mul_I _
  · intro c
    fin_cases c
    simp [vec, ix]

/-- A component which doubles the momentum. -/
example : (∀ c ∈ [(⟨1, id, 2⟩ : Comp)], 0 < c.e ∧ ∀ (r : ℝ) x, c.f (r • x) = r • c.f x) ∧ momentum 1 [(⟨1, id, 2⟩ : Comp)] = 2 := by
  simp [momentum]

/-- A list of calls. -/
example : ([Op.useOrbit, Op.add (5, 0, 0)].foldl Tab.op Tab.new).orbitonly = true ∧
    ([Op.useOrbit, Op.add (0, 0, 1)].foldl Tab.op Tab.new).orbitonly = false := by
  simp [Tab.op, Tab.useOrbit, Tab.new, Tab.useDefault, Tab.removeAll, Tab.add]

/-- A table with different functions. -/
example : (Tab.new.cols.map Col.ix).Nodup := by
  simp [Tab.new, Tab.useDefault, Tab.removeAll, Tab.add]

/-- The mean of `1 + 2 s` from 0 to 2. -/
example : mean [(0, 1), (1, 3), (2, 5)] 0 (-1) = .ok 3 := by
  rw [mean_linear [(0, 1), (1, 3), (2, 5)] 0 (-1) (0, 1) (1, 3) [(2, 5)] (cut_all _) 1 2 (by norm_num) (by norm_num)]
  norm_num

/-- Places which grow. -/
example : (cut [((0 : ℝ), (1 : ℝ)), (1, 3), (2, 5)] 0 (-1)).Pairwise (fun a b => a.1 < b.1) := by
  rw [cut_all]
  norm_num

/-- Steps of 0.3 of a turn: the phase of row 6 is 1.8 turns. -/
example : totalPhase (fun i => Int.fract (3 / 10 * i : ℝ)) 6 = 9 / 5 := by
  have f1 : ⌊(3 / 10 * (1 : Nat) : ℝ)⌋ = 0 := by rw [Int.floor_eq_iff]; norm_num
  have f5 : ⌊(3 / 10 * (5 : Nat) : ℝ)⌋ = 1 := by rw [Int.floor_eq_iff]; norm_num
  have f6 : ⌊(3 / 10 * (6 : Nat) : ℝ)⌋ = 1 := by rw [Int.floor_eq_iff]; norm_num
  have h := total_phase_partial (fun i => (3 / 10 * i : ℝ)) f1 6 (by norm_num) (fun i _ _ => by push_cast; constructor <;> linarith) (by
    intro i h1 h2 h
    obtain ⟨_, _, z, hz⟩ := Int.fract_eq_iff.1 h
    have : (3 * i : ℤ) = 10 * z := by
      have : (3 * i : ℝ) = 10 * z := by linarith
      exact_mod_cast this
    omega)
  simp only [show (6 - 1 : Nat) = 5 from rfl] at h
  rw [f5, f6] at h
  rw [h]
  norm_num

end Verif.Twiss
