import Mathlib.Analysis.SpecialFunctions.Trigonometric.Bounds
import Mathlib.Analysis.SpecialFunctions.Trigonometric.DerivHyp
import Mathlib.Tactic.NormNum
import Verif.Beam.Lemmas

/-!
# Properties of beam parameters and beam matrices
-/

namespace Verif.Beam
open Verif Real Verif.LinMap.Spec Verif.Transport.Spec Verif.Beam.Spec

/-! ## C105: coupling -/

/-- The coupling matrix preserves areas, for every value of the parameters. -/
theorem coupling_symplectic (a b c d : ℝ) : Symplectic 6 (couplingMatrix a b c d) := by
  obtain ⟨h, z, e, h1, -⟩ := coupling_cpl a b c d
  refine same_symplectic h1 (cpl_symplectic _ _ _ _ _ ?_)
  linear_combination e

/-- The matrix of the negated parameters is the inverse. -/
theorem coupling_inverse (a b c d : ℝ) :
    Same 6 (prod (couplingMatrix a b c d) (couplingMatrix (-a) (-b) (-c) (-d))) one := by
  obtain ⟨h, z, e, h1, h2⟩ := coupling_cpl a b c d
  intro i j hi hj
  rw [prod_same h1 h2 i j hi hj]
  have := cpl_inverse h (a * z) (b * z) (c * z) (d * z) (by linear_combination e) i j hi hj
  simpa only [neg_mul] using this

/-- Entries for a determinant above zero. -/
theorem coupling_entries (b : ℝ) (hb : 0 < b) (a : ℝ) : couplingMatrix a b b 0 0 0 = cos b ∧
    couplingMatrix a b b 0 0 2 = a * (sin b / b) ∧ couplingMatrix a b b 0 0 3 = sin b := by
  have e : b * b - a * 0 = b * b := by ring
  have h : 0 < b * b := by positivity
  have s : √(b * b) = b := sqrt_mul_self hb.le
  simp only [couplingMatrix, e, if_neg h.ne', if_pos h, s]
  refine ⟨by simp [couplingBody, set], by simp [couplingBody, set], ?_⟩
  simp [couplingBody, set]
  field_simp

/-- A determinant of zero is taken for the absence of coupling: the parameter `a` alone has no effect, although it has
with the smallest of other parameters. -/
theorem coupling_singular_violated : (∀ a, couplingMatrix a 0 0 0 = identity) ∧
    ∀ ε : ℝ, 0 < ε → ε ≤ 1 → 3 / 4 ≤ couplingMatrix 1 ε ε 0 0 2 := by
  refine ⟨fun a => by simp [couplingMatrix], fun ε h0 h1 => ?_⟩
  rw [(coupling_entries ε h0 1).2.1, one_mul, le_div_iff₀ h0]
  have := sin_gt_sub_cube h0
  have h2 : ε ^ 3 / 6 ≤ ε / 6 := by
    have : ε ^ 3 ≤ ε := by nlinarith [mul_nonneg h0.le (sub_nonneg.2 h1)]
    linarith
  linarith

/-! ## C106: the matrix of a beam -/

/-- The transformation preserves areas in the transverse coordinates. -/
theorem normal_symplectic (t : BeamData) (hx : 0 < t.beta_x) (hy : 0 < t.beta_y) :
    Symplectic 4 (normalTransform t) := by
  have hC := coupling_symplectic t.c_xy t.c_xyp t.c_xpy t.c_xpyp
  obtain ⟨h, z, -, h1, -⟩ := coupling_cpl t.c_xy t.c_xyp t.c_xpy t.c_xpyp
  have px := (sqrt_pos.2 hx).ne'
  have py := (sqrt_pos.2 hy).ne'
  intro i j hi hj
  have hij := hC i j (by omega) (by omega)
  have c5 : ∀ k, k < 4 → couplingMatrix t.c_xy t.c_xyp t.c_xpy t.c_xpyp 5 k = 0 ∧
      couplingMatrix t.c_xy t.c_xyp t.c_xpy t.c_xpyp 4 k = 0 := by
    intro k hk
    rw [h1 5 k (by decide) (by omega), h1 4 k (by decide) (by omega)]
    interval_cases k <;> simp [cpl]
  rw [show 6 / 2 = 3 from rfl, sum3] at hij
  rw [show 4 / 2 = 2 from rfl, sum2]
  rw [← hij]
  simp only [normal_rows t (2 * 0) _ (by decide), normal_rows t (2 * 0 + 1) _ (by decide),
    normal_rows t (2 * 1) _ (by decide), normal_rows t (2 * 1 + 1) _ (by decide)]
  simp only [nrow, (c5 i hi).1, (c5 j hj).1, (c5 i hi).2, (c5 j hj).2]
  field_simp
  ring

/-- `InverseBetaTransform` undoes the factors of the optics functions. -/
theorem inverse_beta (bx cy ax ay : ℝ) (hx : 0 < bx) (hy : 0 < cy) :
    Same 6 (prod (inverseBeta bx cy ax ay) (prod (betaMatrix bx cy) (alphaMatrix ax ay))) one := by
  have px := (sqrt_pos.2 hx).ne'
  have py := (sqrt_pos.2 hy).ne'
  intro i j hi hj
  rw [prod_eq]
  simp only [prod_eq, inverseBeta, betaMatrix, alphaMatrix]
  generalize √bx = u at *
  generalize √cy = v at *
  interval_cases i <;> interval_cases j <;> simp [set, identity, one] <;> (try field_simp) <;> (try ring)

/-- The second moments of an uncoupled beam are those of its optics functions, emittances and dispersion. -/
theorem beam_moments (t : BeamData) (hc : Uncoupled t) (hx : 0 < t.beta_x) (hy : 0 < t.beta_y) (i j : Nat)
    (hi : i < 6) (hj : j < 6) : el (toSigma t).cov i j = beamSigma t i j :=
  toSigma_uncoupled_eq t hc hx hy i j hi hj

/-- For every beam the second moments are the transformed squares of the emittances and spreads. -/
theorem beam_moments_coupled (t : BeamData) (i j : Nat) (hi : i < 6) (hj : j < 6) :
    el (toSigma t).cov i j = sumTo 6 fun k => normalTransform t i k * normalTransform t j k *
      (![t.emit_x, t.emit_x, t.emit_y, t.emit_y, t.sig_z ^ 2, t.sig_dp ^ 2] : Fin 6 → ℝ) (Fin.ofNat 6 k) := by
  rw [el_toSigma t i j hi hj, sum6, sum6]
  rfl

/-! ## C107: back to the parameters of the beam -/

/-- The parameters of an uncoupled beam with different emittances are found again, apart from `ct0` and `p0`. -/
theorem beam_round_trip_partial (t : BeamData) (hc : Uncoupled t) (hx : 0 < t.beta_x) (hy : 0 < t.beta_y)
    (ex : 0 < t.emit_x) (ey : 0 < t.emit_y) (hne : t.emit_x ≠ t.emit_y) (hz : 0 ≤ t.sig_z) (hp : 0 ≤ t.sig_dp)
    (hd : t.sig_dp ≠ 0 ∨ (t.Dx = 0 ∧ t.Dxp = 0 ∧ t.Dy = 0 ∧ t.Dyp = 0)) (n : Nat) :
    toBeam (n + 1) (toSigma t) = .ok { t with ct0 := 0, p0 := 0 } := by
  have hb := fun i j hi hj => beam_moments t hc hx hy i j hi hj
  obtain ⟨r1, r2⟩ := removeDispersion_eq t _ hb hd
  have hs := decoupleStep_plain t _ r2 hx hy
  have hn : ¬ (t.emit_y ^ 2 - t.emit_x ^ 2 = 0) := by
    intro h
    have : (t.emit_y - t.emit_x) * (t.emit_y + t.emit_x) = 0 := by linear_combination h
    rcases mul_eq_zero.1 this with h | h
    · exact hne (by linarith)
    · linarith
  rw [if_neg hn] at hs
  have he : decouple (n + 1) (removeDispersion (toSigma t).cov).2 identity =
      .ok (prod identity identity, applyMat identity (removeDispersion (toSigma t).cov).2) := by
    rw [decouple, hs]
    simp only [neg_zero, coupling_zero]
    rw [if_neg (by norm_num)]
  have hS : ∀ i j, i < 6 → j < 6 → el (applyMat identity (removeDispersion (toSigma t).cov).2) i j = plain t i j :=
    fun i j hi hj => by rw [applyMat_identity _ i j hi hj, r2 i j hi hj]
  obtain ⟨p1, p2⟩ := plain_det t hx hy
  have e1 : projectedEmittance (applyMat identity (removeDispersion (toSigma t).cov).2) 0 1 = t.emit_x := by
    unfold projectedEmittance
    rw [hS 0 0 (by decide) (by decide), hS 1 1 (by decide) (by decide), hS 0 1 (by decide) (by decide), p1,
      sqrt_sq ex.le]
  have e2 : projectedEmittance (applyMat identity (removeDispersion (toSigma t).cov).2) 2 3 = t.emit_y := by
    unfold projectedEmittance
    rw [hS 2 2 (by decide) (by decide), hS 3 3 (by decide) (by decide), hS 2 3 (by decide) (by decide), p2,
      sqrt_sq ey.le]
  have e4 : √(el (toSigma t).cov 4 4) = t.sig_z := by
    rw [hb 4 4 (by decide) (by decide)]
    simp [beamSigma, twiss, disp, sqrt_sq hz]
  have e5 : √(el (toSigma t).cov 5 5) = t.sig_dp := by
    rw [hb 5 5 (by decide) (by decide)]
    simp [beamSigma, twiss, disp, sqrt_sq hp]
  have i00 : prod identity identity 0 0 = 1 := by rw [prod_eq]; simp [identity]
  have i02 : prod identity identity 0 2 = 0 := by rw [prod_eq]; simp [identity]
  have i03 : prod identity identity 0 3 = 0 := by rw [prod_eq]; simp [identity]
  have i12 : prod identity identity 1 2 = 0 := by rw [prod_eq]; simp [identity]
  have i13 : prod identity identity 1 3 = 0 := by rw [prod_eq]; simp [identity]
  unfold toBeam
  simp only [he, Outcome.bind, e1, e2, e4, e5, r1, i02, i03, i12, i13, zero_mul,
    hS 0 0 (by decide) (by decide), hS 2 2 (by decide) (by decide), hS 0 1 (by decide) (by decide),
    hS 2 3 (by decide) (by decide)]
  obtain ⟨c1, c2, c3, c4⟩ := hc
  have ex' := ex.ne'
  have ey' := ey.ne'
  cases t
  simp only at *
  subst c1 c2 c3 c4
  simp [plain, twiss, toSigma]
  refine ⟨?_, ?_, ?_, ?_⟩ <;> field_simp

/-- A beam with the same emittance in both planes has its parameters not found: the code divides by zero. -/
theorem beam_round_violated (t : BeamData) (hc : Uncoupled t) (hx : 0 < t.beta_x) (hy : 0 < t.beta_y)
    (he : t.emit_x = t.emit_y) (hd : t.sig_dp ≠ 0 ∨ (t.Dx = 0 ∧ t.Dxp = 0 ∧ t.Dy = 0 ∧ t.Dyp = 0)) (n : Nat) :
    toBeam n (toSigma t) = .ub := by
  have hb := fun i j hi hj => beam_moments t hc hx hy i j hi hj
  obtain ⟨-, r2⟩ := removeDispersion_eq t _ hb hd
  have hs := decoupleStep_plain t _ r2 hx hy
  rw [if_pos (by rw [he]; ring)] at hs
  have : decouple n (removeDispersion (toSigma t).cov).2 identity = .ub := by
    cases n with
    | zero => rfl
    | succ n => rw [decouple, hs]
  unfold toBeam
  simp [this, Outcome.bind]

/-- The longitudinal centre and the momentum are not kept. -/
theorem beam_centre_violated (t b : BeamData) (n : Nat) (h : toBeam n (toSigma t) = .ok b) :
    b.ct0 = 0 ∧ b.p0 = 0 := by
  unfold toBeam at h
  cases e : decouple n (removeDispersion (toSigma t).cov).2 identity with
  | ok q =>
    simp only [e, Outcome.bind, Outcome.ok.injEq] at h
    subst h
    exact ⟨rfl, rfl⟩
  | throw x => simp [e, Outcome.bind] at h
  | ub => simp [e, Outcome.bind] at h

/-- For a negative determinant the factor found is right, but the signs of the last two parameters are not. -/
theorem coupling_recovery_partial (a b c d : ℝ) (h : b * c - a * d < 0) :
    let C := couplingMatrix a b c d
    C 0 2 * couplingFactor (C 0 0) = a ∧ C 0 3 * couplingFactor (C 0 0) = b ∧
    C 1 2 * couplingFactor (C 0 0) = -c ∧ C 1 3 * couplingFactor (C 0 0) = -d := by
  have hp : 0 < √(-(b * c - a * d)) := sqrt_pos.2 (by linarith)
  have hs : 0 < sinh √(-(b * c - a * d)) := sinh_pos_iff.2 hp
  have hC : couplingMatrix a b c d = couplingBody (cosh √(-(b * c - a * d)))
      (sinh √(-(b * c - a * d)) / √(-(b * c - a * d))) a b c d := by
    simp only [couplingMatrix, if_neg h.ne, if_neg h.not_gt]
  rw [hC]
  generalize √(-(b * c - a * d)) = s at *
  have f : couplingFactor (cosh s) = s / sinh s := by
    have h1 : 1 < cosh s := one_lt_cosh.2 hp.ne'
    have h2 : √(cosh s * cosh s - 1) = sinh s := by
      have : cosh s * cosh s - 1 = sinh s ^ 2 := by have := cosh_sq s; linarith
      rw [this, sqrt_sq hs.le]
    unfold couplingFactor
    simp only [if_pos h1, h2]
    rw [if_pos hs.ne', cosh_add_sinh, log_exp]
  have hs' := hs.ne'
  have hp' := hp.ne'
  intro C
  have hC0 : C 0 0 = cosh s := by simp [C, couplingBody, set]
  rw [hC0, f]
  refine ⟨?_, ?_, ?_, ?_⟩ <;> simp [C, couplingBody, set] <;> field_simp

/-- For a positive determinant the factor is wrong: the sine is taken for the root of `1 - cos` instead of `1 - cos²`. -/
theorem coupling_recovery_violated : ∃ b : ℝ, 0 < b ∧ b < π ∧
    couplingMatrix 0 b b 0 0 3 * couplingFactor (couplingMatrix 0 b b 0 0 0) ≠ b := by
  refine ⟨2 * (π / 3), by positivity, by linarith [pi_pos], ?_⟩
  have hb : 0 < 2 * (π / 3) := by positivity
  obtain ⟨h0, -, h3⟩ := coupling_entries _ hb 0
  have hc : cos (2 * (π / 3)) = -(1 / 2) := by rw [cos_two_mul, cos_pi_div_three]; norm_num
  rw [h0, h3, hc]
  have hs : 0 < sin (2 * (π / 3)) := sin_pos_of_pos_of_lt_pi hb (by linarith [pi_pos])
  have hs2 : sin (2 * (π / 3)) ≤ √(1 - -(1 / 2)) := by
    rw [← sqrt_sq hs.le]
    apply sqrt_le_sqrt
    have := sin_sq_add_cos_sq (2 * (π / 3))
    rw [hc] at this
    linarith
  have hq : 0 < √(1 - -(1 / 2)) := lt_of_lt_of_le hs hs2
  have hphi : atan2 √(1 - -(1 / 2)) (-(1 / 2)) < 2 * (π / 3) := by
    unfold atan2
    set z : ℂ := ⟨-(1 / 2), √(1 - -(1 / 2))⟩ with hz
    have hz0 : z ≠ 0 := by
      intro e
      have := congrArg Complex.re e
      simp [hz] at this
    have hn : 1 < ‖z‖ := by
      have h2 : ‖z‖ ^ 2 = 7 / 4 := by
        rw [Complex.sq_norm, Complex.normSq_apply]
        simp only [hz]
        rw [mul_self_sqrt (by norm_num)]
        norm_num
      nlinarith [norm_nonneg z]
    have hcos := Complex.cos_arg hz0
    by_contra hle
    push Not at hle
    have := cos_le_cos_of_nonneg_of_le_pi hb.le (Complex.arg_le_pi z) hle
    rw [hcos, hc, div_le_iff₀ (by linarith)] at this
    have hre : z.re = -(1 / 2) := rfl
    rw [hre] at this
    linarith
  unfold couplingFactor
  rw [if_neg (by norm_num)]
  simp only
  rw [if_pos hq.ne']
  generalize atan2 √(1 - -(1 / 2)) (-(1 / 2)) = p at *
  generalize √(1 - -(1 / 2)) = q at *
  generalize sin (2 * (π / 3)) = s at *
  intro e
  have : s * p = 2 * (π / 3) * q := by
    rw [← e]
    field_simp
  nlinarith

/-! ## C108: spread of generated bunches -/

/-- The particles generated from draws of variance one have as means the centre of the beam. -/
theorem generated_mean (t : BeamData) (us : List (Nat → ℝ)) (h : Standard us) (i : Nat) :
    Bunch.Spec.mean ((us.map (particle t)).map fun p => p i) = centroid t i := by
  rw [List.map_map]
  have e : ((fun p : Nat → ℝ => p i) ∘ particle t) =
      fun u => (sumTo 6 fun k => normalTransform t i k * scale t k * u k) + centroid t i := by
    funext u
    simp only [Function.comp_apply, particle, sumTo, mul_assoc]
  rw [e, mean_add, mean_const us h.1, mean_sumTo]
  simp only [mean_mul]
  rw [sum6, h.2.1 0 (by decide), h.2.1 1 (by decide), h.2.1 2 (by decide), h.2.1 3 (by decide), h.2.1 4 (by decide),
    h.2.1 5 (by decide)]
  ring

/-- Their second moments are those of the beam whose length and energy spread are the square roots of those asked for. -/
theorem generated_covariance (t : BeamData) (ex : 0 ≤ t.emit_x) (ey : 0 ≤ t.emit_y) (us : List (Nat → ℝ))
    (h : Standard us) (i j : Nat) (hi : i < 6) (hj : j < 6) :
    Bunch.Spec.cov (us.map (particle t)) i j =
      el (toSigma { t with sig_z := √t.sig_z, sig_dp := √t.sig_dp }).cov i j := by
  have e : particle t = fun u i => (sumTo 6 fun k => normalTransform t i k * scale t k * u k) + centroid t i := by
    funext u i
    simp only [particle, sumTo, mul_assoc]
  rw [e, cov_affine us h.1 6 _ _ i j, el_toSigma _ i j hi hj]
  have hn : normalTransform { t with sig_z := √t.sig_z, sig_dp := √t.sig_dp } = normalTransform t := rfl
  rw [hn]
  refine Transport.sumTo_congr fun k hk => ?_
  have s : (sumTo 6 fun m => normalTransform t i k * scale t k * (normalTransform t j m * scale t m) *
      Bunch.Spec.cov us k m) = normalTransform t i k * scale t k * (normalTransform t j k * scale t k) := by
    have : (sumTo 6 fun m => normalTransform t i k * scale t k * (normalTransform t j m * scale t m) *
      Bunch.Spec.cov us k m) = sumTo 6 fun m => normalTransform t i k * scale t k * (normalTransform t j m * scale t m) *
        if k = m then 1 else 0 := Transport.sumTo_congr fun m hm => by rw [h.2.2 k m hk hm]
    rw [this, sum6]
    interval_cases k <;> simp
  rw [s]
  have hx := mul_self_sqrt ex
  have hy := mul_self_sqrt ey
  interval_cases k <;> simp only [scale, dia]
  · linear_combination normalTransform t i 0 * normalTransform t j 0 * hx
  · linear_combination normalTransform t i 1 * normalTransform t j 1 * hx
  · linear_combination normalTransform t i 2 * normalTransform t j 2 * hy
  · linear_combination normalTransform t i 3 * normalTransform t j 3 * hy
  · ring
  · ring

/-- So the spread is the one asked for when length and energy spread are zero or one. -/
theorem generated_spread_partial (t : BeamData) (ex : 0 ≤ t.emit_x) (ey : 0 ≤ t.emit_y)
    (hz : t.sig_z = 0 ∨ t.sig_z = 1) (hp : t.sig_dp = 0 ∨ t.sig_dp = 1) (us : List (Nat → ℝ))
    (h : Standard us) (i j : Nat) (hi : i < 6) (hj : j < 6) :
    Bunch.Spec.cov (us.map (particle t)) i j = el (toSigma t).cov i j := by
  rw [generated_covariance t ex ey us h i j hi hj]
  have e : ({ t with sig_z := √t.sig_z, sig_dp := √t.sig_dp } : BeamData) = t := by
    cases t
    simp only at hz hp
    rcases hz with rfl | rfl <;> rcases hp with rfl | rfl <;> simp
  rw [e]

/-- Draws of variance one: along each axis, in both directions. -/
noncomputable def axes : List (Nat → ℝ) :=
  [fun i => if i = 0 then √6 else 0, fun i => if i = 0 then -√6 else 0,
    fun i => if i = 1 then √6 else 0, fun i => if i = 1 then -√6 else 0,
    fun i => if i = 2 then √6 else 0, fun i => if i = 2 then -√6 else 0,
    fun i => if i = 3 then √6 else 0, fun i => if i = 3 then -√6 else 0,
    fun i => if i = 4 then √6 else 0, fun i => if i = 4 then -√6 else 0,
    fun i => if i = 5 then √6 else 0, fun i => if i = 5 then -√6 else 0]

theorem axes_standard : Standard axes := by
  have m : ∀ i, i < 6 → Bunch.Spec.mean (axes.map fun u => u i) = 0 := by
    intro i hi
    interval_cases i <;> simp [axes, Bunch.Spec.mean]
  refine ⟨by simp [axes], m, fun i j hi hj => ?_⟩
  unfold Bunch.Spec.cov
  rw [m i hi, m j hj]
  interval_cases i <;> interval_cases j <;> simp [axes, Bunch.Spec.mean] <;> norm_num

/-- With an energy spread of a quarter the generated spread is a half. -/
theorem generated_spread_violated : ∃ t : BeamData, t.sig_dp = 1 / 4 ∧ Uncoupled t ∧ 0 < t.beta_x ∧ 0 < t.beta_y ∧
    0 ≤ t.emit_x ∧ 0 ≤ t.emit_y ∧ el (toSigma t).cov 5 5 = (1 / 4) ^ 2 ∧
    Bunch.Spec.cov (axes.map (particle t)) 5 5 = (1 / 2) ^ 2 := by
  let t : BeamData := ⟨1, 1, 0, 0, 1, 2, 1 / 4, 1, 0, 0, 0, 0, 0, 1, 0, 0, 0, 0, 0, 0, 0, 0⟩
  have hu : Uncoupled t := ⟨rfl, rfl, rfl, rfl⟩
  have hx : 0 < t.beta_x := one_pos
  have hy : 0 < t.beta_y := one_pos
  have e1 : (0 : ℝ) ≤ t.emit_x := zero_le_one
  have e2 : (0 : ℝ) ≤ t.emit_y := zero_le_two
  refine ⟨t, rfl, hu, hx, hy, e1, e2, ?_, ?_⟩
  · rw [beam_moments t hu hx hy 5 5 (by decide) (by decide)]
    simp [beamSigma, twiss, disp, t]
  · rw [generated_covariance t e1 e2 axes axes_standard 5 5 (by decide) (by decide),
      beam_moments { t with sig_z := √t.sig_z, sig_dp := √t.sig_dp } hu hx hy 5 5 (by decide) (by decide)]
    have : √(1 / 4 : ℝ) = 1 / 2 := by
      rw [show (1 / 4 : ℝ) = (1 / 2) ^ 2 by norm_num, sqrt_sq (by norm_num)]
    simp only [beamSigma, twiss, disp, t, this]
    norm_num

/-! ## Concrete cases -/

/-- A beam for the examples. -/
def beam1 : BeamData := ⟨2, 3, 1, -1, 1, 2, 1, 1, 5, 6, 7, 8, 9, 10, 0, 0, 0, 0, 1, 2, 3, 4⟩

example : Uncoupled beam1 ∧ 0 < beam1.beta_x ∧ 0 < beam1.beta_y ∧ 0 < beam1.emit_x ∧ 0 < beam1.emit_y ∧
    beam1.emit_x ≠ beam1.emit_y ∧ beam1.sig_dp ≠ 0 := by
  simp [Uncoupled, beam1]

example : beamSigma beam1 0 0 = 3 ∧ beamSigma beam1 0 1 = 1 ∧ beamSigma beam1 0 2 = 3 := by
  refine ⟨?_, ?_, ?_⟩ <;> norm_num [beamSigma, twiss, disp, beam1]

example : (1 : ℝ) * 1 - 2 * 1 < 0 := by norm_num

end Verif.Beam
