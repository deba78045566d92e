import Verif.Transport.Dispersion
import Verif.LinMap.Lemmas

/-!
# Properties of the transport matrices
-/

noncomputable section
namespace Verif.Transport
open Verif Real Verif.LinMap.Spec Verif.Transport.Spec

/-! ## Bends, quadrupoles and drifts -/

/-- The 6×6 matrix of a sector bend is the linear motion in the magnet: `x'' = -(K1 + h²) x + h δ`, `y'' = K1 y`,
`ct' = -h x`.  Not for `K1 + h² = 0` with curvature, see `bend_flow_violated`. -/
theorem bend_flow_partial (h K1 : ℝ) (hd : h = 0 ∨ K1 + h * h ≠ 0) :
    Flow 6 (magnet h (K1 + h * h) (-K1)) (fun l => sectorBend 6 l h K1) :=
  flow_congr (fun l => sbr_closed6 l h K1 hd) (closed_flow h _ _ hd)

example : (0.1 : ℝ) = 0 ∨ (-1 : ℝ) + 0.1 * 0.1 ≠ 0 := Or.inr (by norm_num)

/-- Within the transverse planes this holds for every magnet and for matrices of any dimension above three. -/
theorem bend_flow4 (n : Nat) (h K1 : ℝ) : Flow 4 (magnet 0 (K1 + h * h) (-K1)) (fun l => sectorBend n l h K1) :=
  flow_congr (fun l i j hi hj => (sbr_closed4 n l h K1 i j hi hj).trans (closed_four l h _ _ i j hi hj))
    (flow_restrict (closed_flow 0 _ _ (Or.inl rfl)) (fun i hi => by interval_cases i <;> simp [magnet]))

/-- A combined function bend whose gradient cancels the weak focusing has no dispersion. -/
theorem bend_flow_violated : ¬ Flow 6 (magnet 1 (-1 + 1 * 1) (- -1)) (fun l => sectorBend 6 l 1 (-1)) := by
  intro h
  have d := h.2 0 1 5 (by omega) (by omega)
  have e : (fun l => sectorBend 6 l 1 (-1) 1 5) = fun _ => (0 : ℝ) := by
    funext l
    unfold sectorBend sbr
    split_ifs with hl
    · simp [initR]
    · simp only
      rw [sbrD_zero _ _ _ _ _ (Or.inr (by norm_num))]
      have a := (sbrY_eq l (- -1) (sbrX l (-1 + 1 * 1) initR)
        (by simp [sbrX, set, initR]) (by simp [sbrX, set, initR]) (by simp [sbrX, set, initR])).2.2.2.2 1 5 (by omega)
      rw [a]
      simp [sbrX, set, initR]
  simp only at d
  rw [e] at d
  have z := d.unique (hasDerivAt_const 0 0)
  unfold mul at z
  rw [sumTo6] at z
  simp [magnet, sectorBend, sbr, initR] at z

theorem disp_cond (h K : ℝ) : (if K = 0 then 0 else h) = 0 ∨ K ≠ 0 := by
  by_cases hK : K = 0
  · exact Or.inl (if_pos hK)
  · exact Or.inr hK

/-- The matrix of a bend is symplectic. -/
theorem bend_symplectic (l h K1 : ℝ) : Symplectic 6 (sectorBend 6 l h K1) :=
  symplectic_congr (m := 3) (sbr_gen l h K1) (closed_symplectic l _ _ _ (disp_cond h _))

/-- Its transverse part is symplectic in matrices of any dimension. -/
theorem bend_symplectic4 (n : Nat) (l h K1 : ℝ) : Symplectic 4 (sectorBend n l h K1) := by
  refine symplectic_congr (m := 2) (sbr_closed4 n l h K1) ?_
  have hx := cK_sq (K1 + h * h) l
  have hy := cK_sq (-K1) l
  intro i j hi hj
  rw [show 2 * 2 / 2 = 2 from rfl, sumTo2]
  interval_cases i <;> interval_cases j <;> simp [closed, form] <;> linarith

/-- A bend of length `l1 + l2` is a bend of length `l1` and then one of length `l2`. -/
theorem bend_compose (l1 l2 h K1 : ℝ) :
    Same 6 (sectorBend 6 (l1 + l2) h K1) (mul 6 (sectorBend 6 l2 h K1) (sectorBend 6 l1 h K1)) := by
  intro i j hi hj
  have h1 := sbr_gen (l1 + l2) h K1 i j hi hj
  have h2 := closed_compose l1 l2 _ (K1 + h * h) (-K1) (disp_cond h _) i j hi hj
  have h3 := mul_congr (sbr_gen l2 h K1) (sbr_gen l1 h K1) i j hi hj
  exact h1.trans (h2.trans h3.symm)

/-- The same for quadrupoles of any strength. -/
theorem quadrupole_flow (K1 : ℝ) : Flow 6 (magnet 0 K1 (-K1)) (fun l => quadrupoleR 6 l K1) := by
  have h := bend_flow_partial 0 K1 (Or.inl rfl)
  simp only [mul_zero, add_zero] at h
  exact h

theorem quadrupole_symplectic (l K1 : ℝ) : Symplectic 6 (quadrupoleR 6 l K1) :=
  bend_symplectic l 0 K1

theorem quadrupole_compose (l1 l2 K1 : ℝ) :
    Same 6 (quadrupoleR 6 (l1 + l2) K1) (mul 6 (quadrupoleR 6 l2 K1) (quadrupoleR 6 l1 K1)) :=
  bend_compose l1 l2 0 K1

/-- A positive strength focuses horizontally and defocuses vertically. -/
theorem quadrupole_sign (l K1 : ℝ) (hl : 0 < l) (hK : 0 < K1) (hs : √K1 * l < π) :
    quadrupoleR 6 l K1 1 0 < 0 ∧ 0 < quadrupoleR 6 l K1 3 2 := by
  have hc := sbr_closed6 l 0 K1 (Or.inl rfl)
  obtain ⟨p, q⟩ := sqrt_facts hK
  have hn : ¬ 0 < -K1 := by linarith
  have hs0 : 0 < sin (√K1 * l) := sin_pos_of_pos_of_lt_pi (mul_pos p hl) hs
  have hsh : 0 < sinh (√K1 * l) := sinh_pos_iff.2 (mul_pos p hl)
  constructor
  · show sbr 6 l 0 K1 initR 1 0 < 0
    rw [hc 1 0 (by omega) (by omega)]
    simp only [closed, mul_zero, add_zero, sK, hK.ne', hK, if_true, if_false]
    have := mul_pos hK (div_pos hs0 p)
    linarith
  · show 0 < sbr 6 l 0 K1 initR 3 2
    rw [hc 3 2 (by omega) (by omega)]
    simp only [closed, sK, neg_eq_zero, hK.ne', hn, if_false, neg_neg]
    exact mul_pos hK (div_pos hsh p)

example : (0 : ℝ) < 1 ∧ (0 : ℝ) < 1 ∧ √1 * 1 < π := ⟨by norm_num, by norm_num, by
  rw [sqrt_one, one_mul]; linarith [two_le_pi]⟩

/-- A drift is the motion without focusing. -/
theorem drift_flow : Flow 6 (magnet 0 0 0) (drift 6) := by
  refine ⟨fun i j hi hj => ?_, fun l i j hi hj => ?_⟩
  · interval_cases i <;> interval_cases j <;> simp [drift, set, initR, one]
  · have k0 := hasDerivAt_const l (0 : ℝ)
    have k1 := hasDerivAt_const l (1 : ℝ)
    have k2 := hasDerivAt_id' l
    unfold mul
    rw [sumTo6]
    interval_cases i <;> interval_cases j <;> simp [drift, set, initR, magnet] <;>
      first | exact k0 | exact k1 | exact k2

theorem drift_symplectic (l : ℝ) : Symplectic 6 (drift 6 l) := by
  intro i j hi hj
  rw [show 6 / 2 = 3 from rfl, sumTo3]
  interval_cases i <;> interval_cases j <;> simp [drift, set, initR, form]

theorem drift_compose (l1 l2 : ℝ) : Same 6 (drift 6 (l1 + l2)) (mul 6 (drift 6 l2) (drift 6 l1)) := by
  intro i j hi hj
  unfold mul
  rw [sumTo6]
  interval_cases i <;> interval_cases j <;> simp [drift, set, initR]

/-- A quadrupole without strength is a drift. -/
theorem quadrupole_zero (l : ℝ) : Same 6 (quadrupoleR 6 l 0) (drift 6 l) := by
  intro i j hi hj
  show sbr 6 l 0 0 initR i j = _
  rw [sbr_closed6 l 0 0 (Or.inl rfl) i j hi hj]
  interval_cases i <;> interval_cases j <;> simp [drift, set, initR, closed, cK, sK]

/-! ## Rotations and pole faces -/

theorem srot_symplectic (c s : ℝ) (h : c ^ 2 + s ^ 2 = 1) : Symplectic 6 (srot c s) := by
  intro i j hi hj
  rw [show 6 / 2 = 3 from rfl, sumTo3]
  interval_cases i <;> interval_cases j <;> simp [srot, srotBody, set, initR, form] <;> linarith

example : (0.6 : ℝ) ^ 2 + 0.8 ^ 2 = 1 := by norm_num

/-- Rotations add; in particular a rotation by `-φ` undoes one by `φ`. -/
theorem srot_compose (a b : ℝ) :
    Same 6 (srot (cos (a + b)) (sin (a + b))) (mul 6 (srot (cos b) (sin b)) (srot (cos a) (sin a))) := by
  intro i j hi hj
  unfold mul
  rw [sumTo6]
  interval_cases i <;> interval_cases j <;> simp [srot, srotBody, set, initR, cos_add, sin_add] <;> ring

/-- The version with an angle is the rotation where the angle is not tiny. -/
theorem srotAngle_partial (phi : ℝ) (R : Mat) (h : eps < |phi|) : srotAngle phi R = srot (cos phi) (sin phi) := by
  have hf : ¬ Fequal phi 0 := by unfold Fequal; rw [sub_zero]; exact not_le.2 h
  unfold srotAngle
  rw [if_neg hf]

example : eps < |(0.5 : ℝ)| := by unfold eps; norm_num

/-- For an angle within the machine precision it leaves the matrix as it is, which in a new matrix is not a
rotation. -/
theorem srotAngle_violated : ∃ phi : ℝ, ∃ R : Mat, ¬ Same 6 (srotAngle phi R) (srot (cos phi) (sin phi)) := by
  refine ⟨0, fun _ _ => 0, fun h => ?_⟩
  have := h 4 4 (by omega) (by omega)
  simp [srotAngle, Fequal, srot, srotBody, set, initR, eps] at this

theorem poleFace_symplectic (h theta fint hgap : ℝ) : Symplectic 6 (poleFaceRot h theta fint hgap) := by
  intro i j hi hj
  rw [show 6 / 2 = 3 from rfl, sumTo3]
  interval_cases i <;> interval_cases j <;> simp [poleFaceRot, set, initR, form]

/-- Without fringe field integral the pole face focuses one plane as much as it defocuses the other. -/
theorem poleFace_planes (h theta hgap : ℝ) :
    poleFaceRot h theta 0 hgap 1 0 = h * tan theta ∧ poleFaceRot h theta 0 hgap 3 2 = -(h * tan theta) := by
  simp [poleFaceRot, set]

/-! ## Solenoid -/

/-- A solenoid is symplectic, unless its strength times length is within the machine precision. -/
theorem solenoid_symplectic_partial (l ks k1 : ℝ) (a b : Bool) (h : eps < |ks / 2 * l|) :
    Symplectic 6 (solenoid l ks k1 a b) :=
  symplectic_congr (m := 3) (sol_closed l ks k1 a b h)
    (solClosed_symplectic ks _ _ (ks_ne l ks h) (cos_sq_add_sin_sq _))

/-- Solenoids of the same strength compose. -/
theorem solenoid_compose_partial (l1 l2 ks k1 : ℝ) (a b : Bool) (h1 : eps < |ks / 2 * l1|) (h2 : eps < |ks / 2 * l2|)
    (h3 : eps < |ks / 2 * (l1 + l2)|) :
    Same 6 (solenoid (l1 + l2) ks k1 a b) (mul 6 (solenoid l2 ks k1 a b) (solenoid l1 ks k1 a b)) := by
  intro i j hi hj
  rw [sol_closed (l1 + l2) ks k1 a b h3 i j hi hj,
    mul_congr (sol_closed l2 ks k1 a b h2) (sol_closed l1 ks k1 a b h1) i j hi hj]
  rw [mul_add, cos_add, sin_add]
  have := solClosed_compose ks (cos (ks / 2 * l1)) (sin (ks / 2 * l1)) (cos (ks / 2 * l2)) (sin (ks / 2 * l2))
    (ks_ne l1 ks h1) i j hi hj
  rw [← this]

example : eps < |(2 : ℝ) / 2 * 1| ∧ eps < |(2 : ℝ) / 2 * 3| ∧ eps < |(2 : ℝ) / 2 * (1 + 3)| := by
  unfold eps; norm_num

/-- It is the motion in the field of the solenoid, with canonical momenta. -/
theorem solenoid_motion_partial (l ks k1 : ℝ) (a b : Bool) (h : eps < |ks / 2 * l|) (i j : Nat) (hi : i < 4)
    (hj : j < 4) :
    HasDerivAt (fun l => solenoid l ks k1 a b i j) (mul 4 (solenoidMotion ks) (solenoid l ks k1 a b) i j) l := by
  have e : (fun l => solenoid l ks k1 a b i j) =ᶠ[nhds l]
      fun l => solClosed ks (cos (ks / 2 * l)) (sin (ks / 2 * l)) i j := by
    have hc : Filter.Tendsto (fun l => |ks / 2 * l|) (nhds l) (nhds |ks / 2 * l|) :=
      (continuous_const.mul continuous_id).abs.tendsto l
    filter_upwards [hc.eventually (lt_mem_nhds h)] with x hx
    exact sol_closed x ks k1 a b hx i j (by omega) (by omega)
  refine ((solClosed_deriv ks l (ks_ne l ks h) i j hi hj).congr_of_eventuallyEq e).congr_deriv ?_
  refine (mul_congr (fun _ _ _ _ => rfl) (fun i j hi hj => ?_) i j hi hj).symm
  exact sol_closed l ks k1 a b h i j (by omega) (by omega)

/-- A solenoid without field is not a drift: its length is lost. -/
theorem solenoid_zero_violated : ∃ l : ℝ, ¬ Same 6 (solenoid l 0 0 true true) (drift 6 l) := by
  refine ⟨1, fun h => ?_⟩
  have := h 0 1 (by omega) (by omega)
  simp [solenoid, solBody, set, drift, Fequal, eps] at this

/-! ## Chromatic matrices -/

/-- `QuadrupoleT` is the derivative of the matrix with respect to the momentum deviation, which reduces the
strength. -/
theorem quadrupoleT_partial (n : Nat) (l K : ℝ) (hl : l ≠ 0) (hK : K ≠ 0) (i j : Nat) (hi : i < 4) (hj : j < 4) :
    HasDerivAt (fun d => quadrupoleR n l (K / (1 + d)) i j) (quadrupoleT l K i j) 0 := by
  rw [quadrupoleT_eq l K hl hK i j hi hj]
  have e : (fun d => quadrupoleR n l (K / (1 + d)) i j) = fun d => closed l 0 (K / (1 + d)) (-(K / (1 + d))) i j := by
    funext d
    show sbr n l 0 (K / (1 + d)) initR i j = _
    rw [sbr_closed4 n l 0 _ i j hi hj]
    simp
  rw [e]
  exact closed_chrom l K hK i j hi hj

example : (0.5 : ℝ) ≠ 0 ∧ (-2 : ℝ) ≠ 0 := by norm_num

/-- Without strength the matrix does not depend on the momentum, but `QuadrupoleT` is the identity. -/
theorem quadrupoleT_violated : ∃ l : ℝ, ¬ ∀ i j, i < 4 → j < 4 →
    HasDerivAt (fun d => quadrupoleR 4 l ((0 : ℝ) / (1 + d)) i j) (quadrupoleT l 0 i j) 0 := by
  refine ⟨1, fun h => ?_⟩
  have := h 0 0 (by omega) (by omega)
  simp only [zero_div] at this
  have z := this.unique (hasDerivAt_const 0 _)
  simp [quadrupoleT, initR] at z

/-- The chromatic matrix of a bend in the horizontal plane: the strength changes by `-(2 h² + K1)` with the momentum
deviation.  For focusing bends. -/
theorem sectorBendT_horizontal_partial (n : Nat) (l h K1 : ℝ) (hl : l ≠ 0) (hK : 0 < h * h + K1) (i j : Nat)
    (hi : i < 2) (hj : j < 2) :
    HasDerivAt (fun d => quadrupoleR n l (h * h + K1 - (2 * (h * h) + K1) * d) i j) (sectorBendT l h K1 i j) 0 := by
  have e : (fun d => quadrupoleR n l (h * h + K1 - (2 * (h * h) + K1) * d) i j) = fun d =>
      closed l 0 (h * h + K1 - (2 * (h * h) + K1) * d) (-(h * h + K1 - (2 * (h * h) + K1) * d)) i j := by
    funext d
    show sbr n l 0 _ initR i j = _
    rw [sbr_closed4 n l 0 _ i j (by omega) (by omega)]
    simp
  rw [e, sectorBendT_x l h K1 hl hK i j hi hj]
  exact closed_chromX l _ _ hK.ne' i j hi hj

example : (1 : ℝ) ≠ 0 ∧ 0 < (0.5 : ℝ) * 0.5 + 0.1 := by norm_num

/-- For bends which defocus horizontally the code has sine and cosine in place of the hyperbolic functions. -/
theorem sectorBendT_horizontal_violated : ∃ l : ℝ, ¬ ∀ i j, i < 2 → j < 2 →
    HasDerivAt (fun d => quadrupoleR 4 l ((0 : ℝ) * 0 + (-1) - (2 * (0 * 0) + (-1)) * d) i j) (sectorBendT l 0 (-1) i j) 0 := by
  refine ⟨π, fun h => ?_⟩
  have e : (fun d : ℝ => quadrupoleR 4 π ((0 : ℝ) * 0 + (-1) - (2 * (0 * 0) + (-1)) * d) 0 0) = fun d =>
      closed π 0 (0 * 0 + (-1) - (2 * (0 * 0) + (-1)) * d) (-(0 * 0 + (-1) - (2 * (0 * 0) + (-1)) * d)) 0 0 := by
    funext d
    show sbr 4 π 0 _ initR 0 0 = _
    rw [sbr_closed4 4 π 0 _ 0 0 (by omega) (by omega)]
    simp
  have h0 := h 0 0 (by omega) (by omega)
  rw [e] at h0
  have h1 := closed_chromX π ((0 : ℝ) * 0 + (-1)) (2 * (0 * 0) + (-1)) (by norm_num) 0 0 (by omega) (by omega)
  have z := h0.unique h1
  have hs : 0 < sinh π := sinh_pos_iff.2 pi_pos
  simp [sectorBendT, sectorBendTD_off, sectorBendTY, sectorBendTX, set, chromX, sK, pi_ne_zero] at z
  norm_num at z
  simp [set] at z
  have := mul_pos pi_pos hs
  linarith

/-- The chromatic matrix of a bend in the vertical plane, with a gradient. -/
theorem sectorBendT_vertical_partial (n : Nat) (l h K1 : ℝ) (hl : l ≠ 0) (hK : K1 ≠ 0) (i j : Nat)
    (hi : 2 ≤ i ∧ i < 4) (hj : 2 ≤ j ∧ j < 4) :
    HasDerivAt (fun d => quadrupoleR n l (K1 / (1 + d)) i j) (sectorBendT l h K1 i j) 0 := by
  have := quadrupoleT_partial n l K1 hl hK i j hi.2 hj.2
  rw [sectorBendT_y l h K1 hl hK i j hi hj]
  exact this

/-- A bend without gradient does not focus vertically at any momentum, but the matrix is the identity there. -/
theorem sectorBendT_vertical_violated : ∃ l h : ℝ, ¬ ∀ i j, (2 ≤ i ∧ i < 4) → (2 ≤ j ∧ j < 4) →
    HasDerivAt (fun d => quadrupoleR 4 l ((0 : ℝ) / (1 + d)) i j) (sectorBendT l h 0 i j) 0 := by
  refine ⟨1, 1, fun h => ?_⟩
  have := h 2 2 (by omega) (by omega)
  simp only [zero_div] at this
  have z := this.unique (hasDerivAt_const 0 _)
  simp [sectorBendT, sectorBendTD_off, sectorBendTX, sectorBendTY, initR, set] at z

/-- The horizontal plane of `SectorBendT` is the derivative of the matrix of the bend with respect to the momentum
deviation, which divides curvature and gradient; also where curvature and gradient cancel. -/
theorem sectorBendT_momentum_partial (n : Nat) (l h K1 : ℝ) (hl : l ≠ 0) (hne : h ≠ 0 ∨ K1 ≠ 0) (hK : 0 ≤ h * h + K1)
    (i j : Nat) (hi : i < 2) (hj : j < 2) :
    HasDerivAt (fun d => sectorBend n l (h / (1 + d)) (K1 / (1 + d)) i j) (sectorBendT l h K1 i j) 0 := by
  have e : (fun d => sectorBend n l (h / (1 + d)) (K1 / (1 + d)) i j) = fun d =>
      closed l (h / (1 + d)) (kappa h K1 d) (-(K1 / (1 + d))) i j := by
    funext d; exact bend_four_at n l h K1 d i j (by omega) (by omega)
  rw [e]
  have c := cK_kappa h K1 l
  have s := sK_kappa h K1 l
  have m := ((hasDerivAt_kappa h K1).neg).mul s
  simp only [Pi.neg_def, Pi.mul_def, kappa_zero] at m
  rcases hK.eq_or_lt with h0 | h1
  · have h0 := h0.symm
    rw [sectorBendT_x0 l h K1 hl hne h0 i j hi hj]
    rw [h0] at m c s
    interval_cases i <;> interval_cases j <;> simp only [closed, chrom0]
    · exact c.congr_deriv (by simp [dcK]; ring)
    · exact s.congr_deriv (by simp [dsK]; ring)
    · exact m.congr_deriv (by simp [sK])
    · exact c.congr_deriv (by simp [dcK]; ring)
  · rw [sectorBendT_x l h K1 hl h1 i j hi hj]
    have hn := h1.ne'
    interval_cases i <;> interval_cases j <;> simp only [closed, chromX]
    · exact c.congr_deriv (by simp only [dcK, hn, if_false]; ring)
    · exact s.congr_deriv (by simp only [dsK, hn, if_false]; field_simp; ring)
    · refine m.congr_deriv ?_
      simp only [dsK, hn, if_false]
      generalize cK (h * h + K1) l = C
      generalize sK (h * h + K1) l = S
      generalize hKe : h * h + K1 = K at hn ⊢
      obtain rfl : K1 = K - h * h := by linarith
      field_simp; ring
    · exact c.congr_deriv (by simp only [dcK, hn, if_false]; ring)

/-- Curvature and gradient cancel. -/
example : (2 : ℝ) ≠ 0 ∧ ((0.5 : ℝ) ≠ 0 ∨ (-0.25 : ℝ) ≠ 0) ∧ 0 ≤ (0.5 : ℝ) * 0.5 + -0.25 := by norm_num

/-- The dispersion and time terms are the derivatives as well, wherever the bend focuses or defocuses. -/
theorem sectorBendT_dispersion (l h K1 : ℝ) (hl : l ≠ 0) (hK : h * h + K1 ≠ 0) (i : Nat) (hi : i = 0 ∨ i = 1 ∨ i = 4) :
    HasDerivAt (fun d => sectorBend 6 l (h / (1 + d)) (K1 / (1 + d)) i 5) (sectorBendT l h K1 i 5) 0 := by
  have hk0 : kappa h K1 0 ≠ 0 := by rw [kappa_zero]; exact hK
  have ev : ∀ᶠ d in nhds (0 : ℝ), kappa h K1 d ≠ 0 := (hasDerivAt_kappa h K1).continuousAt.eventually_ne hk0
  have e : (fun d => sectorBend 6 l (h / (1 + d)) (K1 / (1 + d)) i 5) =ᶠ[nhds 0] fun d =>
      closed l (h / (1 + d)) (kappa h K1 d) (-(K1 / (1 + d))) i 5 := by
    filter_upwards [ev] with d hd
    exact sbr_closed6 l _ _ (Or.inr hd) i 5 (by omega) (by omega)
  rw [sectorBendT_d l h K1 hl hK i hi]
  refine HasDerivAt.congr_of_eventuallyEq ?_ e
  have c := cK_kappa h K1 l
  have s := sK_kappa h K1 l
  have k := hasDerivAt_kappa h K1
  have hs := hasDerivAt_strength h
  have d0 := (hs.mul (c.const_sub 1)).div k hk0
  have d1 := hs.mul s
  have d4 := ((hs.neg.mul hs).mul (s.const_sub l)).div k hk0
  simp only [Pi.neg_def, Pi.mul_def, Pi.div_def, kappa_zero, dcK, dsK, hK, if_false, add_zero, div_one] at d0 d1 d4
  rcases hi with rfl | rfl | rfl <;> simp only [closed, chromD]
  · refine d0.congr_deriv ?_
    generalize cK (h * h + K1) l = C
    generalize sK (h * h + K1) l = S
    generalize hKe : h * h + K1 = K at hK ⊢
    obtain rfl : K1 = K - h * h := by linarith
    field_simp; ring
  · refine d1.congr_deriv ?_
    generalize cK (h * h + K1) l = C
    generalize sK (h * h + K1) l = S
    generalize hKe : h * h + K1 = K at hK ⊢
    obtain rfl : K1 = K - h * h := by linarith
    field_simp; ring
  · refine d4.congr_deriv ?_
    generalize cK (h * h + K1) l = C
    generalize sK (h * h + K1) l = S
    generalize hKe : h * h + K1 = K at hK ⊢
    obtain rfl : K1 = K - h * h := by linarith
    field_simp; ring

/-- A combined function magnet that defocuses horizontally. -/
example : (2 : ℝ) ≠ 0 ∧ (0.5 : ℝ) * 0.5 + -1 ≠ 0 := by norm_num

/-- The orbit that the next theorems differentiate is the motion in the bend. -/
theorem momentumOrbit_motion (l h K1 : ℝ) (i : Nat) (hi : i < 6) :
    HasDerivAt (fun l => momentumOrbit l h K1 i)
      (mul 6 (magnet h (K1 + h * h) (-K1)) (fun i _ => momentumOrbit l h K1 i) i 5) l ∧
      momentumOrbit 0 h K1 i = if i = 5 then 1 else 0 := by
  unfold momentumOrbit
  by_cases hK : K1 + h * h = 0
  · simp only [hK, if_true]
    have k0 := hasDerivAt_const l (0 : ℝ)
    have k1 := hasDerivAt_const l (1 : ℝ)
    have a1 := (hasDerivAt_id' l).const_mul h
    have a2 := (((hasDerivAt_id' l).pow 2).const_mul h).div_const 2
    have a3 := ((((hasDerivAt_id' l).pow 3).const_mul (h * h)).div_const 6).neg
    unfold mul
    rw [sumTo6]
    interval_cases i <;> simp [magnet] <;>
      first
        | exact k0
        | exact k1
        | exact a1.congr_deriv (by ring)
        | exact a2.congr_deriv (by simp; ring)
        | exact a3.congr_deriv (by simp; ring)
  · simp only [hK, if_false]
    obtain ⟨f1, f2⟩ := bend_flow_partial h K1 (Or.inr hK)
    refine ⟨?_, f1 i 5 hi (by omega)⟩
    exact f2 l i 5 hi (by omega)

/-- Where curvature and gradient cancel, position and slope are the derivatives. -/
theorem sectorBendT_dispersion_flat (l h K1 : ℝ) (hl : l ≠ 0) (hh : h ≠ 0) (hK : h * h + K1 = 0) (i : Nat)
    (hi : i = 0 ∨ i = 1) :
    HasDerivAt (fun d => momentumOrbit l (h / (1 + d)) (K1 / (1 + d)) i) (sectorBendT l h K1 i 5) 0 := by
  have hs := hasDerivAt_strength h
  have k := hasDerivAt_kappa h K1
  have k0 : kappa h K1 0 = 0 := by rw [kappa_zero, hK]
  have s := sK_kappa h K1 l
  have dk := (show HasDerivAt (next 0 (fun K => cK K l) l) (-(l ^ 4 / 24)) (kappa h K1 0) by rw [k0]; exact dK_flat l).comp
    (0 : ℝ) k
  have d0 := hs.mul dk
  have d1 := hs.mul s
  have n0 : next 0 (fun K => cK K l) l 0 = l ^ 2 / 2 := by simp [next]
  have s0 : sK 0 l = l := by simp [sK]
  have hn : ¬ (l = 0 ∨ (K1 = 0 ∧ h = 0)) := by tauto
  have e1 : K1 = -(h * h) := by linarith
  simp only [Pi.mul_def, Function.comp_def, k0, add_zero, div_one, hK, dsK, if_true, n0, s0] at d0 d1
  unfold sectorBendT
  rw [if_neg hn]
  unfold sectorBendTD
  rcases hi with rfl | rfl
  · have e : (fun d => momentumOrbit l (h / (1 + d)) (K1 / (1 + d)) 0) = fun d =>
        h / (1 + d) * next 0 (fun K => cK K l) l (kappa h K1 d) := by
      funext d; exact momentumOrbit_at l _ _ 0 (Or.inl rfl)
    rw [e]
    refine d0.congr_deriv ?_
    simp [set, hK]
    rw [e1]; ring
  · have e : (fun d => momentumOrbit l (h / (1 + d)) (K1 / (1 + d)) 1) = fun d => h / (1 + d) * sK (kappa h K1 d) l := by
      funext d; exact momentumOrbit_at l _ _ 1 (Or.inr (Or.inl rfl))
    rw [e]
    refine d1.congr_deriv ?_
    simp [set, hK]
    rw [e1]; ring

example : (2 : ℝ) ≠ 0 ∧ (0.5 : ℝ) ≠ 0 ∧ (0.5 : ℝ) * 0.5 + -0.25 = 0 := by norm_num

/-- The time term is `h` times the derivative there. -/
theorem sectorBendT_time_flat (l h K1 : ℝ) (hl : l ≠ 0) (hh : h ≠ 0) (hK : h * h + K1 = 0) :
    HasDerivAt (fun d => momentumOrbit l (h / (1 + d)) (K1 / (1 + d)) 4) (sectorBendT l h K1 4 5 / h) 0 := by
  have hs := hasDerivAt_strength h
  have k := hasDerivAt_kappa h K1
  have k0 : kappa h K1 0 = 0 := by rw [kappa_zero, hK]
  have dk := (show HasDerivAt (next 1 (fun K => sK K l) l) (-(l ^ 5 / 120)) (kappa h K1 0) by rw [k0]; exact eK_flat l).comp
    (0 : ℝ) k
  have d0 := (hs.neg.mul hs).mul dk
  have n0 : next 1 (fun K => sK K l) l 0 = l ^ 3 / 6 := by simp [next, Nat.factorial]
  have hn : ¬ (l = 0 ∨ (K1 = 0 ∧ h = 0)) := by tauto
  have e1 : K1 = -(h * h) := by linarith
  simp only [Pi.mul_def, Pi.neg_def, Function.comp_def, k0, add_zero, div_one, n0] at d0
  have e : (fun d => momentumOrbit l (h / (1 + d)) (K1 / (1 + d)) 4) = fun d =>
      -(h / (1 + d)) * (h / (1 + d)) * next 1 (fun K => sK K l) l (kappa h K1 d) := by
    funext d; exact momentumOrbit_at l _ _ 4 (Or.inr (Or.inr rfl))
  rw [e]
  refine d0.congr_deriv ?_
  unfold sectorBendT
  rw [if_neg hn]
  unfold sectorBendTD
  simp only [set, hK, if_true, and_self]
  rw [e1]; field_simp; ring

/-- So it is not the derivative unless the curvature is one. -/
theorem sectorBendT_time_violated : ∃ l h K1 : ℝ, l ≠ 0 ∧ h ≠ 0 ∧ h * h + K1 = 0 ∧
    ¬ HasDerivAt (fun d => momentumOrbit l (h / (1 + d)) (K1 / (1 + d)) 4) (sectorBendT l h K1 4 5) 0 := by
  refine ⟨1, 2, -4, by norm_num, by norm_num, by norm_num, fun hd => ?_⟩
  have z := hd.unique (sectorBendT_time_flat 1 2 (-4) (by norm_num) (by norm_num) (by norm_num))
  unfold sectorBendT at z
  rw [if_neg (by norm_num)] at z
  unfold sectorBendTD at z
  norm_num [set] at z

/-! ## Cavities -/

/-- In a travelling wave structure the transverse momenta stay and the slopes shrink: the determinant of a plane is
`E0/E1`.  This is with `inc_end_fields` false. -/
theorem twrf_det_partial (n : Nat) (l g k phi E0 : ℝ) (hl : l ≠ 0) (h0 : E0 ≠ 0) (h1 : E0 + l * g * cos phi ≠ 0)
    (hd : 1 / 10 ^ 16 ≤ |l * g * cos phi|) :
    det2 (twrf n l g k phi E0 false) 0 = E0 / (E0 + l * g * cos phi) := by
  have hc : l * g * cos phi ≠ 0 := by
    intro e
    rw [e, abs_zero] at hd
    norm_num at hd
  unfold twrf det2
  simp only [not_lt.2 hd, if_false, Bool.not_false, if_true]
  generalize log ((E0 + l * g * cos phi) / E0) = L
  have e : l * g * cos phi = l * g * cos phi := rfl
  generalize l * g * cos phi = D at *
  split_ifs <;> simp [set, copyBlock] <;> field_simp <;> ring

example : (1 : ℝ) ≠ 0 ∧ (5 : ℝ) + 1 * 2 * cos 0 ≠ 0 ∧ (1 : ℝ) / 10 ^ 16 ≤ |1 * 2 * cos 0| := by
  rw [cos_zero]; norm_num

/-- With `inc_end_fields`, as the only caller has it, the determinant is `E1/E0`: slopes grow with the energy. -/
theorem twrf_det_violated : ∃ (l g k phi E0 : ℝ), 0 < l ∧ 0 < g ∧ 0 < E0 ∧
    det2 (twrf 4 l g k phi E0 true) 0 ≠ E0 / (E0 + l * g * cos phi) := by
  refine ⟨1, 1, 1, 0, 1, by norm_num, by norm_num, by norm_num, ?_⟩
  have hd : ¬ (1 : ℝ) < (10 ^ 16)⁻¹ := by norm_num
  simp [twrf, det2, set, copyBlock, initR, hd]
  norm_num

/-- The planes are treated alike. -/
theorem twrf_planes (n : Nat) (hn : 2 < n) (l g k phi E0 : ℝ) (b : Bool) (i j : Nat) (hi : i < 2) (hj : j < 2) :
    twrf n l g k phi E0 b (i + 2) (j + 2) = twrf n l g k phi E0 b i j := by
  unfold twrf
  simp only [hn, if_true]
  generalize (if |l * g * cos phi| < 1 / 10 ^ 16 then _ else _ : Mat) = R
  split_ifs <;> interval_cases i <;> interval_cases j <;> simp [set, copyBlock]

/-- A cavity without gradient is a drift. -/
theorem twrf_off (l k phi E0 : ℝ) (b : Bool) (h0 : E0 ≠ 0) : Same 6 (twrf 6 l 0 k phi E0 b) (drift 6 l) := by
  intro i j hi hj
  interval_cases i <;> interval_cases j <;> simp [twrf, drift, set, copyBlock, initR, h0]

/-- Standing wave cavities have the determinant `E0/E1` in the horizontal plane. -/
theorem swrf_det (n : Nat) (nc : Int) (g w phi E0 : ℝ) (hg : g ≠ 0) (h1 : E0 + g * (nc * w) * cos phi ≠ 0) :
    det2 (swrf n nc g w phi E0) 0 = E0 / (E0 + g * (nc * w) * cos phi) := by
  unfold swrf det2
  simp only
  generalize log ((E0 + g * (nc * w) * cos phi) / E0) / cos phi / √8 = a
  rw [cos_two_mul]
  have t := sin_sq_add_cos_sq a
  have r2 : √2 ^ 2 = (2 : ℝ) := sq_sqrt (by norm_num)
  have r8 : √8 ≠ (0 : ℝ) := (sqrt_pos.2 (by norm_num)).ne'
  generalize E0 + g * (nc * w) * cos phi = E1 at *
  generalize √8 = q at *
  generalize √2 = p at *
  split_ifs <;> simp [set, copyBlock] <;> field_simp <;> linear_combination E0 * t - (E0 * cos phi ^ 2 * sin a ^ 2) * r2

/-- In matrices of four rows both planes are alike. -/
theorem swrf_planes_partial (nc : Int) (g w phi E0 : ℝ) (i j : Nat) (hi : i < 2) (hj : j < 2) :
    swrf 4 nc g w phi E0 (i + 2) (j + 2) = swrf 4 nc g w phi E0 i j := by
  unfold swrf
  interval_cases i <;> interval_cases j <;> simp [set, copyBlock]

/-- In matrices of six rows the vertical plane is left out. -/
theorem swrf_planes_violated : ∃ (nc : Int) (g w phi E0 : ℝ), 0 < g ∧ 0 < w ∧ 0 < E0 ∧
    swrf 6 nc g w phi E0 2 3 ≠ swrf 6 nc g w phi E0 0 1 := by
  refine ⟨1, 1, 1, 0, 1, by norm_num, by norm_num, by norm_num, ?_⟩
  have h8 : (2 : ℝ) < √8 := lt_sqrt_of_sq_lt (by norm_num)
  have hl : 0 < log 2 := log_pos (by norm_num)
  have hl1 : log 2 < 2 := by linarith [log_lt_sub_one_of_pos (show (0 : ℝ) < 2 by norm_num) (by norm_num)]
  have ha : 0 < log 2 / √8 := div_pos hl (by linarith)
  have hb : log 2 / √8 < 1 := by rw [div_lt_one (by linarith)]; linarith
  have hs : 0 < sin (log 2 / √8) := sin_pos_of_pos_of_lt_pi ha (by linarith [two_le_pi])
  simp [swrf, set, initR]
  norm_num
  exact hs.ne'

/-- The 2×2 cavity maps of slices have the determinant `E0/E1` with and without the fields at the ends. -/
theorem twrf2_det (l g phi E0 : ℝ) (entr exit : Bool) (h0 : E0 ≠ 0) (h1 : E0 + l * g * cos phi ≠ 0) :
    let r := twrf2 l g phi E0 entr exit
    r.r11 * r.r22 - r.r12 * r.r21 = E0 / (E0 + l * g * cos phi) := by
  unfold twrf2
  by_cases hd : l * g * cos phi = 0
  · simp [hd, drift2, h0]
  · have hg : g ≠ 0 := fun e => hd (by simp [e])
    have hc : cos phi ≠ 0 := fun e => hd (by simp [e])
    generalize logOnePlusX (l * g * cos phi / E0) = L
    cases entr <;> cases exit <;> simp [hd] <;> field_simp <;> ring

/-! ## Sparse maps -/

/-- The sparse map of a bend has the same matrix as the dense one. -/
theorem bendMap_eq (l h K1 : ℝ) : Same 6 (mat (bendMap l h K1)) (sectorBend 6 l h K1) := by
  intro i j hi hj
  exact (bendMap_closed l h K1 i j hi hj).trans (sbr_gen l h K1 i j hi hj).symm

theorem driftMap_eq (l : ℝ) : Same 6 (mat (driftMap l)) (drift 6 l) := by
  intro i j hi hj
  unfold driftMap idMap drift
  rw [if_pos (show 2 < 6 by omega)]
  split_ifs with h
  · interval_cases i <;> interval_cases j <;>
      simp [LinMap.mat_cons, LinMap.mat_nil, term, set, initR]
  · rw [not_not] at h
    interval_cases i <;> interval_cases j <;>
      simp [LinMap.mat_cons, LinMap.mat_nil, term, set, initR, h]

theorem poleMap_eq (h theta fint hgap : ℝ) : Same 6 (mat (poleMap h theta fint hgap)) (poleFaceRot h theta fint hgap) := by
  intro i j hi hj
  unfold poleMap idMap poleFaceRot
  interval_cases i <;> interval_cases j <;>
    simp [LinMap.mat_cons, LinMap.mat_nil, term, set, initR]

/-- The sparse map of a quadrupole has the same transverse part; it has no longitudinal part. -/
theorem quadMap_partial (l K1 : ℝ) : Same 4 (mat (quadMap l K1)) (quadrupoleR 6 l K1) := by
  intro i j hi hj
  show _ = sbr 6 l 0 K1 initR i j
  rw [sbr_closed4 6 l 0 K1 i j hi hj, quadMap_closed l K1 i j hi hj]
  simp

theorem quadMap_longitudinal (l K1 : ℝ) (j : Nat) : mat (quadMap l K1) 4 j = 0 ∧ mat (quadMap l K1) 5 j = 0 := by
  unfold quadMap qr2
  constructor <;> split_ifs <;> simp [LinMap.mat_cons, LinMap.mat_nil, term]

/-- The 2×2 maps are its blocks. -/
theorem quad2_eq (l K1 : ℝ) : Same 4 (blocks (quad2 l K1) (quad2 l (-K1))) (quadrupoleR 4 l K1) := by
  intro i j hi hj
  show _ = sbr 4 l 0 K1 initR i j
  rw [sbr_closed4 4 l 0 K1 i j hi hj, quad2_closed, quad2_closed]
  interval_cases i <;> interval_cases j <;> simp [blocks, closed]

/-- A rotation of slices agrees in the transverse coordinates. -/
theorem srotMap_partial (c s : ℝ) : Same 4 (mat (srotMap c s)) (srot c s) := by
  intro i j hi hj
  interval_cases i <;> interval_cases j <;>
    simp [srotMap, LinMap.mat_cons, LinMap.mat_nil, term, srot, srotBody, set, initR]

/-- It sets their longitudinal coordinates to zero. -/
theorem srotMap_violated (c s : ℝ) (x : Nat → ℝ) :
    ∃ y, LinMap.applyVec (srotMap c s) x = .ok y ∧ y 4 = 0 ∧ y 5 = 0 := by
  refine ⟨_, rfl, ?_, ?_⟩ <;> simp [LinMap.upd, term]

/-- The sparse solenoid has the vertical dependence on the horizontal slope in the place of another one, and does not
transport the longitudinal coordinates. -/
theorem solMap_violated (l ks : ℝ) (h : eps < |ks / 2 * l|) (hs : sin (ks / 2 * l) ≠ 0) :
    mat (solMap l ks) 2 1 = 0 ∧ solenoid l ks 0 true true 2 1 ≠ 0 ∧
    mat (solMap l ks) 3 1 = solenoid l ks 0 true true 3 1 + solenoid l ks 0 true true 2 1 ∧
    ∀ j, mat (solMap l ks) 4 j = 0 ∧ mat (solMap l ks) 5 j = 0 := by
  have hk := ks_ne l ks h
  have hf : ¬ Fequal (ks / 2 * l) 0 := by unfold Fequal; rw [sub_zero]; exact not_le.2 h
  rw [sol_closed l ks 0 true true h 2 1 (by omega) (by omega), sol_closed l ks 0 true true h 3 1 (by omega) (by omega)]
  refine ⟨?_, ?_, ?_, fun j => ⟨?_, ?_⟩⟩
  · simp [solMap, hf, LinMap.mat_cons, LinMap.mat_nil, term]
  · simp [solClosed, hs, hk]
  · simp [solMap, hf, LinMap.mat_cons, LinMap.mat_nil, term, solClosed]
  · simp [solMap, hf, LinMap.mat_cons, LinMap.mat_nil, term]
  · simp [solMap, hf, LinMap.mat_cons, LinMap.mat_nil, term]

example : eps < |(2 : ℝ) / 2 * 1| ∧ sin ((2 : ℝ) / 2 * 1) ≠ 0 := by
  refine ⟨by unfold eps; norm_num, ?_⟩
  norm_num
  exact (sin_pos_of_pos_of_lt_pi (by norm_num) (by linarith [two_le_pi])).ne'

/-- The rest of its transverse part is that of the dense matrix. -/
theorem solMap_partial (l ks : ℝ) (h : eps < |ks / 2 * l|) (i j : Nat) (hi : i < 4) (hj : j < 4)
    (hn : ¬ (2 ≤ i ∧ j = 1)) : mat (solMap l ks) i j = solenoid l ks 0 true true i j := by
  have hf : ¬ Fequal (ks / 2 * l) 0 := by unfold Fequal; rw [sub_zero]; exact not_le.2 h
  rw [sol_closed l ks 0 true true h i j (by omega) (by omega)]
  interval_cases i <;> interval_cases j <;> simp at hn <;>
    simp [solMap, hf, LinMap.mat_cons, LinMap.mat_nil, term, solClosed]

/-- The sparse cavity map has the determinant `E0/E1` unless only the exit field is included. -/
theorem twrfMap_det_partial (l g phi E0 : ℝ) (entr exit : Bool) (hx : exit = true → entr = true) (h0 : E0 ≠ 0)
    (h1 : E0 + l * g * cos phi ≠ 0) :
    det2 (mat (twrfMap l g phi E0 entr exit)) 0 = E0 / (E0 + l * g * cos phi) := by
  unfold twrfMap det2
  by_cases hd : l * g * cos phi = 0
  · simp [hd, h0, idMap, LinMap.mat_cons, LinMap.mat_nil, term]
  · have hg : g ≠ 0 := fun e => hd (by simp [e])
    have hc : cos phi ≠ 0 := fun e => hd (by simp [e])
    generalize logOnePlusX (l * g * cos phi / E0) = L
    cases entr <;> cases exit <;> simp at hx <;> simp [hd, LinMap.mat_cons, LinMap.mat_nil, term] <;> field_simp <;> ring

/-- With the exit field only it has not. -/
theorem twrfMap_det_violated : ∃ (l g phi E0 : ℝ), 0 < l ∧ 0 < g ∧ 0 < E0 ∧ 0 < cos phi ∧
    det2 (mat (twrfMap l g phi E0 false true)) 0 ≠ E0 / (E0 + l * g * cos phi) := by
  refine ⟨1, 1, π / 3, 1, by norm_num, by norm_num, by norm_num, by rw [cos_pi_div_three]; norm_num, ?_⟩
  simp [twrfMap, det2, LinMap.mat_cons, LinMap.mat_nil, term, cos_pi_div_three, logOnePlusX]
  norm_num

end Verif.Transport
