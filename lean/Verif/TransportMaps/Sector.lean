import Verif.TransportMaps.Straight

/-!
# The sector bend without gradient
-/

namespace Verif.TransportMaps
open Verif Verif.Symplectic Verif.TransportMaps.Spec Real Asymptotics Filter Topology

theorem third_zero {f : ℝ → ℝ} {b c : ℝ} (hf : Third f) (hj : Jet f 0 b c) : b = 0 ∧ c = 0 := by
  have h : Third fun e => b * e + c * e ^ 2 := third_of_eq (Third.sub hf hj) fun e => by ring
  obtain ⟨C, hC⟩ := IsBigO.bound h
  have h1 : ∀ᶠ e : ℝ in 𝓝[≠] 0, |b + c * e| ≤ C * e ^ 2 := by
    filter_upwards [nhdsWithin_le_nhds hC, self_mem_nhdsWithin] with e he hne
    have h0 : 0 < |e| := abs_pos.2 hne
    rw [norm_eq_abs, norm_eq_abs, show b * e + c * e ^ 2 = e * (b + c * e) by ring, abs_mul, abs_pow] at he
    have : |e| * |b + c * e| ≤ |e| * (C * e ^ 2) := by
      rw [← sq_abs e]; calc _ ≤ C * |e| ^ 3 := he
        _ = _ := by ring
    exact le_of_mul_le_mul_left this h0
  have t1 : Tendsto (fun e : ℝ => |b + c * e|) (𝓝[≠] 0) (𝓝 |b|) := by
    have : Continuous fun e : ℝ => |b + c * e| := by fun_prop
    simpa using (this.tendsto 0).mono_left nhdsWithin_le_nhds
  have t2 : Tendsto (fun e : ℝ => C * e ^ 2) (𝓝[≠] 0) (𝓝 0) := by
    have : Continuous fun e : ℝ => C * e ^ 2 := by fun_prop
    simpa using (this.tendsto 0).mono_left nhdsWithin_le_nhds
  have hb : b = 0 := abs_eq_zero.1 (le_antisymm (le_of_tendsto_of_tendsto t1 t2 h1) (abs_nonneg b))
  subst hb
  have h2 : ∀ᶠ e : ℝ in 𝓝[≠] 0, |c| ≤ |C * e| := by
    filter_upwards [h1, self_mem_nhdsWithin] with e he hne
    have h0 : 0 < |e| := abs_pos.2 hne
    rw [zero_add, abs_mul] at he
    have : |e| * |c| ≤ |e| * |C * e| := by
      calc |e| * |c| = |c| * |e| := mul_comm _ _
        _ ≤ C * e ^ 2 := he
        _ ≤ |C * e ^ 2| := le_abs_self _
        _ = |e| * |C * e| := by rw [← abs_mul]; congr 1; ring
    exact le_of_mul_le_mul_left this h0
  have t3 : Tendsto (fun e : ℝ => |C * e|) (𝓝[≠] 0) (𝓝 0) := by
    have : Continuous fun e : ℝ => |C * e| := by fun_prop
    simpa using (this.tendsto 0).mono_left nhdsWithin_le_nhds
  exact ⟨rfl, abs_eq_zero.1 (le_antisymm (le_of_tendsto_of_tendsto tendsto_const_nhds t3 h2) (abs_nonneg c))⟩

/-- Expansion of equations of motion along `comb`. -/
def Expand (V : PS → PS) (a b A B : PS) : Prop :=
  Jet (fun e => (V (comb e a b)).x) 0 A.x B.x ∧ Jet (fun e => (V (comb e a b)).px) 0 A.px B.px ∧
  Jet (fun e => (V (comb e a b)).y) 0 A.y B.y ∧ Jet (fun e => (V (comb e a b)).py) 0 A.py B.py ∧
  Jet (fun e => (V (comb e a b)).ct) 0 A.ct B.ct ∧ Jet (fun e => (V (comb e a b)).dp) 0 A.dp B.dp

theorem follows_of (V : PS → PS) (z : PS) (F : ℝ → PS → Outcome Unit PS) (m : ℝ → RT)
    (hF : ∀ s e, F s (scale e z) = .ok (act (m s) (scale e z))) (h0 : ∀ v, act (m 0) v = v) (A B : ℝ → PS)
    (hV : ∀ s, Expand V (lin (m s) z) (quad (m s) z) (A s) (B s))
    (hl : ∀ s, Symplectic.Spec.Der (fun s => lin (m s) z) (A s) s)
    (hq : ∀ s, Symplectic.Spec.Der (fun s => quad (m s) z) (B s) s) : Follows V F z := by
  refine ⟨fun s e => comb e (lin (m s) z) (quad (m s) z), fun s e => ?_, fun e => ?_, fun s =>
    ⟨fun e => comb e (A s) (B s), fun e => comb_der (hl s) (hq s) e, ?_⟩⟩
  · rw [hF, act_scale]
  · show comb e _ _ = _
    rw [← act_scale, h0]
  · obtain ⟨h1, h2, h3, h4, h5, h6⟩ := hV s
    exact ⟨(((jet_quad _ _).sub h1).congr (by ring) (sub_self _) (sub_self _)).third,
      (((jet_quad _ _).sub h2).congr (by ring) (sub_self _) (sub_self _)).third,
      (((jet_quad _ _).sub h3).congr (by ring) (sub_self _) (sub_self _)).third,
      (((jet_quad _ _).sub h4).congr (by ring) (sub_self _) (sub_self _)).third,
      (((jet_quad _ _).sub h5).congr (by ring) (sub_self _) (sub_self _)).third,
      (((jet_quad _ _).sub h6).congr (by ring) (sub_self _) (sub_self _)).third⟩

theorem derTrans_of {c : ℝ → PS} {a : PS} {s : ℝ} (h : Symplectic.Spec.Der c a s) : DerTrans c a s :=
  ⟨h.1, h.2.1, h.2.2.1, h.2.2.2.1, h.2.2.2.2.2⟩

theorem comb_derTrans {a b : ℝ → PS} {a' b' : PS} {s : ℝ} (ha : DerTrans a a' s) (hb : DerTrans b b' s)
    (e : ℝ) : DerTrans (fun s => comb e (a s) (b s)) (comb e a' b') s := by
  obtain ⟨h1, h2, h3, h4, h6⟩ := ha
  obtain ⟨g1, g2, g3, g4, g6⟩ := hb
  exact ⟨(h1.mul_const e).add (g1.mul_const _), (h2.mul_const e).add (g2.mul_const _),
    (h3.mul_const e).add (g3.mul_const _), (h4.mul_const e).add (g4.mul_const _), (h6.mul_const e).add (g6.mul_const _)⟩

theorem follows_trans_of (V : PS → PS) (z : PS) (F : ℝ → PS → Outcome Unit PS) (m : ℝ → RT)
    (hF : ∀ s e, F s (scale e z) = .ok (act (m s) (scale e z))) (h0 : ∀ v, act (m 0) v = v) (A B : ℝ → PS)
    (hV : ∀ s, Expand V (lin (m s) z) (quad (m s) z) (A s) (B s))
    (hl : ∀ s, DerTrans (fun s => lin (m s) z) (A s) s)
    (hq : ∀ s, DerTrans (fun s => quad (m s) z) (B s) s) : FollowsTrans V F z := by
  refine ⟨fun s e => comb e (lin (m s) z) (quad (m s) z), fun s e => ?_, fun e => ?_, fun s =>
    ⟨fun e => comb e (A s) (B s), fun e => comb_derTrans (hl s) (hq s) e, ?_⟩⟩
  · rw [hF, act_scale]
  · show comb e _ _ = _
    rw [← act_scale, h0]
  · obtain ⟨h1, h2, h3, h4, -, h6⟩ := hV s
    exact ⟨(((jet_quad _ _).sub h1).congr (by ring) (sub_self _) (sub_self _)).third,
      (((jet_quad _ _).sub h2).congr (by ring) (sub_self _) (sub_self _)).third,
      (((jet_quad _ _).sub h3).congr (by ring) (sub_self _) (sub_self _)).third,
      (((jet_quad _ _).sub h4).congr (by ring) (sub_self _) (sub_self _)).third,
      (((jet_quad _ _).sub h6).congr (by ring) (sub_self _) (sub_self _)).third⟩

/-- Where a map of second order follows the equations, the derivative of its quadratic part is determined. -/
theorem follows_forces {V : PS → PS} {z : PS} {F : ℝ → PS → Outcome Unit PS} {m : ℝ → RT}
    (hF : ∀ s e, F s (scale e z) = .ok (act (m s) (scale e z))) {s : ℝ} {A B A' B' : PS}
    (hV : Expand V (lin (m s) z) (quad (m s) z) A B)
    (hl : DerTrans (fun s => lin (m s) z) A' s) (hq : DerTrans (fun s => quad (m s) z) B' s)
    (h : FollowsTrans V F z) : B'.x = B.x ∧ B'.px = B.px ∧ B'.y = B.y ∧ B'.py = B.py := by
  obtain ⟨M, hM, -, hW⟩ := h
  obtain ⟨W, hD, t1, t2, t3, t4, -⟩ := hW s
  have hMe : ∀ s e, M s e = comb e (lin (m s) z) (quad (m s) z) := fun s e => by
    have := (hM s e).symm.trans (hF s e)
    rw [act_scale] at this
    exact Outcome.ok.inj this
  obtain ⟨v1, v2, v3, v4, -, -⟩ := hV
  have hd := fun e => comb_derTrans hl hq e
  simp only [hMe] at hD t1 t2 t3 t4
  have w1 : ∀ e, (W e).x = (comb e A' B').x := fun e => (hD e).1.unique (hd e).1
  have w2 : ∀ e, (W e).px = (comb e A' B').px := fun e => (hD e).2.1.unique (hd e).2.1
  have w3 : ∀ e, (W e).y = (comb e A' B').y := fun e => (hD e).2.2.1.unique (hd e).2.2.1
  have w4 : ∀ e, (W e).py = (comb e A' B').py := fun e => (hD e).2.2.2.1.unique (hd e).2.2.2.1
  simp only [w1, w2, w3, w4] at t1 t2 t3 t4
  exact ⟨sub_eq_zero.1 (third_zero t1 (((jet_quad _ _).sub v1).congr (by ring) rfl rfl)).2,
    sub_eq_zero.1 (third_zero t2 (((jet_quad _ _).sub v2).congr (by ring) rfl rfl)).2,
    sub_eq_zero.1 (third_zero t3 (((jet_quad _ _).sub v3).congr (by ring) rfl rfl)).2,
    sub_eq_zero.1 (third_zero t4 (((jet_quad _ _).sub v4).congr (by ring) rfl rfl)).2⟩

theorem follows_trans {V : PS → PS} {z : PS} {F : ℝ → PS → Outcome Unit PS} (h : Follows V F z) : FollowsTrans V F z := by
  obtain ⟨M, h1, h2, h3⟩ := h
  refine ⟨M, h1, h2, fun s => ?_⟩
  obtain ⟨W, g1, g2, g3, g4, g5, -, g7⟩ := h3 s
  exact ⟨W, fun e => ⟨(g1 e).1, (g1 e).2.1, (g1 e).2.2.1, (g1 e).2.2.2.1, (g1 e).2.2.2.2.2⟩, g2, g3, g4, g5, g7⟩

/-- As `follows_forces`, for the delay. -/
theorem follows_forces_ct {V : PS → PS} {z : PS} {F : ℝ → PS → Outcome Unit PS} {m : ℝ → RT}
    (hF : ∀ s e, F s (scale e z) = .ok (act (m s) (scale e z))) {s : ℝ} {A B : PS} {a' b' : ℝ}
    (hV : Expand V (lin (m s) z) (quad (m s) z) A B)
    (hl : HasDerivAt (fun s => (lin (m s) z).ct) a' s) (hq : HasDerivAt (fun s => (quad (m s) z).ct) b' s)
    (h : Follows V F z) : b' = B.ct := by
  obtain ⟨M, hM, -, hW⟩ := h
  obtain ⟨W, hD, -, -, -, -, t, -⟩ := hW s
  have hMe : ∀ s e, M s e = comb e (lin (m s) z) (quad (m s) z) := fun s e => by
    have := (hM s e).symm.trans (hF s e)
    rw [act_scale] at this
    exact Outcome.ok.inj this
  obtain ⟨-, -, -, -, v, -⟩ := hV
  have hd : ∀ e, HasDerivAt (fun s => (comb e (lin (m s) z) (quad (m s) z)).ct) (a' * e + b' * e ^ 2) s :=
    fun e => (hl.mul_const e).add (hq.mul_const _)
  simp only [hMe] at hD t
  have w : ∀ e, (W e).ct = a' * e + b' * e ^ 2 := fun e => (hD e).2.2.2.2.1.unique (hd e)
  simp only [w] at t
  exact sub_eq_zero.1 (third_zero t (((jet_quad _ _).sub v).congr (by ring) rfl rfl)).2

theorem expand_lorentz (h k1 k2 : ℝ) (a b : PS) : Expand (lorentz h (bxField k1 k2) (byField h k1 k2)) a b (lorLin h k1 a)
    (addPS (lorLin h k1 b) (lorQuad h k1 k2 a)) := lorentz_jets h k1 k2 a b

/-- The equations of a dipole in canonical momenta to second order: linear part. -/
noncomputable def canLin (h : ℝ) (a : PS) : PS := ⟨a.px, -(h * h * a.x) + h * a.dp, a.py, 0, -(h * a.x), 0⟩

/-- The equations of a dipole in canonical momenta to second order: quadratic part. -/
noncomputable def canQuad (h : ℝ) (a : PS) : PS :=
  ⟨a.px * (h * a.x - a.dp), -(h * (a.px ^ 2 + a.py ^ 2) / 2), a.py * (h * a.x - a.dp), 0,
    -((a.px ^ 2 + a.py ^ 2) / 2), 0⟩

theorem expand_canonical (h : ℝ) (a b : PS) : Expand (canonical h noField fun _ _ => h) a b (canLin h a)
    (addPS (canLin h b) (canQuad h a)) := by
  have jx := jet_quad a.x b.x
  have ju := jet_quad a.px b.px
  have jy := jet_quad a.y b.y
  have jv := jet_quad a.py b.py
  have jd := jet_quad a.dp b.dp
  have j1 := jet_const 1
  have jg := j1.add ((jet_const h).mul jx)
  have jd1 := j1.add jd
  have jr := (((jd1.pow_two.sub ju.pow_two).sub jv.pow_two).congr (a' := 1) (by ring) rfl rfl).sqrt
  refine ⟨((jg.mul ju).div jr).congr ?_ ?_ ?_, (((jet_const h).mul jr).sub (jg.mul (jet_const h))).congr ?_ ?_ ?_,
    ((jg.mul jv).div jr).congr ?_ ?_ ?_, (jg.mul (jet_const 0)).congr ?_ ?_ ?_,
    (j1.sub ((jg.mul jd1).div jr)).congr ?_ ?_ ?_, (jet_const 0).congr rfl rfl (add_zero (0 : ℝ)).symm⟩ <;>
  · try simp only [canLin, canQuad, addPS]
    ring

theorem sector_inside (s h b g : ℝ) : Inside (sectorTerms s h b g) := by
  constructor <;> simp [sectorTerms, r2, t3]

theorem sector_lin (s h b g : ℝ) (v : PS) : lin (sectorTerms s h b g) v =
    ⟨cos (h * s) * v.x + sin (h * s) / h * v.px + (1 - cos (h * s)) / h * v.dp,
      -(sin (h * s) * h) * v.x + cos (h * s) * v.px + sin (h * s) * v.dp, v.y + s * v.py, v.py,
      -sin (h * s) * v.x + (cos (h * s) - 1) / h * v.px + v.ct + (sin (h * s) / h - s) * v.dp, v.dp⟩ := by
  simp only [lin, sectorTerms, r2, linSum, ofVec, toVec]
  norm_num
  refine ⟨?_, ?_, ?_⟩ <;> ring

/-- The quadratic part of a sector bend; the quotient by the velocity and the terms with the energy are kept. -/
theorem sector_quad (s h b g : ℝ) (hh : h ≠ 0) (hb : b ≠ 0) (v : PS) : quad (sectorTerms s h b g) v =
    ⟨-(h * sin (h * s) ^ 2) / 2 * v.x ^ 2 + sin (h * s) * cos (h * s) * (v.x * v.px) + sin (h * s) ^ 2 * (v.x * v.dp) +
        cos (h * s) * (1 - cos (h * s)) / (2 * h) * v.px ^ 2 - cos (h * s) * sin (h * s) / h / b * (v.px * v.dp) -
        sin (h * s) ^ 2 / (2 * h) * v.dp ^ 2 + (cos (h * s) - 1) / (2 * h) * v.py ^ 2,
      -(sin (h * s) / 2 * (v.px ^ 2 + v.py ^ 2)) - sin (h * s) / (2 * (b * b)) * g * v.dp ^ 2,
      sin (h * s) * (v.x * v.py) + (1 - cos (h * s)) / h * (v.px * v.py) - sin (h * s) / h / b * (v.py * v.dp), 0,
      -(sin (h * s) / (2 * h) * (v.px ^ 2 + v.py ^ 2)) + g / (b * b) * (sin (h * s) * (v.x * v.dp) +
        (1 - cos (h * s)) / h * (v.px * v.dp)) - 3 / 2 * g / (b * b * b) * (sin (h * s) / h * v.dp ^ 2), 0⟩ := by
  have e1 : sin (h * s / 2) ^ 2 = (1 - cos (h * s)) / 2 := by
    rw [show h * s = 2 * (h * s / 2) by ring, cos_two_mul, show 2 * (h * s / 2) / 2 = h * s / 2 by ring]
    have := sin_sq_add_cos_sq (h * s / 2)
    linear_combination this
  simp only [quad, sectorTerms, t3, quadSum, ofVec, toVec, e1]
  norm_num
  generalize sin (h * s) = S
  generalize cos (h * s) = C
  refine ⟨?_, ?_, ?_, ?_⟩ <;> (field_simp; ring)

theorem sector_zero (h b g : ℝ) (hh : h ≠ 0) (hb : b ≠ 0) (v : PS) : act (sectorTerms 0 h b g) v = v := by
  rw [act_eq, sector_lin, sector_quad _ _ _ _ hh hb]
  simp [addPS]

theorem sector_lin_der (h b g : ℝ) (hh : h ≠ 0) (z : PS) (s : ℝ) : Symplectic.Spec.Der (fun s => lin (sectorTerms s h b g) z)
    (canLin h (lin (sectorTerms s h b g) z)) s := by
  have hm : HasDerivAt (fun s : ℝ => h * s) h s := by simpa using (hasDerivAt_id s).const_mul h
  have h1 : HasDerivAt (fun s : ℝ => cos (h * s)) (-sin (h * s) * h) s := hm.cos
  have h2 : HasDerivAt (fun s : ℝ => sin (h * s)) (cos (h * s) * h) s := hm.sin
  simp only [sector_lin, canLin]
  refine ⟨?_, ?_, ?_, ?_, ?_, ?_⟩ <;>
  · refine HasDerivAt.congr_deriv (by ader) ?_
    first | (field_simp; done) | (field_simp; ring)

theorem sector_same (s h b g : ℝ) (hh : h ≠ 0) (hb : b ≠ 0) (z : PS) (hz : z.dp = 0 ∨ b = 1 ∧ g = 0) :
    quad (sectorTerms s h b g) z = quad (sectorTerms s h 1 0) z := by
  rcases hz with hz | ⟨rfl, rfl⟩
  · rw [sector_quad _ _ _ _ hh hb, sector_quad _ _ _ _ hh one_ne_zero]
    simp [hz]
  · rfl

/-- The equations hold in canonical momenta where the terms with the velocity do not matter. -/
theorem sector_quad_der (h b g : ℝ) (hh : h ≠ 0) (hb : b ≠ 0) (z : PS) (hz : z.dp = 0 ∨ b = 1 ∧ g = 0) (s : ℝ) :
    Symplectic.Spec.Der (fun s => quad (sectorTerms s h b g) z)
      (addPS (canLin h (quad (sectorTerms s h b g) z)) (canQuad h (lin (sectorTerms s h b g) z))) s := by
  have hm : HasDerivAt (fun s : ℝ => h * s) h s := by simpa using (hasDerivAt_id s).const_mul h
  have h1 : HasDerivAt (fun s : ℝ => cos (h * s)) (-sin (h * s) * h) s := hm.cos
  have h2 : HasDerivAt (fun s : ℝ => sin (h * s)) (cos (h * s) * h) s := hm.sin
  have e := sin_sq_add_cos_sq (h * s)
  simp only [sector_same _ _ _ _ hh hb z hz]
  simp only [sector_lin, sector_quad _ _ _ _ hh one_ne_zero, canLin, canQuad, addPS]
  refine ⟨?_, ?_, ?_, ?_, ?_, ?_⟩ <;> refine HasDerivAt.congr_deriv (by ader) ?_ <;> push_cast <;>
    generalize sin (h * s) = S at e ⊢ <;> generalize cos (h * s) = C at e ⊢
  · field_simp
    grind
  · field_simp
    grind
  · field_simp
    grind
  · ring
  · field_simp
    grind
  · ring

/-- The velocity is positive and the inverse square of the energy lies between zero and one. -/
theorem beta_pos {g : ℝ} (hg : 1 < g) : √(1 - 1 / g / g) ≠ 0 ∧ √(1 - 1 / g / g) < 1 ∧ 0 < 1 / g / g := by
  have h0 : (0 : ℝ) < 1 / g / g := by positivity
  have h1 : 1 / g / g < 1 := by
    rw [div_div, div_lt_one (by positivity)]; nlinarith
  refine ⟨(Real.sqrt_pos.2 (by linarith)).ne', ?_, h0⟩
  rw [Real.sqrt_lt' one_pos]; linarith

theorem sector_run (h : ℝ) (hh : h ≠ 0) (gamma : Option ℝ) (hg : ∀ g, gamma = some g → 1 < g) :
    ∃ b g2, b ≠ 0 ∧ ((gamma = none → b = 1 ∧ g2 = 0) ∧ (∀ g, gamma = some g → b < 1 ∧ 0 < b ∧ 0 < g2)) ∧
    ∀ s v, ((sectorBendTM s h gamma).bind fun m => applyMap m v) = .ok (act (sectorTerms s h b g2) v) := by
  cases gamma with
  | none =>
    refine ⟨1, 0, one_ne_zero, ⟨fun _ => ⟨rfl, rfl⟩, fun g hg => by simp at hg⟩, fun s v => ?_⟩
    simp only [sectorBendTM, if_neg hh, Outcome.bind]
    exact applyMap_eq _ (sector_inside _ _ _ _) v
  | some g =>
    have h1 := hg g rfl
    obtain ⟨b0, b1, b2⟩ := beta_pos h1
    refine ⟨√(1 - 1 / g / g), 1 / g / g, b0, ⟨fun h => by simp at h, fun g' h' => ?_⟩, fun s v => ?_⟩
    · exact ⟨b1, lt_of_le_of_ne (Real.sqrt_nonneg _) (Ne.symm b0), b2⟩
    · simp only [sectorBendTM, if_neg hh, if_neg (not_le.2 h1), Outcome.bind]
      exact applyMap_eq _ (sector_inside _ _ _ _) v

theorem sector_follows (h : ℝ) (hh : h ≠ 0) (gamma : Option ℝ) (hg : ∀ g, gamma = some g → 1 < g) (z : PS)
    (hz : gamma = none ∨ z.dp = 0) : Follows (canonical h noField fun _ _ => h)
      (fun s v => (sectorBendTM s h gamma).bind fun m => applyMap m v) z := by
  obtain ⟨b, g2, hb, ⟨hn, -⟩, hF⟩ := sector_run h hh gamma hg
  have hz' : z.dp = 0 ∨ b = 1 ∧ g2 = 0 := hz.symm.imp_right hn
  exact follows_of _ z _ (fun s => sectorTerms s h b g2) (fun s e => hF s _) (fun v => sector_zero h b g2 hh hb v) _ _
    (fun s => expand_canonical h _ _) (fun s => sector_lin_der h b g2 hh z s)
    (fun s => sector_quad_der h b g2 hh hb z hz' s)

/-- Derivative of the quadratic part at length zero. -/
theorem sector_quad_start (h b g : ℝ) (hh : h ≠ 0) (hb : b ≠ 0) (z : PS) :
    Symplectic.Spec.Der (fun s => quad (sectorTerms s h b g) z)
      ⟨h * (z.x * z.px) - z.px * z.dp / b, -(h / 2 * (z.px ^ 2 + z.py ^ 2)) - h / (2 * (b * b)) * g * z.dp ^ 2,
        h * (z.x * z.py) - z.py * z.dp / b, 0, -((z.px ^ 2 + z.py ^ 2) / 2) + g / (b * b) * (h * (z.x * z.dp)) -
          3 / 2 * g / (b * b * b) * z.dp ^ 2, 0⟩ 0 := by
  have hm : HasDerivAt (fun s : ℝ => h * s) h 0 := by simpa using (hasDerivAt_id (0 : ℝ)).const_mul h
  have h1 : HasDerivAt (fun s : ℝ => cos (h * s)) (-sin (h * 0) * h) 0 := hm.cos
  have h2 : HasDerivAt (fun s : ℝ => sin (h * s)) (cos (h * 0) * h) 0 := hm.sin
  simp only [sector_quad _ _ _ _ hh hb]
  refine ⟨?_, ?_, ?_, ?_, ?_, ?_⟩ <;> refine HasDerivAt.congr_deriv (by ader) ?_ <;>
    simp only [mul_zero, sin_zero, cos_zero] <;> first | (field_simp; done) | (field_simp; ring)

theorem sector_at_zero (h b g : ℝ) (hh : h ≠ 0) (hb : b ≠ 0) (z : PS) :
    lin (sectorTerms 0 h b g) z = z ∧ quad (sectorTerms 0 h b g) z = ⟨0, 0, 0, 0, 0, 0⟩ := by
  rw [sector_lin, sector_quad _ _ _ _ hh hb]
  constructor
  · simp
  · simp

/-- Off the reference momentum the map of a bunch with mass does not follow the equations in canonical momenta. -/
theorem sector_not_canonical (h : ℝ) (hh : h ≠ 0) (g : ℝ) (hg : 1 < g) :
    ¬ FollowsTrans (canonical h noField fun _ _ => h) (fun s v => (sectorBendTM s h (some g)).bind fun m => applyMap m v)
      ⟨0, 0, 0, 0, 0, 1⟩ := by
  intro hf
  obtain ⟨b, g2, hb, ⟨-, hs⟩, hF⟩ := sector_run h hh (some g) (fun g' e => by cases e; exact hg)
  obtain ⟨-, -, h2⟩ := hs g rfl
  obtain ⟨z1, z2⟩ := sector_at_zero h b g2 hh hb ⟨0, 0, 0, 0, 0, 1⟩
  have := (follows_forces (m := fun s => sectorTerms s h b g2) (fun s e => hF s _) (s := 0) (expand_canonical h _ _)
    (derTrans_of (sector_lin_der h b g2 hh _ 0)) (derTrans_of (sector_quad_start h b g2 hh hb _)) hf).2.1
  simp [z1, z2, canLin, canQuad, addPS] at this
  rcases this with h1 | h1
  · rcases h1 with h1 | h1
    · exact hh h1
    · exact hb h1
  · exact h2.ne' h1

/-- The map does not follow the equations in slopes. -/
theorem sector_not_slopes (h : ℝ) (hh : h ≠ 0) (gamma : Option ℝ) (hg : ∀ g, gamma = some g → 1 < g) :
    ¬ FollowsTrans (lorentz h (bxField 0 0) (byField h 0 0)) (fun s v => (sectorBendTM s h gamma).bind fun m => applyMap m v)
      ⟨0, 1, 0, 0, 0, 1⟩ := by
  intro hf
  obtain ⟨b, g2, hb, -, hF⟩ := sector_run h hh gamma hg
  obtain ⟨z1, z2⟩ := sector_at_zero h b g2 hh hb ⟨0, 1, 0, 0, 0, 1⟩
  have := (follows_forces (m := fun s => sectorTerms s h b g2) (fun s e => hF s _) (s := 0) (expand_lorentz h 0 0 _ _)
    (derTrans_of (sector_lin_der h b g2 hh _ 0)) (derTrans_of (sector_quad_start h b g2 hh hb _)) hf).1
  simp [z1, z2, lorLin, lorQuad, addPS] at this
  exact hb this

end Verif.TransportMaps
