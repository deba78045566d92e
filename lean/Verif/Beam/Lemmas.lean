import Mathlib.Tactic.Ring
import Mathlib.Tactic.FieldSimp
import Mathlib.Tactic.LinearCombination
import Mathlib.Tactic.IntervalCases
import Mathlib.Tactic.Linarith
import Mathlib.Tactic.Positivity
import Verif.LinMap.Properties
import Verif.Transport.Lemmas
import Verif.Beam.Spec

/-!
# Lemmas on beam matrices
-/

namespace Verif.Beam
open Verif Real Verif.LinMap.Spec Verif.Transport.Spec Verif.Beam.Spec

theorem sum3 (f : Nat → ℝ) : sumTo 3 f = f 0 + f 1 + f 2 := by simp [sumTo, List.range_succ]; ring
theorem sum2 (f : Nat → ℝ) : sumTo 2 f = f 0 + f 1 := by simp [sumTo, List.range_succ]
theorem sum6 (f : Nat → ℝ) : sumTo 6 f = f 0 + f 1 + f 2 + f 3 + f 4 + f 5 := by simp [sumTo, List.range_succ]; ring

theorem prod_eq (A B : Mat) (i j : Nat) : prod A B i j =
    A i 0 * B 0 j + A i 1 * B 1 j + A i 2 * B 2 j + A i 3 * B 3 j + A i 4 * B 4 j + A i 5 * B 5 j :=
  sum6 fun k => A i k * B k j

/-! ## Coupling -/

/-- A coupling matrix with its entries. -/
def cpl (h a b c d : ℝ) (i j : Nat) : ℝ :=
  match i, j with
  | 0, 0 => h | 1, 1 => h | 2, 2 => h | 3, 3 => h
  | 0, 2 => a | 0, 3 => b | 1, 2 => -c | 1, 3 => -d
  | 2, 0 => d | 2, 1 => b | 3, 0 => -c | 3, 1 => -a
  | 4, 4 => 1 | 5, 5 => 1
  | _, _ => 0

theorem couplingBody_eq (h z a b c d : ℝ) :
    Same 6 (couplingBody h z a b c d) (cpl h (a * z) (b * z) (c * z) (d * z)) := by
  intro i j hi hj
  interval_cases i <;> interval_cases j <;> simp [couplingBody, set, identity, cpl]

/-- The factors of a coupling matrix. -/
theorem coupling_cpl (a b c d : ℝ) : ∃ h z : ℝ, h ^ 2 + z ^ 2 * (b * c - a * d) = 1 ∧
    Same 6 (couplingMatrix a b c d) (cpl h (a * z) (b * z) (c * z) (d * z)) ∧
    Same 6 (couplingMatrix (-a) (-b) (-c) (-d)) (cpl h (-a * z) (-b * z) (-c * z) (-d * z)) := by
  have e : -b * -c - -a * -d = b * c - a * d := by ring
  rcases lt_trichotomy (b * c - a * d) 0 with hd | hd | hd
  · have hp : 0 < -(b * c - a * d) := by linarith
    have hs : √(-(b * c - a * d)) ≠ 0 := (sqrt_pos.2 hp).ne'
    refine ⟨cosh √(-(b * c - a * d)), sinh √(-(b * c - a * d)) / √(-(b * c - a * d)), ?_, ?_, ?_⟩
    · have h1 := mul_self_sqrt hp.le
      have h2 := cosh_sq √(-(b * c - a * d))
      rw [h2]
      have : b * c - a * d = -(√(-(b * c - a * d)) * √(-(b * c - a * d))) := by rw [h1]; ring
      generalize √(-(b * c - a * d)) = s at *
      rw [this]
      field_simp
      ring
    · simp only [couplingMatrix, if_neg hd.ne, if_neg hd.not_gt]
      exact couplingBody_eq _ _ _ _ _ _
    · simp only [couplingMatrix, e, if_neg hd.ne, if_neg hd.not_gt]
      exact couplingBody_eq _ _ _ _ _ _
  · refine ⟨1, 0, by simp, ?_, ?_⟩
    · simp only [couplingMatrix, if_pos hd]
      intro i j hi hj
      interval_cases i <;> interval_cases j <;> simp [identity, cpl]
    · simp only [couplingMatrix, e, if_pos hd]
      intro i j hi hj
      interval_cases i <;> interval_cases j <;> simp [identity, cpl]
  · have hs : √(b * c - a * d) ≠ 0 := (sqrt_pos.2 hd).ne'
    refine ⟨cos √(b * c - a * d), sin √(b * c - a * d) / √(b * c - a * d), ?_, ?_, ?_⟩
    · have h1 := mul_self_sqrt hd.le
      have h2 := cos_sq_add_sin_sq √(b * c - a * d)
      have : b * c - a * d = √(b * c - a * d) * √(b * c - a * d) := h1.symm
      generalize √(b * c - a * d) = s at *
      rw [this]
      field_simp
      linarith
    · simp only [couplingMatrix, if_neg hd.ne', if_pos hd]
      exact couplingBody_eq _ _ _ _ _ _
    · simp only [couplingMatrix, e, if_neg hd.ne', if_pos hd]
      exact couplingBody_eq _ _ _ _ _ _

theorem cpl_symplectic (h a b c d : ℝ) (e : h ^ 2 + (b * c - a * d) = 1) : Symplectic 6 (cpl h a b c d) := by
  intro i j hi hj
  rw [show 6 / 2 = 3 from rfl, sum3]
  interval_cases i <;> interval_cases j <;> simp [cpl, form] <;>
    first | (ring1) | (linear_combination e) | (linear_combination -e)

theorem same_symplectic {A B : Mat} (h : Same 6 A B) (hB : Symplectic 6 B) : Symplectic 6 A := by
  intro i j hi hj
  rw [← hB i j hi hj, show 6 / 2 = 3 from rfl, sum3, sum3]
  simp only [h _ i (show 2 * 0 < 6 by decide) hi, h _ j (show 2 * 0 < 6 by decide) hj,
    h _ i (show 2 * 0 + 1 < 6 by decide) hi, h _ j (show 2 * 0 + 1 < 6 by decide) hj,
    h _ i (show 2 * 1 < 6 by decide) hi, h _ j (show 2 * 1 < 6 by decide) hj,
    h _ i (show 2 * 1 + 1 < 6 by decide) hi, h _ j (show 2 * 1 + 1 < 6 by decide) hj,
    h _ i (show 2 * 2 < 6 by decide) hi, h _ j (show 2 * 2 < 6 by decide) hj,
    h _ i (show 2 * 2 + 1 < 6 by decide) hi, h _ j (show 2 * 2 + 1 < 6 by decide) hj]

theorem prod_same {A B C D : Mat} (h1 : Same 6 A C) (h2 : Same 6 B D) : Same 6 (prod A B) (prod C D) := by
  intro i j hi hj
  rw [prod_eq, prod_eq]
  simp only [h1 i 0 hi (by decide), h1 i 1 hi (by decide), h1 i 2 hi (by decide), h1 i 3 hi (by decide),
    h1 i 4 hi (by decide), h1 i 5 hi (by decide), h2 0 j (by decide) hj, h2 1 j (by decide) hj,
    h2 2 j (by decide) hj, h2 3 j (by decide) hj, h2 4 j (by decide) hj, h2 5 j (by decide) hj]

theorem cpl_inverse (h a b c d : ℝ) (e : h ^ 2 + (b * c - a * d) = 1) :
    Same 6 (prod (cpl h a b c d) (cpl h (-a) (-b) (-c) (-d))) one := by
  intro i j hi hj
  rw [prod_eq]
  interval_cases i <;> interval_cases j <;> simp [cpl, one] <;>
    first | (ring1) | (linear_combination e)

/-! ## Normal transform -/

/-- Rows of the normal transform, given the coupling matrix. -/
noncomputable def nrow (t : BeamData) (C : Mat) (i j : Nat) : ℝ :=
  match i with
  | 0 => √t.beta_x * C 0 j + t.Dx * C 5 j
  | 1 => 1 / √t.beta_x * (C 1 j - t.alpha_x * C 0 j) + t.Dxp * C 5 j
  | 2 => √t.beta_y * C 2 j + t.Dy * C 5 j
  | 3 => 1 / √t.beta_y * (C 3 j - t.alpha_y * C 2 j) + t.Dyp * C 5 j
  | _ => C i j

theorem normal_rows (t : BeamData) (i j : Nat) (hi : i < 6) : normalTransform t i j =
    nrow t (couplingMatrix t.c_xy t.c_xyp t.c_xpy t.c_xpyp) i j := by
  unfold normalTransform
  generalize couplingMatrix t.c_xy t.c_xyp t.c_xpy t.c_xpyp = C
  rw [prod_eq]
  simp only [prod_eq]
  interval_cases i <;>
    simp [nrow, dispersionMatrix, betaMatrix, alphaMatrix, set, identity] <;> ring

theorem coupling_zero : couplingMatrix 0 0 0 0 = identity := by simp [couplingMatrix]

theorem normal_uncoupled (t : BeamData) (hc : Uncoupled t) (i j : Nat) (hi : i < 6) :
    normalTransform t i j = nrow t identity i j := by
  rw [normal_rows t i j hi, hc.1, hc.2.1, hc.2.2.1, hc.2.2.2, coupling_zero]

/-! ## Second moments -/

theorem el_applyMat (R : Mat) (S : LinMap.Cov ℝ) (i j : Nat) (hi : i < 6) (hj : j < 6) :
    el (applyMat R S) i j = sumTo 6 (fun k => sumTo 6 (fun l => R i k * R j l * el S k l)) := by
  classical
  unfold el applyMat
  rw [LinMap.apply_covariance 6 _ S i j hi hj]
  unfold conjugate
  have h := (LinMap.of_matrix (K := ℝ) R 6 6).2.2
  have e : ∀ a b, a < 6 → b < 6 → mat (LinMap.ofMatrix 6 6 R) a b = R a b := fun a b ha hb => by
    rw [h a b, if_pos ⟨ha, hb⟩]
  simp only [sum6, e i 0 hi (by decide), e i 1 hi (by decide), e i 2 hi (by decide), e i 3 hi (by decide),
    e i 4 hi (by decide), e i 5 hi (by decide), e j 0 hj (by decide), e j 1 hj (by decide), e j 2 hj (by decide),
    e j 3 hj (by decide), e j 4 hj (by decide), e j 5 hj (by decide)]

/-- Diagonal of the moments before the transformation. -/
noncomputable def dia (t : BeamData) (i : Nat) : ℝ :=
  match i with
  | 0 => t.emit_x | 1 => t.emit_x | 2 => t.emit_y | 3 => t.emit_y | 4 => t.sig_z ^ 2 | 5 => t.sig_dp ^ 2 | _ => 0

theorem el_sigma0 (t : BeamData) (i j : Nat) (hi : i < 6) (hj : j < 6) :
    el (sigma0 t) i j = if i = j then dia t i else 0 := by
  interval_cases i <;> interval_cases j <;>
    simp [el, sigma0, LinMap.sig, LinMap.setSig, LinMap.upd, LinMap.off, dia]

/-- Sum over a diagonal matrix. -/
theorem conj_diag (R : Mat) (S : LinMap.Cov ℝ) (w : Nat → ℝ)
    (h : ∀ k l, k < 6 → l < 6 → el S k l = if k = l then w k else 0) (i j : Nat) (hi : i < 6) (hj : j < 6) :
    el (applyMat R S) i j = sumTo 6 (fun k => R i k * R j k * w k) := by
  rw [el_applyMat R S i j hi hj]
  simp only [sum6]
  simp only [h 0 0 (by decide) (by decide), h 0 1 (by decide) (by decide), h 0 2 (by decide) (by decide),
    h 0 3 (by decide) (by decide), h 0 4 (by decide) (by decide), h 0 5 (by decide) (by decide),
    h 1 0 (by decide) (by decide), h 1 1 (by decide) (by decide), h 1 2 (by decide) (by decide),
    h 1 3 (by decide) (by decide), h 1 4 (by decide) (by decide), h 1 5 (by decide) (by decide),
    h 2 0 (by decide) (by decide), h 2 1 (by decide) (by decide), h 2 2 (by decide) (by decide),
    h 2 3 (by decide) (by decide), h 2 4 (by decide) (by decide), h 2 5 (by decide) (by decide),
    h 3 0 (by decide) (by decide), h 3 1 (by decide) (by decide), h 3 2 (by decide) (by decide),
    h 3 3 (by decide) (by decide), h 3 4 (by decide) (by decide), h 3 5 (by decide) (by decide),
    h 4 0 (by decide) (by decide), h 4 1 (by decide) (by decide), h 4 2 (by decide) (by decide),
    h 4 3 (by decide) (by decide), h 4 4 (by decide) (by decide), h 4 5 (by decide) (by decide),
    h 5 0 (by decide) (by decide), h 5 1 (by decide) (by decide), h 5 2 (by decide) (by decide),
    h 5 3 (by decide) (by decide), h 5 4 (by decide) (by decide), h 5 5 (by decide) (by decide)]
  simp

theorem el_toSigma (t : BeamData) (i j : Nat) (hi : i < 6) (hj : j < 6) :
    el (toSigma t).cov i j = sumTo 6 (fun k => normalTransform t i k * normalTransform t j k * dia t k) :=
  conj_diag _ _ (dia t) (fun k l hk hl => el_sigma0 t k l hk hl) i j hi hj

theorem toSigma_uncoupled_eq (t : BeamData) (hc : Uncoupled t) (hx : 0 < t.beta_x) (hy : 0 < t.beta_y) (i j : Nat)
    (hi : i < 6) (hj : j < 6) : el (toSigma t).cov i j = beamSigma t i j := by
  rw [el_toSigma t i j hi hj]
  simp only [normal_uncoupled t hc i _ hi, normal_uncoupled t hc j _ hj]
  have sx := (mul_self_sqrt hx.le).symm
  have sy := (mul_self_sqrt hy.le).symm
  have px := (sqrt_pos.2 hx).ne'
  have py := (sqrt_pos.2 hy).ne'
  rw [sum6]
  simp only [nrow]
  generalize √t.beta_x = u at *
  generalize √t.beta_y = v at *
  interval_cases i <;> interval_cases j <;>
    simp [identity, beamSigma, twiss, disp, dia, gamma, sx, sy] <;>
    (try field_simp) <;> (try ring)

/-! ## Back from the second moments -/

theorem sigma_congr {S T : LinMap.Cov ℝ} (h : ∀ i j, i < 6 → j < 6 → el S i j = el T i j) (R : Mat) (i j : Nat)
    (hi : i < 6) (hj : j < 6) : el (applyMat R S) i j = el (applyMat R T) i j := by
  rw [el_applyMat R S i j hi hj, el_applyMat R T i j hi hj]
  refine Transport.sumTo_congr fun k hk => Transport.sumTo_congr fun l hl => ?_
  rw [h k l hk hl]

theorem applyMat_identity (S : LinMap.Cov ℝ) (i j : Nat) (hi : i < 6) (hj : j < 6) :
    el (applyMat identity S) i j = el S i j := by
  rw [el_applyMat identity S i j hi hj]
  simp only [sum6]
  interval_cases i <;> interval_cases j <;> simp [identity]

/-- Second moments without dispersion. -/
noncomputable def plain (t : BeamData) (i j : Nat) : ℝ :=
  if i = 5 ∧ j = 5 then t.sig_dp ^ 2 else twiss t i j

theorem disp_row (a b c d : ℝ) (f : Nat → ℝ) (i : Nat) (hi : i < 6) :
    sumTo 6 (fun k => dispersionMatrix a b c d i k * f k) =
      f i + (match i with | 0 => a | 1 => b | 2 => c | 3 => d | _ => 0) * f 5 := by
  rw [sum6]
  interval_cases i <;> simp [dispersionMatrix, set, identity]

theorem sumTo_mul_left' (n : Nat) (f : Nat → ℝ) (c : ℝ) : (sumTo n fun k => c * f k) = c * sumTo n f := by
  induction n with
  | zero => simp [sumTo]
  | succ n ih => simp only [sumTo, List.range_succ, List.map_append, List.sum_append] at *; rw [ih]; simp [mul_add]

theorem removeDispersion_eq (t : BeamData) (S : LinMap.Cov ℝ)
    (h : ∀ i j, i < 6 → j < 6 → el S i j = beamSigma t i j)
    (hd : t.sig_dp ≠ 0 ∨ (t.Dx = 0 ∧ t.Dxp = 0 ∧ t.Dy = 0 ∧ t.Dyp = 0)) :
    (removeDispersion S).1 = (t.Dx, t.Dxp, t.Dy, t.Dyp) ∧
    ∀ i j, i < 6 → j < 6 → el (removeDispersion S).2 i j = plain t i j := by
  have h5 : el S 5 5 = t.sig_dp ^ 2 := by
    rw [h 5 5 (by decide) (by decide)]; simp [beamSigma, twiss, disp]
  by_cases h0 : t.sig_dp = 0
  · have e : ¬ (el S 5 5 ≠ 0) := by simp [h5, h0]
    obtain ⟨d1, d2, d3, d4⟩ := hd.resolve_left (by simp [h0])
    unfold removeDispersion
    simp only [if_neg e]
    refine ⟨by rw [d1, d2, d3, d4], fun i j hi hj => ?_⟩
    rw [h i j hi hj]
    unfold beamSigma plain
    rw [h0]
    interval_cases i <;> interval_cases j <;> simp [twiss]
  · have e : el S 5 5 ≠ 0 := by rw [h5]; exact pow_ne_zero 2 h0
    have q : ∀ i, i < 4 → el S i 5 / el S 5 5 = disp t i := by
      intro i hi
      rw [h5, h i 5 (by omega) (by decide)]
      interval_cases i <;> simp [beamSigma, twiss, disp] <;> field_simp
    unfold removeDispersion
    simp only [if_pos e, q 0 (by decide), q 1 (by decide), q 2 (by decide), q 3 (by decide)]
    refine ⟨rfl, fun i j hi hj => ?_⟩
    rw [el_applyMat _ S i j hi hj]
    have hS : ∀ k l, k < 6 → l < 6 → el S k l = beamSigma t k l := h
    have hs : sumTo 6 (fun k => sumTo 6 (fun l => dispersionMatrix (-disp t 0) (-disp t 1) (-disp t 2) (-disp t 3) i k *
        dispersionMatrix (-disp t 0) (-disp t 1) (-disp t 2) (-disp t 3) j l * el S k l)) =
        sumTo 6 (fun k => sumTo 6 (fun l => dispersionMatrix (-disp t 0) (-disp t 1) (-disp t 2) (-disp t 3) i k *
        dispersionMatrix (-disp t 0) (-disp t 1) (-disp t 2) (-disp t 3) j l * beamSigma t k l)) :=
      Transport.sumTo_congr fun k hk => Transport.sumTo_congr fun l hl => by rw [hS k l hk hl]
    rw [hs]
    simp only [mul_assoc, sumTo_mul_left', disp_row _ _ _ _ _ j hj]
    rw [disp_row _ _ _ _ _ i hi]
    unfold beamSigma plain
    clear hs hS h q e h5 hd
    interval_cases i <;> interval_cases j <;> simp [twiss, disp] <;> ring

/-- Determinants of the planes. -/
theorem plain_det (t : BeamData) (hx : 0 < t.beta_x) (hy : 0 < t.beta_y) :
    plain t 0 0 * plain t 1 1 - plain t 0 1 ^ 2 = t.emit_x ^ 2 ∧
    plain t 2 2 * plain t 3 3 - plain t 2 3 ^ 2 = t.emit_y ^ 2 := by
  have bx := hx.ne'
  have b_y := hy.ne'
  constructor <;> simp [plain, twiss, gamma] <;> field_simp <;> ring

theorem decoupleStep_plain (t : BeamData) (S : LinMap.Cov ℝ) (h : ∀ i j, i < 6 → j < 6 → el S i j = plain t i j)
    (hx : 0 < t.beta_x) (hy : 0 < t.beta_y) :
    decoupleStep S = open Classical in if t.emit_y ^ 2 - t.emit_x ^ 2 = 0 then none else some (0, 0, 0, 0) := by
  obtain ⟨p1, p2⟩ := plain_det t hx hy
  unfold decoupleStep
  have ed : el S 2 2 * el S 3 3 - el S 2 3 * el S 2 3 - (el S 0 0 * el S 1 1 - el S 0 1 * el S 0 1) =
      t.emit_y ^ 2 - t.emit_x ^ 2 := by
    rw [h 2 2 (by decide) (by decide), h 3 3 (by decide) (by decide), h 2 3 (by decide) (by decide),
      h 0 0 (by decide) (by decide), h 1 1 (by decide) (by decide), h 0 1 (by decide) (by decide), ← p1, ← p2]
    ring
  have z : ∀ i j, i < 2 → 2 ≤ j → j < 4 → el S i j = 0 := by
    intro i j hi hj hj4
    rw [h i j (by omega) (by omega)]
    interval_cases i <;> interval_cases j <;> simp [plain, twiss]
  simp only [ed, z 0 2 (by decide) (by decide) (by decide), z 0 3 (by decide) (by decide) (by decide),
    z 1 2 (by decide) (by decide) (by decide), z 1 3 (by decide) (by decide) (by decide)]
  split <;> simp

theorem couplingFactor_one : couplingFactor 1 = 0 := by simp [couplingFactor]

/-! ## Covariances of transformed samples -/

theorem mean_add (l : List (Nat → ℝ)) (f g : (Nat → ℝ) → ℝ) :
    Bunch.Spec.mean (l.map fun u => f u + g u) = Bunch.Spec.mean (l.map f) + Bunch.Spec.mean (l.map g) := by
  unfold Bunch.Spec.mean
  simp only [List.length_map, List.sum_map_add]
  ring

theorem mean_mul (l : List (Nat → ℝ)) (c : ℝ) (f : (Nat → ℝ) → ℝ) :
    Bunch.Spec.mean (l.map fun u => c * f u) = c * Bunch.Spec.mean (l.map f) := by
  unfold Bunch.Spec.mean
  simp only [List.length_map, List.sum_map_mul_left]
  ring

theorem mean_const (l : List (Nat → ℝ)) (hl : l ≠ []) (c : ℝ) : Bunch.Spec.mean (l.map fun _ => c) = c := by
  unfold Bunch.Spec.mean
  have : (l.length : ℝ) ≠ 0 := by
    simpa using hl
  simp only [List.map_const', List.sum_replicate, List.length_replicate, nsmul_eq_mul]
  field_simp

theorem sumTo_succ (n : Nat) (f : Nat → ℝ) : sumTo (n + 1) f = sumTo n f + f n := by
  simp [sumTo, List.range_succ]

theorem mean_sumTo (l : List (Nat → ℝ)) (f : Nat → (Nat → ℝ) → ℝ) : ∀ n,
    Bunch.Spec.mean (l.map fun u => sumTo n fun k => f k u) = sumTo n fun k => Bunch.Spec.mean (l.map (f k))
  | 0 => by simp [sumTo, Bunch.Spec.mean]
  | n + 1 => by
    simp only [sumTo_succ]
    rw [mean_add, mean_sumTo l f n]

theorem sumTo_mul_right (n : Nat) (f : Nat → ℝ) (c : ℝ) : sumTo n f * c = sumTo n fun k => f k * c := by
  induction n with
  | zero => simp [sumTo]
  | succ n ih => rw [sumTo_succ, sumTo_succ, add_mul, ih]

theorem sumTo_mul_left (n : Nat) (f : Nat → ℝ) (c : ℝ) : c * sumTo n f = sumTo n fun k => c * f k := by
  induction n with
  | zero => simp [sumTo]
  | succ n ih => rw [sumTo_succ, sumTo_succ, mul_add, ih]

theorem sumTo_sub (n : Nat) (f g : Nat → ℝ) : sumTo n f - sumTo n g = sumTo n fun k => f k - g k := by
  induction n with
  | zero => simp [sumTo]
  | succ n ih => rw [sumTo_succ, sumTo_succ, sumTo_succ, ← ih]; ring

/-- Covariances under a linear map and a shift. -/
theorem cov_affine (l : List (Nat → ℝ)) (hl : l ≠ []) (n : Nat) (G : Mat) (c : Nat → ℝ) (i j : Nat) :
    Bunch.Spec.cov (l.map fun u => fun i => (sumTo n fun k => G i k * u k) + c i) i j =
      sumTo n fun k => sumTo n fun m => G i k * G j m * Bunch.Spec.cov l k m := by
  have hm : ∀ i, Bunch.Spec.mean (l.map fun u => (sumTo n fun k => G i k * u k) + c i) =
      (sumTo n fun k => G i k * Bunch.Spec.mean (l.map fun u => u k)) + c i := by
    intro i
    rw [mean_add, mean_const l hl, mean_sumTo]
    simp only [mean_mul]
  have hc : ∀ k m, Bunch.Spec.cov l k m = Bunch.Spec.mean (l.map fun u =>
      (u k - Bunch.Spec.mean (l.map fun q => q k)) * (u m - Bunch.Spec.mean (l.map fun q => q m))) := fun _ _ => rfl
  unfold Bunch.Spec.cov
  simp only [List.map_map, Function.comp_def]
  rw [hm i, hm j]
  have e : ∀ u : Nat → ℝ, ((sumTo n fun k => G i k * u k) + c i -
      ((sumTo n fun k => G i k * Bunch.Spec.mean (l.map fun u => u k)) + c i)) *
      ((sumTo n fun k => G j k * u k) + c j -
      ((sumTo n fun k => G j k * Bunch.Spec.mean (l.map fun u => u k)) + c j)) =
      sumTo n fun k => sumTo n fun m => G i k * G j m * ((u k - Bunch.Spec.mean (l.map fun q => q k)) *
        (u m - Bunch.Spec.mean (l.map fun q => q m))) := by
    intro u
    rw [add_sub_add_right_eq_sub, add_sub_add_right_eq_sub, sumTo_sub, sumTo_sub, sumTo_mul_right]
    congr 1; funext k
    rw [sumTo_mul_left]
    congr 1; funext m
    ring
  simp only [e, mean_sumTo, mean_mul]

end Verif.Beam
