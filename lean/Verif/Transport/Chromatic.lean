import Verif.Transport.Motion
import Verif.LinMap.Lemmas

/-!
# Derivatives with respect to the strength
-/

noncomputable section
namespace Verif.Transport
open Verif Real Verif.LinMap.Spec Verif.Transport.Spec

theorem hasDerivAt_cK_strength (K l : ℝ) (hK : K ≠ 0) : HasDerivAt (fun K => cK K l) (-(l / 2) * sK K l) K := by
  by_cases h1 : 0 < K
  · obtain ⟨p, q⟩ := sqrt_facts h1
    have d := ((hasDerivAt_sqrt hK).mul_const l).cos
    have e : (fun K => cK K l) =ᶠ[nhds K] fun K => cos (√K * l) := by
      filter_upwards [lt_mem_nhds h1] with x hx
      simp [cK, hx.ne', hx]
    refine (d.congr_of_eventuallyEq e).congr_deriv ?_
    simp only [sK, hK, h1, if_true, if_false]
    field_simp
  · have hn := trich K hK h1
    obtain ⟨p, q⟩ := sqrt_facts hn
    have ds : HasDerivAt (fun y => √(-y)) (-1 / (2 * √(-K))) K := ((hasDerivAt_id' K).neg).sqrt hn.ne'
    have d := (ds.mul_const l).cosh
    have e : (fun K => cK K l) =ᶠ[nhds K] fun K => cosh (√(-K) * l) := by
      have hK0 : K < 0 := by linarith
      filter_upwards [gt_mem_nhds hK0] with x hx
      simp [cK, hx.ne, not_lt.2 hx.le]
    refine (d.congr_of_eventuallyEq e).congr_deriv ?_
    simp only [sK, hK, h1, if_false]
    field_simp

theorem hasDerivAt_sK_strength (K l : ℝ) (hK : K ≠ 0) :
    HasDerivAt (fun K => sK K l) ((l * cK K l - sK K l) / (2 * K)) K := by
  by_cases h1 : 0 < K
  · obtain ⟨p, q⟩ := sqrt_facts h1
    have d := (((hasDerivAt_sqrt hK).mul_const l).sin).div (hasDerivAt_sqrt hK) p.ne'
    have e : (fun K => sK K l) =ᶠ[nhds K] fun K => sin (√K * l) / √K := by
      filter_upwards [lt_mem_nhds h1] with x hx
      simp [sK, hx.ne', hx]
    refine (d.congr_of_eventuallyEq e).congr_deriv ?_
    simp only [sK, cK, hK, h1, if_true, if_false]
    have q2 : √K ^ 2 = K := by rw [pow_two, q]
    rw [q2]
    field_simp
  · have hn := trich K hK h1
    obtain ⟨p, q⟩ := sqrt_facts hn
    have ds : HasDerivAt (fun y => √(-y)) (-1 / (2 * √(-K))) K := ((hasDerivAt_id' K).neg).sqrt hn.ne'
    have d := ((ds.mul_const l).sinh).div ds p.ne'
    have e : (fun K => sK K l) =ᶠ[nhds K] fun K => sinh (√(-K) * l) / √(-K) := by
      have hK0 : K < 0 := by linarith
      filter_upwards [gt_mem_nhds hK0] with x hx
      simp [sK, hx.ne, not_lt.2 hx.le]
    refine (d.congr_of_eventuallyEq e).congr_deriv ?_
    simp only [sK, cK, hK, h1, if_false]
    have q2 : √(-K) ^ 2 = -K := by rw [pow_two, q]
    rw [q2]
    field_simp
    ring

/-- The strength seen at a momentum deviation. -/
theorem hasDerivAt_strength (K : ℝ) : HasDerivAt (fun d : ℝ => K / (1 + d)) (-K) 0 := by
  have d := (hasDerivAt_const (0 : ℝ) K).div ((hasDerivAt_id' (0 : ℝ)).const_add 1) (by norm_num)
  refine d.congr_deriv ?_
  norm_num

/-- The entries of `quadrupoleT`. -/
def chrom (l Kx Ky : ℝ) (i j : Nat) : ℝ :=
  match i, j with
  | 0, 0 => Kx * l * sK Kx l / 2 | 1, 1 => Kx * l * sK Kx l / 2
  | 0, 1 => (sK Kx l - l * cK Kx l) / 2 | 1, 0 => Kx * (l * cK Kx l + sK Kx l) / 2
  | 2, 2 => Ky * l * sK Ky l / 2 | 3, 3 => Ky * l * sK Ky l / 2
  | 2, 3 => (sK Ky l - l * cK Ky l) / 2 | 3, 2 => Ky * (l * cK Ky l + sK Ky l) / 2
  | _, _ => 0

set_option maxHeartbeats 1000000 in
theorem quadrupoleT_eq (l K : ℝ) (hl : l ≠ 0) (hK : K ≠ 0) : Same 4 (quadrupoleT l K) (chrom l K (-K)) := by
  intro i j hi hj
  have hK' : -K ≠ 0 := neg_ne_zero.2 hK
  unfold quadrupoleT
  rw [if_neg (by simp [hl, hK])]
  by_cases h1 : 0 < K
  · obtain ⟨p, q⟩ := sqrt_facts h1
    have h2 : ¬ K < 0 := not_lt.2 h1.le
    have h3 : ¬ 0 < -K := by linarith
    have q3 : √K ^ 2 = K := by rw [pow_two, q]
    simp only [h1, h2, if_true, if_false]
    interval_cases i <;> interval_cases j <;>
      simp [set, initR, chrom, cK, sK, hK, h1, h3, mul_comm l] <;> field_simp <;>
      (try simp only [q3]) <;> ring
  · have h2 : K < 0 := by have := trich K hK h1; linarith
    have h3 : 0 < -K := by linarith
    obtain ⟨p, q⟩ := sqrt_facts h3
    have q3 : √(-K) ^ 2 = -K := by rw [pow_two, q]
    simp only [h1, h2, if_true, if_false]
    interval_cases i <;> interval_cases j <;>
      simp [set, initR, swapEntries, chrom, cK, sK, hK, h1, h3, mul_comm l] <;> field_simp <;>
      (try simp only [q3]) <;> ring

theorem closed_chrom (l K : ℝ) (hK : K ≠ 0) (i j : Nat) (hi : i < 4) (hj : j < 4) :
    HasDerivAt (fun d => closed l 0 (K / (1 + d)) (-(K / (1 + d))) i j) (chrom l K (-K) i j) 0 := by
  have hs := hasDerivAt_strength K
  have hs' : HasDerivAt (fun d : ℝ => -(K / (1 + d))) K 0 := hs.neg.congr_deriv (neg_neg K)
  have hK' : -K ≠ 0 := neg_ne_zero.2 hK
  have z : K / (1 + 0) = K := by norm_num
  have cx := (show HasDerivAt (fun K => cK K l) (-(l / 2) * sK K l) (K / (1 + 0)) by
    rw [z]; exact hasDerivAt_cK_strength K l hK).comp (0 : ℝ) hs
  have sx := (show HasDerivAt (fun K => sK K l) ((l * cK K l - sK K l) / (2 * K)) (K / (1 + 0)) by
    rw [z]; exact hasDerivAt_sK_strength K l hK).comp (0 : ℝ) hs
  have cy := (show HasDerivAt (fun K => cK K l) (-(l / 2) * sK (-K) l) (-(K / (1 + 0))) by
    rw [z]; exact hasDerivAt_cK_strength (-K) l hK').comp (0 : ℝ) hs'
  have sy := (show HasDerivAt (fun K => sK K l) ((l * cK (-K) l - sK (-K) l) / (2 * (-K))) (-(K / (1 + 0))) by
    rw [z]; exact hasDerivAt_sK_strength (-K) l hK').comp (0 : ℝ) hs'
  have k0 := hasDerivAt_const (0 : ℝ) (0 : ℝ)
  have mx := (hs.neg).mul sx
  have my := (hs'.neg).mul sy
  simp only [Function.comp_def, Pi.neg_def, Pi.mul_def, z] at cx sx cy sy mx my
  interval_cases i <;> interval_cases j <;> simp only [closed, chrom] <;>
    first
      | exact k0
      | exact cx.congr_deriv (by ring)
      | exact cy.congr_deriv (by ring)
      | exact sx.congr_deriv (by field_simp; ring)
      | exact sy.congr_deriv (by field_simp; ring)
      | exact mx.congr_deriv (by field_simp; ring)
      | exact my.congr_deriv (by field_simp; ring)

/-- The derivative of the horizontal block with a change of the strength. -/
def chromX (l K dK : ℝ) (i j : Nat) : ℝ :=
  match i, j with
  | 0, 0 => dK * l * sK K l / 2 | 1, 1 => dK * l * sK K l / 2
  | 0, 1 => dK * (sK K l - l * cK K l) / (2 * K) | 1, 0 => dK * (l * cK K l + sK K l) / 2
  | _, _ => 0

theorem closed_chromX (l K dK : ℝ) (hK : K ≠ 0) (i j : Nat) (hi : i < 2) (hj : j < 2) :
    HasDerivAt (fun d => closed l 0 (K - dK * d) (-(K - dK * d)) i j) (chromX l K dK i j) 0 := by
  have hs : HasDerivAt (fun d : ℝ => K - dK * d) (-dK) 0 := by
    refine (((hasDerivAt_id' (0 : ℝ)).const_mul dK).const_sub K).congr_deriv (by ring)
  have z : K - dK * 0 = K := by ring
  have cx := (show HasDerivAt (fun K => cK K l) (-(l / 2) * sK K l) (K - dK * 0) by
    rw [z]; exact hasDerivAt_cK_strength K l hK).comp (0 : ℝ) hs
  have sx := (show HasDerivAt (fun K => sK K l) ((l * cK K l - sK K l) / (2 * K)) (K - dK * 0) by
    rw [z]; exact hasDerivAt_sK_strength K l hK).comp (0 : ℝ) hs
  have mx := (hs.neg).mul sx
  simp only [Function.comp_def, Pi.neg_def, Pi.mul_def, z] at cx sx mx
  interval_cases i <;> interval_cases j <;> simp only [closed, chromX] <;>
    first
      | exact cx.congr_deriv (by ring)
      | exact sx.congr_deriv (by field_simp; ring)
      | exact mx.congr_deriv (by field_simp; ring)

theorem sectorBendTY_off (l K1 : ℝ) (T : Mat) (i j : Nat) (hi : i < 2) :
    sectorBendTY l K1 T i j = T i j := by
  unfold sectorBendTY
  simp only
  split_ifs <;> simp only [set]
  all_goals repeat rw [if_neg (by omega)]

theorem sectorBendTX_off (l h K1 : ℝ) (T : Mat) (i j : Nat) (hi : 2 ≤ i) :
    sectorBendTX l h K1 T i j = T i j := by
  unfold sectorBendTX
  simp only
  split_ifs <;> simp only [set]
  all_goals repeat rw [if_neg (by omega)]

theorem sectorBendTD_off (l h K1 : ℝ) (T : Mat) (i j : Nat) (hj : j < 5) :
    sectorBendTD l h K1 T i j = T i j := by
  unfold sectorBendTD
  simp only
  split_ifs <;> simp only [set]
  all_goals repeat rw [if_neg (by omega)]

set_option linter.unnecessarySeqFocus false in
theorem sectorBendT_x (l h K1 : ℝ) (hl : l ≠ 0) (hK : 0 < h * h + K1) (i j : Nat) (hi : i < 2) (hj : j < 2) :
    sectorBendT l h K1 i j = chromX l (h * h + K1) (2 * (h * h) + K1) i j := by
  have hne : ¬ (l = 0 ∨ (K1 = 0 ∧ h = 0)) := by
    rintro (e | ⟨e1, e2⟩)
    · exact hl e
    · rw [e1, e2] at hK; norm_num at hK
  unfold sectorBendT
  rw [if_neg hne, sectorBendTD_off _ _ _ _ _ _ (by omega), sectorBendTY_off _ _ _ _ _ hi]
  unfold sectorBendTX
  obtain ⟨p, q⟩ := sqrt_facts hK
  simp only [hK.ne', hK, if_true, if_false]
  generalize 2 * (h * h) + K1 = dK
  generalize h * h + K1 = K at *
  have q3 : √K ^ 2 = K := by rw [pow_two, q]
  interval_cases i <;> interval_cases j <;> simp [set, chromX, cK, sK, hK.ne', hK, mul_comm l] <;> field_simp <;>
    (try simp only [q3]) <;> (try field_simp) <;> ring

theorem sectorBendT_y (l h K1 : ℝ) (hl : l ≠ 0) (hK : K1 ≠ 0) (i j : Nat) (hi : 2 ≤ i ∧ i < 4) (hj : 2 ≤ j ∧ j < 4) :
    sectorBendT l h K1 i j = quadrupoleT l K1 i j := by
  obtain ⟨i1, i2⟩ := hi
  obtain ⟨j1, j2⟩ := hj
  have hne : ¬ (l = 0 ∨ (K1 = 0 ∧ h = 0)) := by
    rintro (e | ⟨e1, e2⟩)
    · exact hl e
    · exact hK e1
  unfold sectorBendT quadrupoleT
  rw [if_neg hne, if_neg (by simp [hl, hK]), sectorBendTD_off _ _ _ _ _ _ (by omega)]
  unfold sectorBendTY
  by_cases h1 : 0 < K1
  · have h2 : ¬ 0 < -K1 := by linarith
    have h3 : -K1 < 0 := by linarith
    have h4 : ¬ K1 < 0 := by linarith
    simp only [h1, h2, h3, h4, if_true, if_false, neg_neg]
    interval_cases i <;> interval_cases j <;> simp [set]
  · have h2 : 0 < -K1 := trich K1 hK h1
    have h4 : K1 < 0 := by linarith
    simp only [h1, h2, h4, if_true, if_false]
    interval_cases i <;> interval_cases j <;> simp [set, swapEntries]

/-! ## Solenoid -/

/-- The entries of a solenoid in terms of cosine and sine. -/
def solClosed (ks c s : ℝ) (i j : Nat) : ℝ :=
  match i, j with
  | 0, 0 => c * c | 1, 1 => c * c | 2, 2 => c * c | 3, 3 => c * c
  | 0, 1 => 2 * (s * c) / ks | 2, 3 => 2 * (s * c) / ks
  | 0, 2 => s * c | 1, 3 => s * c | 2, 0 => -(s * c) | 3, 1 => -(s * c)
  | 0, 3 => 2 * (s * s) / ks | 2, 1 => -2 * (s * s) / ks
  | 1, 0 => -ks * (s * c) / 2 | 3, 2 => -ks * (s * c) / 2
  | 1, 2 => -ks * (s * s) / 2 | 3, 0 => ks * (s * s) / 2
  | 4, 4 => 1 | 5, 5 => 1
  | _, _ => 0

theorem sol_closed (l ks k1 : ℝ) (a b : Bool) (h : eps < |ks / 2 * l|) :
    Same 6 (solenoid l ks k1 a b) (solClosed ks (cos (ks / 2 * l)) (sin (ks / 2 * l))) := by
  have hf : ¬ Fequal (ks / 2 * l) 0 := by unfold Fequal; rw [sub_zero]; exact not_le.2 h
  intro i j hi hj
  unfold solenoid solBody
  simp only [hf, if_false]
  interval_cases i <;> interval_cases j <;> simp [set, initR, solClosed]

theorem ks_ne (l ks : ℝ) (h : eps < |ks / 2 * l|) : ks ≠ 0 := by
  intro e
  rw [e] at h
  simp [eps] at h
  norm_num at h

set_option maxHeartbeats 1000000 in
theorem solClosed_symplectic (ks c s : ℝ) (hk : ks ≠ 0) (t : c ^ 2 + s ^ 2 = 1) : Symplectic 6 (solClosed ks c s) := by
  have t2 : (c ^ 2 + s ^ 2) ^ 2 = 1 := by rw [t]; norm_num
  intro i j hi hj
  rw [show 6 / 2 = 3 from rfl, sumTo3]
  interval_cases i <;> interval_cases j <;> simp [solClosed, form] <;> field_simp <;>
    first | ring1 | linear_combination t2 | linear_combination -t2

set_option maxHeartbeats 2000000 in
theorem solClosed_compose (ks c s d u : ℝ) (hk : ks ≠ 0) :
    Same 6 (solClosed ks (c * d - s * u) (s * d + c * u)) (mul 6 (solClosed ks d u) (solClosed ks c s)) := by
  intro i j hi hj
  unfold mul
  rw [sumTo6]
  interval_cases i <;> interval_cases j <;> simp [solClosed] <;> field_simp <;> ring

theorem solClosed_deriv (ks l : ℝ) (hk : ks ≠ 0) (i j : Nat) (hi : i < 4) (hj : j < 4) :
    HasDerivAt (fun l => solClosed ks (cos (ks / 2 * l)) (sin (ks / 2 * l)) i j)
      (mul 4 (solenoidMotion ks) (solClosed ks (cos (ks / 2 * l)) (sin (ks / 2 * l))) i j) l := by
  have t := sin_sq_add_cos_sq (ks / 2 * l)
  have hl := (hasDerivAt_id' l).const_mul (ks / 2)
  have dc := hl.cos
  have ds := hl.sin
  have cc := dc.mul dc
  have sc := ds.mul dc
  have ss := ds.mul ds
  simp only [Pi.mul_def] at cc sc ss
  unfold mul
  rw [sumTo4]
  interval_cases i <;> interval_cases j <;> simp only [solClosed, solenoidMotion] <;>
    first
      | exact cc.congr_deriv (by field_simp; ring)
      | exact sc.congr_deriv (by field_simp; ring)
      | exact sc.neg.congr_deriv (by field_simp; ring)
      | exact ((sc.const_mul 2).div_const ks).congr_deriv (by field_simp; ring)
      | exact ((ss.const_mul 2).div_const ks).congr_deriv (by field_simp; ring)
      | exact ((ss.const_mul (-2)).div_const ks).congr_deriv (by field_simp; ring)
      | exact ((sc.const_mul (-ks)).div_const 2).congr_deriv (by field_simp; ring)
      | exact ((ss.const_mul (-ks)).div_const 2).congr_deriv (by field_simp; ring)
      | exact ((ss.const_mul ks).div_const 2).congr_deriv (by field_simp; ring)

/-! ## Sparse maps -/

theorem mat_append (a b : LinMap.Map ℝ) (i j : Nat) : mat (a ++ b) i j = mat a i j + mat b i j := by
  simp [mat]

theorem strength_eq (K l : ℝ) (h1 : 0 < K) : -√K * sin (√K * l) = -K * (sin (√K * l) / √K) := by
  obtain ⟨p, q⟩ := sqrt_facts h1
  field_simp
  linear_combination (-sin (√K * l)) * q

theorem strength_eq' (K l : ℝ) (h0 : K ≠ 0) (h1 : ¬ 0 < K) :
    √(-K) * sinh (√(-K) * l) = -K * (sinh (√(-K) * l) / √(-K)) := by
  obtain ⟨p, q⟩ := sqrt_facts (trich K h0 h1)
  field_simp
  linear_combination sinh (√(-K) * l) * q

theorem qr2_closed (l K : ℝ) (o i j : Nat) : mat (qr2 l K o) i j =
    mat [term (o + 1) (o + 1) (cK K l), term (o + 2) (o + 2) (cK K l), term (o + 1) (o + 2) (sK K l),
      term (o + 2) (o + 1) (-K * sK K l)] i j := by
  unfold qr2 cK sK
  by_cases h0 : K = 0
  · simp only [h0, if_true, LinMap.mat_cons, LinMap.mat_nil, neg_zero, zero_mul, ite_self, term]
    ring
  · by_cases h1 : 0 < K
    · simp only [h0, h1, if_true, if_false, strength_eq K l h1]
    · simp only [h0, h1, if_false, strength_eq' K l h0 h1]

theorem quadMap_closed (l K1 : ℝ) : Same 4 (mat (quadMap l K1)) (closed l 0 K1 (-K1)) := by
  intro i j hi hj
  unfold quadMap
  rw [mat_append, qr2_closed, qr2_closed]
  interval_cases i <;> interval_cases j <;> simp [LinMap.mat_cons, LinMap.mat_nil, term, closed]

theorem sbrDMap_closed (l h K : ℝ) (i j : Nat) : mat (sbrDMap l h K) i j =
    (fun h => mat [term 1 6 (h * (1 - cK K l) / K), term 2 6 (h * sK K l), term 5 6 (-h * h * (l - sK K l) / K),
      term 5 1 (-h * sK K l), term 5 2 (-h * (1 - cK K l) / K)] i j) (if K = 0 then 0 else h) := by
  unfold sbrDMap cK sK
  by_cases h0 : K = 0
  · simp [h0, LinMap.mat_cons, LinMap.mat_nil, term]
  · by_cases hh : h = 0
    · simp [hh, LinMap.mat_cons, LinMap.mat_nil, term]
    · by_cases h1 : 0 < K
      · obtain ⟨p, q⟩ := sqrt_facts h1
        have e : -h * h * (√K * l - sin (√K * l)) / (K * √K) = -h * h * (l - sin (√K * l) / √K) / K := by field_simp
        simp only [h0, hh, h1, ne_eq, not_false_eq_true, and_self, if_true, if_false, e, mul_div_assoc]
      · obtain ⟨p, q⟩ := sqrt_facts (trich K h0 h1)
        have e : -h * h * (√(-K) * l - sinh (√(-K) * l)) / (K * √(-K)) = -h * h * (l - sinh (√(-K) * l) / √(-K)) / K := by
          field_simp
        simp only [h0, hh, h1, ne_eq, not_false_eq_true, and_self, if_true, if_false, e, mul_div_assoc]

theorem bendMap_closed (l h K1 : ℝ) :
    Same 6 (mat (bendMap l h K1)) (closed l (if K1 + h * h = 0 then 0 else h) (K1 + h * h) (-K1)) := by
  intro i j hi hj
  unfold bendMap
  by_cases hl : l = 0
  · rw [if_pos hl, hl, closed_zero _ _ _ i j hi hj]
    interval_cases i <;> interval_cases j <;> simp [idMap, LinMap.mat_cons, LinMap.mat_nil, term, initR]
  · rw [if_neg hl]
    simp only
    rw [mat_append, mat_append, mat_append, qr2_closed, qr2_closed, sbrDMap_closed]
    generalize (if K1 + h * h = 0 then 0 else h) = h'
    interval_cases i <;> interval_cases j <;> simp [LinMap.mat_cons, LinMap.mat_nil, term, closed]

theorem quad2_closed (l K : ℝ) : quad2 l K = ⟨cK K l, sK K l, -K * sK K l, cK K l⟩ := by
  unfold quad2 cK sK
  by_cases h0 : K = 0
  · simp [h0, drift2]
  · by_cases h1 : 0 < K
    · obtain ⟨p, q⟩ := sqrt_facts h1
      simp only [h0, h1, if_true, if_false, LinMap.R2.mk.injEq, true_and, and_true]
      exact strength_eq K l h1
    · obtain ⟨p, q⟩ := sqrt_facts (trich K h0 h1)
      simp only [h0, h1, if_false, LinMap.R2.mk.injEq, true_and, and_true]
      exact strength_eq' K l h0 h1

end Verif.Transport
