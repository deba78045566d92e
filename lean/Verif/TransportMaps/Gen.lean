import Verif.TransportMaps.Terms
import Verif.Transport.Lemmas

/-!
# The bend with gradient
-/

set_option linter.unusedVariables false
set_option linter.unusedSectionVars false

namespace Verif.TransportMaps
open Verif Verif.Symplectic Verif.TransportMaps.Spec Verif.Transport Real

noncomputable section

/-- The second order terms of the transverse coordinates. -/
theorem genT_take {h k W K1 : ℝ} (s K2 C S c y : ℝ) (hk : K1 + h * h = k) (hW : k + -4 * -K1 = W) (hK : K1 = k - h ^ 2) :
    (genT s h K1 K2 C S (h * (1 - C) / k) (-k * S) C (h * S) c y ((k - h ^ 2) * y) c).take 30 =
    [t3 1 1 1 (g111 h k W K2 s C S c y), t3 1 1 2 (g112 h k W K2 s C S c y), t3 1 1 6 (g116 h k W K2 s C S c y), t3 1
      2 2 (g122 h k W K2 s C S c y), t3 1 2 6 (g126 h k W K2 s C S c y), t3 1 6 6 (g166 h k W K2 s C S c y), t3 1 3 3
      (g133 h k W K2 s C S c y), t3 1 3 4 (g134 h k W K2 s C S c y), t3 1 4 4 (g144 h k W K2 s C S c y), t3 2 1 1
      (g211 h k W K2 s C S c y), t3 2 1 2 (g212 h k W K2 s C S c y), t3 2 1 6 (g216 h k W K2 s C S c y), t3 2 2 2
      (g222 h k W K2 s C S c y), t3 2 2 6 (g226 h k W K2 s C S c y), t3 2 6 6 (g266 h k W K2 s C S c y), t3 2 3 3
      (g233 h k W K2 s C S c y), t3 2 3 4 (g234 h k W K2 s C S c y), t3 2 4 4 (g244 h k W K2 s C S c y), t3 3 1 3
      (g313 h k W K2 s C S c y), t3 3 1 4 (g314 h k W K2 s C S c y), t3 3 2 3 (g323 h k W K2 s C S c y), t3 3 2 4
      (g324 h k W K2 s C S c y), t3 3 3 6 (g336 h k W K2 s C S c y), t3 3 4 6 (g346 h k W K2 s C S c y), t3 4 1 3
      (g413 h k W K2 s C S c y), t3 4 1 4 (g414 h k W K2 s C S c y), t3 4 2 3 (g423 h k W K2 s C S c y), t3 4 2 4
      (g424 h k W K2 s C S c y), t3 4 3 6 (g436 h k W K2 s C S c y), t3 4 4 6 (g446 h k W K2 s C S c y)] := by
  simp only [genT, List.take_succ_cons, List.take_zero, hk, hW]
  rw [hK]
  rfl

/-- The other terms are those of the delay. -/
theorem genT_drop (s h K1 K2 C S d C' S' d' c y c' y' : ℝ) :
    ∀ t ∈ (genT s h K1 K2 C S d C' S' d' c y c' y').drop 30, t.i = 4 := by
  simp only [genT, List.drop_succ_cons, List.drop_zero]
  intro t ht
  simp only [List.mem_cons, List.not_mem_nil, or_false] at ht
  rcases ht with h | h | h | h | h | h | h | h | h <;> rw [h] <;> rfl

theorem quadSum_append (x : Nat → ℝ) (i : Nat) (a b : List (LinMap.Tijk ℝ)) :
    quadSum x i (a ++ b) = quadSum x i a + quadSum x i b := by
  induction a with
  | nil => simp [quadSum]
  | cons t a ih => rw [List.cons_append, quadSum, quadSum, ih, add_assoc]

theorem quadSum_other (x : Nat → ℝ) (i : Nat) (b : List (LinMap.Tijk ℝ)) (hb : ∀ t ∈ b, t.i ≠ i) : quadSum x i b = 0 := by
  induction b with
  | nil => rfl
  | cons t b ih =>
    rw [quadSum, if_neg (hb t (List.mem_cons_self ..)), ih (fun t ht => hb t (List.mem_cons_of_mem _ ht)), zero_add]

/-- The map in terms of the functions `cK` and `sK`. -/
def genMap (s h K1 K2 C S c y : ℝ) : RT :=
  let k := K1 + h * h
  ⟨[r2 1 1 C, r2 1 2 S, r2 1 6 (h * (1 - C) / k), r2 2 1 (-k * S), r2 2 2 C, r2 2 6 (h * S), r2 3 3 c, r2 3 4 y,
    r2 4 3 ((k - h ^ 2) * y), r2 4 4 c, r2 5 1 (-h * S), r2 5 2 (-h * (1 - C) / k), r2 5 5 1,
    r2 5 6 (-h * h * (s - S) / k), r2 6 6 1],
    genT s h K1 K2 C S (h * (1 - C) / k) (-k * S) C (h * S) c y ((k - h ^ 2) * y) c⟩

theorem gen_closed (s h K1 K2 : ℝ) (hh : h ≠ 0) (hK : K1 ≠ 0) (hk : K1 + h * h ≠ 0) (hW : K1 + h * h + 4 * K1 ≠ 0) :
    genSectorBendTM s h K1 K2 =
      .ok (genMap s h K1 K2 (cK (K1 + h * h) s) (sK (K1 + h * h) s) (cK (-K1) s) (sK (-K1) s)) := by
  have e := sbr_closed6 s h K1 (Or.inr hk)
  unfold genSectorBendTM
  rw [if_neg (by rintro (a | a | a | a) <;> contradiction)]
  have e' : ∀ i j, i < 6 → j < 6 → sectorBend 6 s h K1 i j = closed s h (K1 + h * h) (-K1) i j := e
  simp only [genR, e' 0 0 (by omega) (by omega), e' 0 1 (by omega) (by omega), e' 0 5 (by omega) (by omega),
    e' 1 0 (by omega) (by omega), e' 1 1 (by omega) (by omega), e' 1 5 (by omega) (by omega),
    e' 2 2 (by omega) (by omega), e' 2 3 (by omega) (by omega), e' 3 2 (by omega) (by omega),
    e' 3 3 (by omega) (by omega), e' 4 0 (by omega) (by omega), e' 4 1 (by omega) (by omega),
    e' 4 5 (by omega) (by omega), closed]
  have q : - -K1 * sK (-K1) s = (K1 + h * h - h ^ 2) * sK (-K1) s := by ring
  rw [q]
  rfl

theorem gen_inside (s h K1 K2 C S c y : ℝ) : Inside (genMap s h K1 K2 C S c y) := by
  constructor
  · simp [genMap, r2]
  · intro t ht
    have e := List.take_append_drop 30 (genMap s h K1 K2 C S c y).t
    rw [← e, List.mem_append] at ht
    rcases ht with ht | ht
    · simp only [genMap] at ht
      rw [genT_take s K2 C S c y (k := K1 + h * h) rfl rfl (by ring)] at ht
      simp only [List.mem_cons, List.not_mem_nil, or_false] at ht
      rcases ht with a | a | a | a | a | a | a | a | a | a | a | a | a | a | a | a | a | a | a | a | a | a | a | a | a | a | a | a | a | a <;> rw [a] <;> simp [t3]
    · simp only [genMap, genT, List.drop_succ_cons, List.drop_zero] at ht
      simp only [List.mem_cons, List.not_mem_nil, or_false] at ht
      rcases ht with h | h | h | h | h | h | h | h | h <;> rw [h] <;> simp [t3]

theorem gen_lin (s h K1 K2 C S c y : ℝ) (v : PS) : lin (genMap s h K1 K2 C S c y) v =
    ⟨C * v.x + S * v.px + h * (1 - C) / (K1 + h * h) * v.dp, -(K1 + h * h) * S * v.x + C * v.px + h * S * v.dp,
      c * v.y + y * v.py, K1 * y * v.y + c * v.py, -h * S * v.x + -h * (1 - C) / (K1 + h * h) * v.px + v.ct +
      -h * h * (s - S) / (K1 + h * h) * v.dp, v.dp⟩ := by
  have q : K1 + h * h - h ^ 2 = K1 := by ring
  simp [lin, genMap, r2, linSum, ofVec, toVec, q]
  refine ⟨?_, ?_, ?_⟩ <;> ring

theorem gen_quad {h k W K1 : ℝ} (s K2 C S c y : ℝ) (hk : K1 + h * h = k) (hW : k + -4 * -K1 = W) (hK : K1 = k - h ^ 2)
    (v : PS) :
    (quad (genMap s h K1 K2 C S c y) v).x =
      g111 h k W K2 s C S c y * (v.x * v.x) + g112 h k W K2 s C S c y * (v.x * v.px) + g116 h k W K2 s C S c y * (v.x
      * v.dp) + g122 h k W K2 s C S c y * (v.px * v.px) + g126 h k W K2 s C S c y * (v.px * v.dp) + g166 h k W K2 s C
      S c y * (v.dp * v.dp) + g133 h k W K2 s C S c y * (v.y * v.y) + g134 h k W K2 s C S c y * (v.y * v.py) + g144 h
      k W K2 s C S c y * (v.py * v.py) ∧
    (quad (genMap s h K1 K2 C S c y) v).px =
      g211 h k W K2 s C S c y * (v.x * v.x) + g212 h k W K2 s C S c y * (v.x * v.px) + g216 h k W K2 s C S c y * (v.x
      * v.dp) + g222 h k W K2 s C S c y * (v.px * v.px) + g226 h k W K2 s C S c y * (v.px * v.dp) + g266 h k W K2 s C
      S c y * (v.dp * v.dp) + g233 h k W K2 s C S c y * (v.y * v.y) + g234 h k W K2 s C S c y * (v.y * v.py) + g244 h
      k W K2 s C S c y * (v.py * v.py) ∧
    (quad (genMap s h K1 K2 C S c y) v).y =
      g313 h k W K2 s C S c y * (v.x * v.y) + g314 h k W K2 s C S c y * (v.x * v.py) + g323 h k W K2 s C S c y * (v.px
      * v.y) + g324 h k W K2 s C S c y * (v.px * v.py) + g336 h k W K2 s C S c y * (v.y * v.dp) + g346 h k W K2 s C S
      c y * (v.py * v.dp) ∧
    (quad (genMap s h K1 K2 C S c y) v).py =
      g413 h k W K2 s C S c y * (v.x * v.y) + g414 h k W K2 s C S c y * (v.x * v.py) + g423 h k W K2 s C S c y * (v.px
      * v.y) + g424 h k W K2 s C S c y * (v.px * v.py) + g436 h k W K2 s C S c y * (v.y * v.dp) + g446 h k W K2 s C S
      c y * (v.py * v.dp) ∧
    (quad (genMap s h K1 K2 C S c y) v).dp = 0 := by
  have e : ∀ i, i ≠ 4 → quadSum (toVec v) i (genMap s h K1 K2 C S c y).t =
      quadSum (toVec v) i [t3 1 1 1 (g111 h k W K2 s C S c y), t3 1 1 2 (g112 h k W K2 s C S c y), t3 1 1 6 (g116 h k W K2 s C S c y), t3 1
      2 2 (g122 h k W K2 s C S c y), t3 1 2 6 (g126 h k W K2 s C S c y), t3 1 6 6 (g166 h k W K2 s C S c y), t3 1 3 3
      (g133 h k W K2 s C S c y), t3 1 3 4 (g134 h k W K2 s C S c y), t3 1 4 4 (g144 h k W K2 s C S c y), t3 2 1 1
      (g211 h k W K2 s C S c y), t3 2 1 2 (g212 h k W K2 s C S c y), t3 2 1 6 (g216 h k W K2 s C S c y), t3 2 2 2
      (g222 h k W K2 s C S c y), t3 2 2 6 (g226 h k W K2 s C S c y), t3 2 6 6 (g266 h k W K2 s C S c y), t3 2 3 3
      (g233 h k W K2 s C S c y), t3 2 3 4 (g234 h k W K2 s C S c y), t3 2 4 4 (g244 h k W K2 s C S c y), t3 3 1 3
      (g313 h k W K2 s C S c y), t3 3 1 4 (g314 h k W K2 s C S c y), t3 3 2 3 (g323 h k W K2 s C S c y), t3 3 2 4
      (g324 h k W K2 s C S c y), t3 3 3 6 (g336 h k W K2 s C S c y), t3 3 4 6 (g346 h k W K2 s C S c y), t3 4 1 3
      (g413 h k W K2 s C S c y), t3 4 1 4 (g414 h k W K2 s C S c y), t3 4 2 3 (g423 h k W K2 s C S c y), t3 4 2 4
      (g424 h k W K2 s C S c y), t3 4 3 6 (g436 h k W K2 s C S c y), t3 4 4 6 (g446 h k W K2 s C S c y)] := by
    intro i hi
    rw [← genT_take s K2 C S c y hk hW hK]
    conv_lhs => rw [← List.take_append_drop 30 (genMap s h K1 K2 C S c y).t]
    rw [quadSum_append, quadSum_other _ _ ((genMap s h K1 K2 C S c y).t.drop 30) (fun t ht => ?_), add_zero]
    · simp only [genMap, hk]
    · simp only [genMap] at ht
      rw [genT_drop _ _ _ _ _ _ _ _ _ _ _ _ _ _ t ht]
      exact hi.symm
  simp only [quad, ofVec, e 0 (by decide), e 1 (by decide), e 2 (by decide), e 3 (by decide), e 5 (by decide)]
  refine ⟨?_, ?_, ?_, ?_, ?_⟩ <;> simp [quadSum, t3, toVec] <;> ring

/-- The quadratic part follows the equations of second order, but for the product of position and angle in the plane of the bend. -/
theorem gen_quad_der {h K1 : ℝ} (K2 : ℝ) (hh : h ≠ 0) (hK : K1 ≠ 0) (hk : K1 + h * h ≠ 0) (hW : K1 + h * h + 4 * K1 ≠ 0)
    (z : PS) (s : ℝ) :
    DerTrans (fun s => quad (genMap s h K1 K2 (cK (K1 + h * h) s) (sK (K1 + h * h) s) (cK (-K1) s) (sK (-K1) s)) z)
      (addPS (addPS (lorLin h K1 (quad (genMap s h K1 K2 (cK (K1 + h * h) s) (sK (K1 + h * h) s) (cK (-K1) s) (sK (-K1) s)) z))
        (lorQuad h K1 K2 (lin (genMap s h K1 K2 (cK (K1 + h * h) s) (sK (K1 + h * h) s) (cK (-K1) s) (sK (-K1) s)) z)))
        ⟨-(h * cK (K1 + h * h) s * (z.x * z.px)), -((K1 + h * h) * (h * sK (K1 + h * h) s) * (z.x * z.px)), 0, 0, 0, 0⟩) s := by
  obtain ⟨k, ek⟩ : ∃ k, k = K1 + h * h := ⟨_, rfl⟩
  obtain ⟨W, eW⟩ : ∃ W, W = k + 4 * K1 := ⟨_, rfl⟩
  have eK : K1 = k - h ^ 2 := by rw [ek]; ring
  rw [← ek, ← eW] at hW
  rw [← ek] at hk ⊢
  have e1 := cK_sq k s
  have e2 := cK_sq (-K1) s
  have hC : HasDerivAt (fun s => cK k s) (-k * sK k s) s := hasDerivAt_cK k s
  have hS : HasDerivAt (fun s => sK k s) (cK k s) s := hasDerivAt_sK k s
  have hc : HasDerivAt (fun s => cK (-K1) s) ((k - h ^ 2) * sK (-K1) s) s :=
    (hasDerivAt_cK (-K1) s).congr_deriv (by rw [eK]; ring)
  have hy : HasDerivAt (fun s => sK (-K1) s) (cK (-K1) s) s := hasDerivAt_sK (-K1) s
  have eW' : W = 5 * k - 4 * h ^ 2 := by rw [eW, eK]; ring
  have hKd : k - h ^ 2 ≠ 0 := eK ▸ hK
  have e2' : cK (-K1) s ^ 2 + -(k - h ^ 2) * sK (-K1) s ^ 2 = 1 := by rw [← eK]; exact e2
  have Q := fun s => gen_quad s K2 (cK k s) (sK k s) (cK (-K1) s) (sK (-K1) s) ek.symm (show k + -4 * -K1 = W by rw [eW]; ring) eK z
  have q1 := fun s => (Q s).1
  have q2 := fun s => (Q s).2.1
  have q3 := fun s => (Q s).2.2.1
  have q4 := fun s => (Q s).2.2.2.1
  have q5 := fun s => (Q s).2.2.2.2
  have d111 := d111 (K2 := K2) hh hk eW' hW hKd hC hS hc hy e1 e2'
  have d112 := d112 (K2 := K2) hh hk eW' hW hKd hC hS hc hy e1 e2'
  have d116 := d116 (K2 := K2) hh hk eW' hW hKd hC hS hc hy e1 e2'
  have d122 := d122 (K2 := K2) hh hk eW' hW hKd hC hS hc hy e1 e2'
  have d126 := d126 (K2 := K2) hh hk eW' hW hKd hC hS hc hy e1 e2'
  have d166 := d166 (K2 := K2) hh hk eW' hW hKd hC hS hc hy e1 e2'
  have d133 := d133 (K2 := K2) hh hk eW' hW hKd hC hS hc hy e1 e2'
  have d134 := d134 (K2 := K2) hh hk eW' hW hKd hC hS hc hy e1 e2'
  have d144 := d144 (K2 := K2) hh hk eW' hW hKd hC hS hc hy e1 e2'
  have d211 := d211 (K2 := K2) hh hk eW' hW hKd hC hS hc hy e1 e2'
  have d212 := d212 (K2 := K2) hh hk eW' hW hKd hC hS hc hy e1 e2'
  have d216 := d216 (K2 := K2) hh hk eW' hW hKd hC hS hc hy e1 e2'
  have d222 := d222 (K2 := K2) hh hk eW' hW hKd hC hS hc hy e1 e2'
  have d226 := d226 (K2 := K2) hh hk eW' hW hKd hC hS hc hy e1 e2'
  have d266 := d266 (K2 := K2) hh hk eW' hW hKd hC hS hc hy e1 e2'
  have d233 := d233 (K2 := K2) hh hk eW' hW hKd hC hS hc hy e1 e2'
  have d234 := d234 (K2 := K2) hh hk eW' hW hKd hC hS hc hy e1 e2'
  have d244 := d244 (K2 := K2) hh hk eW' hW hKd hC hS hc hy e1 e2'
  have d313 := d313 (K2 := K2) hh hk eW' hW hKd hC hS hc hy e1 e2'
  have d314 := d314 (K2 := K2) hh hk eW' hW hKd hC hS hc hy e1 e2'
  have d323 := d323 (K2 := K2) hh hk eW' hW hKd hC hS hc hy e1 e2'
  have d324 := d324 (K2 := K2) hh hk eW' hW hKd hC hS hc hy e1 e2'
  have d336 := d336 (K2 := K2) hh hk eW' hW hKd hC hS hc hy e1 e2'
  have d346 := d346 (K2 := K2) hh hk eW' hW hKd hC hS hc hy e1 e2'
  have d413 := d413 (K2 := K2) hh hk eW' hW hKd hC hS hc hy e1 e2'
  have d414 := d414 (K2 := K2) hh hk eW' hW hKd hC hS hc hy e1 e2'
  have d423 := d423 (K2 := K2) hh hk eW' hW hKd hC hS hc hy e1 e2'
  have d424 := d424 (K2 := K2) hh hk eW' hW hKd hC hS hc hy e1 e2'
  have d436 := d436 (K2 := K2) hh hk eW' hW hKd hC hS hc hy e1 e2'
  have d446 := d446 (K2 := K2) hh hk eW' hW hKd hC hS hc hy e1 e2'
  simp only [DerTrans, addPS, lorLin, lorQuad, q1, q2, q3, q4, q5, gen_lin]
  clear Q q1 q2 q3 q4 q5 hC hS hc hy
  rw [← ek]
  obtain ⟨x, px, yy, py, ct, dp⟩ := z
  simp only
  refine ⟨?_, ?_, ?_, ?_, ?_⟩
  · refine HasDerivAt.congr_deriv (by ader) ?_
    rw [eK]
    ring
  · refine HasDerivAt.congr_deriv (by ader) ?_
    rw [eK]
    ring
  · refine HasDerivAt.congr_deriv (by ader) ?_
    rw [eK]
    ring
  · refine HasDerivAt.congr_deriv (by ader) ?_
    rw [eK]
    ring
  · refine HasDerivAt.congr_deriv (by ader) ?_
    simp

theorem gen_lin_der {h K1 : ℝ} (K2 : ℝ) (hk : K1 + h * h ≠ 0) (z : PS) (s : ℝ) :
    Symplectic.Spec.Der (fun s => lin (genMap s h K1 K2 (cK (K1 + h * h) s) (sK (K1 + h * h) s) (cK (-K1) s) (sK (-K1) s)) z)
      (lorLin h K1 (lin (genMap s h K1 K2 (cK (K1 + h * h) s) (sK (K1 + h * h) s) (cK (-K1) s) (sK (-K1) s)) z)) s := by
  have hC : HasDerivAt (fun s => cK (K1 + h * h) s) (-(K1 + h * h) * sK (K1 + h * h) s) s := hasDerivAt_cK _ s
  have hS : HasDerivAt (fun s => sK (K1 + h * h) s) (cK (K1 + h * h) s) s := hasDerivAt_sK _ s
  have hc : HasDerivAt (fun s => cK (-K1) s) (- -K1 * sK (-K1) s) s := hasDerivAt_cK (-K1) s
  have hy : HasDerivAt (fun s => sK (-K1) s) (cK (-K1) s) s := hasDerivAt_sK (-K1) s
  simp only [gen_lin, lorLin]
  refine ⟨?_, ?_, ?_, ?_, ?_, ?_⟩ <;> refine HasDerivAt.congr_deriv (by ader) ?_ <;>
  · generalize cK (K1 + h * h) s = C
    generalize sK (K1 + h * h) s = S
    generalize cK (-K1) s = c
    generalize sK (-K1) s = y
    obtain ⟨k, ek⟩ : ∃ k, k = K1 + h * h := ⟨_, rfl⟩
    have hk' : k ≠ 0 := ek ▸ hk
    have eK : K1 = k - h * h := by rw [ek]; ring
    clear hk ek
    subst eK
    try simp only [sub_add_cancel]
    all_goals first | (ring; done) | (field_simp; done) | (field_simp; ring)

theorem gen_zero {h K1 : ℝ} (K2 : ℝ) (hk : K1 + h * h ≠ 0) (hW : K1 + h * h + 4 * K1 ≠ 0) (v : PS) : quad (genMap 0 h K1 K2 1 0 1 0) v = ⟨0, 0, 0, 0, 0, 0⟩ := by
  have q : (0 : ℝ) ^ 2 = 0 := by norm_num
  have f : (K1 + h * h)⁻¹ + (K1 + h * h + 4 * K1)⁻¹ * (-1 + -(2 * (K1 + h * h)⁻¹ * K1 * (1 + 1))) = 0 := by
    obtain ⟨k, ek⟩ : ∃ k, k = K1 + h * h := ⟨_, rfl⟩
    rw [← ek] at hk hW ⊢
    field_simp
    ring
  simp only [quad, ofVec, genMap, genT, sub_self, mul_zero, zero_div, neg_zero, zero_mul, zero_add, add_zero, q,
    Real.cos_zero, Real.cosh_zero, Real.sin_zero, Real.sinh_zero, ite_self, mul_one, one_mul]
  simp [quadSum, t3, f]

theorem gen_start {h K1 : ℝ} (K2 : ℝ) (v : PS) : lin (genMap 0 h K1 K2 1 0 1 0) v = v := by
  rw [gen_lin]; simp

theorem gen_act_zero {h K1 : ℝ} (K2 : ℝ) (hk : K1 + h * h ≠ 0) (hW : K1 + h * h + 4 * K1 ≠ 0) (v : PS) :
    act (genMap 0 h K1 K2 (cK (K1 + h * h) 0) (sK (K1 + h * h) 0) (cK (-K1) 0) (sK (-K1) 0)) v = v := by
  simp only [cK_zero, sK_zero]
  rw [act_eq, gen_start, gen_zero K2 hk hW]
  simp [addPS]

/-- The transverse coordinates follow the Lorentz equations if position or angle is zero at the start. -/
theorem gen_follows {h K1 : ℝ} (K2 : ℝ) (hh : h ≠ 0) (hK : K1 ≠ 0) (hk : K1 + h * h ≠ 0) (hW : K1 + h * h + 4 * K1 ≠ 0)
    (z : PS) (hz : z.x * z.px = 0) : FollowsTrans (lorentz h (bxField K1 K2) (byField h K1 K2))
      (fun s v => (genSectorBendTM s h K1 K2).bind fun m => applyMap m v) z :=
  follows_trans_of _ z _ (fun s => genMap s h K1 K2 (cK (K1 + h * h) s) (sK (K1 + h * h) s) (cK (-K1) s) (sK (-K1) s))
    (fun s e => by rw [gen_closed s h K1 K2 hh hK hk hW, Outcome.bind, applyMap_eq _ (gen_inside ..)])
    (fun v => gen_act_zero K2 hk hW v) _ _ (fun s => expand_lorentz h K1 K2 _ _)
    (fun s => derTrans_of (gen_lin_der K2 hk z s)) (fun s => by
      have := gen_quad_der K2 hh hK hk hW z s
      simpa [hz, addPS] using this)

/-- The part of the delay quadratic in the horizontal angle. -/
theorem gen_delay {h K1 : ℝ} (K2 : ℝ) (hk : K1 + h * h ≠ 0) : ∃ a b : ℝ, ∀ s C S c y : ℝ,
    (quad (genMap s h K1 K2 C S c y) ⟨0, 1, 0, 0, 0, 0⟩).ct =
      a * (√|h * h + K1| * s - if h * h + K1 < 0 then sinh (√|h * h + K1| * s) else sin (√|h * h + K1| * s)) +
      b * (-2 * √|h * h + K1| * s + if h * h + K1 < 0 then sinh (2 * (√|h * h + K1| * s)) else sin (2 * (√|h * h + K1| * s))) +
      s * C ^ 2 / 2 := by
  refine ⟨(if h * h + K1 < 0 then -1 else 1) * ((-4 + 8 * (-K1 / (h * h))) * h ^ 3 + (K1 + h * h) * h - 4 * K2) *
      (√|h * h + K1| ^ 3)⁻¹ * h * (K1 + h * h)⁻¹ / 6,
    -(if h * h + K1 < 0 then -1 else 1) * (2 * K2 + (2 + -(4 * (-K1 / (h * h)))) * h ^ 3 + (K1 + h * h) * h) * h *
      (√|h * h + K1| ^ 3)⁻¹ / 4 * (K1 + h * h)⁻¹ / 6, fun s C S c y => ?_⟩
  simp only [quad, ofVec, genMap, genT, quadSum, t3, toVec]
  have q : (K1 + h * h)⁻¹ * (3 * (K1 + h * h) * s * C ^ 2) / 6 = s * C ^ 2 / 2 := by
    obtain ⟨k, ek⟩ : ∃ k, k = K1 + h * h := ⟨_, rfl⟩
    rw [← ek] at hk ⊢
    field_simp
    ring
  rw [← q]
  norm_num
  generalize √|h * h + K1| = w
  by_cases hn : h * h + K1 < 0
  · simp only [hn, if_true]
    ring
  · simp only [hn, if_false]
    ring

/-- The delay of a particle with an angle has the wrong sign at the entrance. -/
theorem gen_not_delay {h K1 : ℝ} (K2 : ℝ) (hh : h ≠ 0) (hK : K1 ≠ 0) (hk : K1 + h * h ≠ 0)
    (hW : K1 + h * h + 4 * K1 ≠ 0) : ¬ Follows (lorentz h (bxField K1 K2) (byField h K1 K2))
      (fun s v => (genSectorBendTM s h K1 K2).bind fun m => applyMap m v) ⟨0, 1, 0, 0, 0, 0⟩ := by
  intro hf
  obtain ⟨a, b, hd⟩ := gen_delay K2 hk
  have hC : HasDerivAt (fun s => cK (K1 + h * h) s) (-(K1 + h * h) * sK (K1 + h * h) 0) 0 := hasDerivAt_cK _ 0
  have hder : HasDerivAt (fun s => (quad (genMap s h K1 K2 (cK (K1 + h * h) s) (sK (K1 + h * h) s) (cK (-K1) s)
      (sK (-K1) s)) ⟨0, 1, 0, 0, 0, 0⟩).ct) (1 / 2) 0 := by
    simp only [hd]
    generalize √|h * h + K1| = w
    have m1 : HasDerivAt (fun s : ℝ => w * s) w 0 := by simpa using (hasDerivAt_id (0 : ℝ)).const_mul w
    have m2 : HasDerivAt (fun s : ℝ => 2 * (w * s)) (2 * w) 0 := by simpa using m1.const_mul 2
    have n1 := m1.sin
    have n2 := m1.sinh
    have n3 := m2.sin
    have n4 := m2.sinh
    split_ifs <;>
    · refine HasDerivAt.congr_deriv (by ader) ?_
      simp
      try ring
  have := follows_forces_ct
    (m := fun s => genMap s h K1 K2 (cK (K1 + h * h) s) (sK (K1 + h * h) s) (cK (-K1) s) (sK (-K1) s))
    (fun s e => by rw [gen_closed s h K1 K2 hh hK hk hW, Outcome.bind, applyMap_eq _ (gen_inside ..)]) (s := 0)
    (expand_lorentz h K1 K2 _ _) (gen_lin_der K2 hk _ 0).2.2.2.2.1 hder hf
  simp only [cK_zero, sK_zero, gen_start, gen_zero K2 hk hW] at this
  norm_num [lorLin, lorQuad, addPS] at this

/-- The term with the product of position and angle is wrong at the entrance. -/
theorem gen_not_follows {h K1 : ℝ} (K2 : ℝ) (hh : h ≠ 0) (hK : K1 ≠ 0) (hk : K1 + h * h ≠ 0)
    (hW : K1 + h * h + 4 * K1 ≠ 0) : ¬ FollowsTrans (lorentz h (bxField K1 K2) (byField h K1 K2))
      (fun s v => (genSectorBendTM s h K1 K2).bind fun m => applyMap m v) ⟨1, 1, 0, 0, 0, 0⟩ := by
  intro hf
  have := (follows_forces
    (m := fun s => genMap s h K1 K2 (cK (K1 + h * h) s) (sK (K1 + h * h) s) (cK (-K1) s) (sK (-K1) s))
    (fun s e => by rw [gen_closed s h K1 K2 hh hK hk hW, Outcome.bind, applyMap_eq _ (gen_inside ..)]) (s := 0)
    (expand_lorentz h K1 K2 _ _) (derTrans_of (gen_lin_der K2 hk _ 0)) (gen_quad_der K2 hh hK hk hW _ 0) hf).1
  simp [addPS] at this
  exact hh this

end

end Verif.TransportMaps
