import Mathlib.Analysis.SpecialFunctions.Trigonometric.InverseDeriv
import Mathlib.Tactic.Positivity
import Verif.Symplectic.Maps

/-!
# The exact maps: straight space and dipole
-/

set_option linter.unusedSimpArgs false

namespace Verif.Symplectic
open Verif Verif.Symplectic.Spec Real

/-- Square of the momentum along the orbit. -/
def along2 (d px py : ℝ) : ℝ := (1 + d) * (1 + d) - px * px - py * py

theorem along2_der {px py d : ℝ → ℝ} {a b c t : ℝ} (h1 : HasDerivAt px a t) (h2 : HasDerivAt py b t)
    (h3 : HasDerivAt d c t) : HasDerivAt (fun t => along2 (d t) (px t) (py t))
      (2 * ((1 + d t) * c - px t * a - py t * b)) t := by
  have h4 : HasDerivAt (fun t => 1 + d t) c t := h3.const_add 1
  refine (((h4.mul h4).sub (h1.mul h1)).sub (h2.mul h2)).congr_deriv ?_
  ring

theorem along_der {px py d : ℝ → ℝ} {a b c t : ℝ} (h1 : HasDerivAt px a t) (h2 : HasDerivAt py b t)
    (h3 : HasDerivAt d c t) (h0 : 0 < along2 (d t) (px t) (py t)) :
    HasDerivAt (fun t => √(along2 (d t) (px t) (py t)))
      (((1 + d t) * c - px t * a - py t * b) / √(along2 (d t) (px t) (py t))) t := by
  refine ((along2_der h1 h2 h3).sqrt h0.ne').congr_deriv ?_
  have := (sqrt_pos.mpr h0).ne'
  field_simp

theorem along2_near {c : ℝ → PS} {u : PS} {t : ℝ} (h : Der c u t) (h0 : 0 < along2 (c t).dp (c t).px (c t).py) :
    ∀ᶠ s in nhds t, 0 < along2 (c s).dp (c s).px (c s).py :=
  (along2_der h.2.1 h.2.2.2.1 h.2.2.2.2.2).continuousAt.eventually_const_lt h0

theorem drift_eq (ds : ℝ) {v : PS} (h : 0 < along2 v.dp v.px v.py) :
    driftMap ds v = .ok { v with
      x := v.x + v.px * ds / √(along2 v.dp v.px v.py)
      y := v.y + v.py * ds / √(along2 v.dp v.px v.py)
      ct := v.ct + (ds - (1 + v.dp) * ds / √(along2 v.dp v.px v.py)) } := by
  simp only [along2] at h
  simp only [driftMap, if_pos h, along2]

theorem drift_ub (ds : ℝ) {v : PS} (h : ¬ 0 < along2 v.dp v.px v.py) : driftMap ds v = .ub := by
  simp only [along2] at h
  simp only [driftMap, if_neg h]

theorem drift_preserves (ds : ℝ) {v : PS} (h : 0 < along2 v.dp v.px v.py) : Preserves (driftMap ds) v := by
  have hk := (sqrt_pos.mpr h).ne'
  have hs : √(along2 v.dp v.px v.py) * √(along2 v.dp v.px v.py) = along2 v.dp v.px v.py := mul_self_sqrt h.le
  refine ⟨fun u =>
    let k := √(along2 v.dp v.px v.py)
    let dk := ((1 + v.dp) * u.dp - v.px * u.px - v.py * u.py) / k
    ⟨u.x + (u.px * ds * k - v.px * ds * dk) / k ^ 2, u.px, u.y + (u.py * ds * k - v.py * ds * dk) / k ^ 2, u.py,
      u.ct - (u.dp * ds * k - (1 + v.dp) * ds * dk) / k ^ 2, u.dp⟩, fun c u t hc hd => ?_, fun u w => ?_⟩
  · refine ⟨fun τ => { c τ with
      x := (c τ).x + (c τ).px * ds / √(along2 (c τ).dp (c τ).px (c τ).py)
      y := (c τ).y + (c τ).py * ds / √(along2 (c τ).dp (c τ).px (c τ).py)
      ct := (c τ).ct + (ds - (1 + (c τ).dp) * ds / √(along2 (c τ).dp (c τ).px (c τ).py)) }, ?_, ?_⟩
    · filter_upwards [along2_near hd (by rw [hc]; exact h)] with τ hτ
      exact drift_eq ds hτ
    · subst hc
      obtain ⟨d1, d2, d3, d4, d5, d6⟩ := hd
      have dk := along_der d2 d4 d6 h
      have e1 : HasDerivAt (fun t => 1 + (c t).dp) u.dp t := d6.const_add 1
      exact ⟨d1.add ((d2.mul_const ds).div dk hk), d2, d3.add ((d4.mul_const ds).div dk hk), d4,
        (d5.add (((e1.mul_const ds).div dk hk).const_sub ds)).congr_deriv (by ring), d6⟩
  · simp only [form]
    generalize √(along2 v.dp v.px v.py) = k at *
    field_simp
    ring

theorem drift_add (s r : ℝ) (v : PS) : driftMap (s + r) v = (driftMap s v).bind (driftMap r) := by
  by_cases h : 0 < along2 v.dp v.px v.py
  · rw [drift_eq _ h, drift_eq _ h]
    simp only [Outcome.bind]
    have h2 := drift_eq r (v := ⟨v.x + v.px * s / √(along2 v.dp v.px v.py), v.px,
      v.y + v.py * s / √(along2 v.dp v.px v.py), v.py, v.ct + (s - (1 + v.dp) * s / √(along2 v.dp v.px v.py)), v.dp⟩) h
    rw [h2]
    congr 2 <;> ring
  · rw [drift_ub _ h, drift_ub _ h]; rfl

theorem sqrt_slice {d px py : ℝ} : √(along2 d px py) = √((1 + d) ^ 2 - px ^ 2 - py ^ 2) := by
  rw [along2]; congr 1; ring

theorem exact_grad (h : ℝ) {v : PS} (h0 : 0 < along2 v.dp v.px v.py) :
    Grad (exactBend h) v ⟨-(h * √(along2 v.dp v.px v.py)) + h * (1 + h * v.x),
      (1 + h * v.x) * v.px / √(along2 v.dp v.px v.py), 0, (1 + h * v.x) * v.py / √(along2 v.dp v.px v.py), 0,
      1 - (1 + h * v.x) * (1 + v.dp) / √(along2 v.dp v.px v.py)⟩ := by
  have id1 : ∀ a : ℝ, HasDerivAt (fun t : ℝ => t) 1 a := fun a => hasDerivAt_id a
  have c0 : ∀ a b : ℝ, HasDerivAt (fun _ : ℝ => b) 0 a := fun a b => hasDerivAt_const a b
  have hk := (sqrt_pos.mpr h0).ne'
  refine ⟨?_, ?_, ?_, ?_, ?_, ?_⟩ <;> simp only [exactBend, ← sqrt_slice]
  · have e1 : HasDerivAt (fun t : ℝ => 1 + h * t) h v.x := by simpa using ((id1 v.x).const_mul h).const_add 1
    refine (((e1.mul_const _).const_sub v.dp).add ((e1.pow 2).div_const 2)).congr_deriv ?_
    ring
  · have e := along_der (d := fun _ => v.dp) (py := fun _ => v.py) (id1 v.px) (c0 v.px v.py) (c0 v.px v.dp) h0
    refine (((e.const_mul (1 + h * v.x)).const_sub v.dp).add_const _).congr_deriv ?_
    ring
  · exact hasDerivAt_const _ _
  · have e := along_der (d := fun _ => v.dp) (px := fun _ => v.px) (c0 v.py v.px) (id1 v.py) (c0 v.py v.dp) h0
    refine (((e.const_mul (1 + h * v.x)).const_sub v.dp).add_const _).congr_deriv ?_
    ring
  · exact hasDerivAt_const _ _
  · have e := along_der (px := fun _ => v.px) (py := fun _ => v.py) (c0 v.dp v.px) (c0 v.dp v.py) (id1 v.dp) h0
    refine (((id1 v.dp).sub (e.const_mul (1 + h * v.x))).add_const _).congr_deriv ?_
    ring

theorem exactDrift_grad {v : PS} (h0 : 0 < along2 v.dp v.px v.py) :
    Grad exactDrift v ⟨0, v.px / √(along2 v.dp v.px v.py), 0, v.py / √(along2 v.dp v.px v.py), 0,
      1 - (1 + v.dp) / √(along2 v.dp v.px v.py)⟩ := by
  have id1 : ∀ a : ℝ, HasDerivAt (fun t : ℝ => t) 1 a := fun a => hasDerivAt_id a
  have c0 : ∀ a b : ℝ, HasDerivAt (fun _ : ℝ => b) 0 a := fun a b => hasDerivAt_const a b
  refine ⟨?_, ?_, ?_, ?_, ?_, ?_⟩ <;> simp only [exactDrift, ← sqrt_slice]
  · exact hasDerivAt_const _ _
  · have e := along_der (d := fun _ => v.dp) (py := fun _ => v.py) (id1 v.px) (c0 v.px v.py) (c0 v.px v.dp) h0
    exact (e.const_sub v.dp).congr_deriv (by ring)
  · exact hasDerivAt_const _ _
  · have e := along_der (d := fun _ => v.dp) (px := fun _ => v.px) (c0 v.py v.px) (id1 v.py) (c0 v.py v.dp) h0
    exact (e.const_sub v.dp).congr_deriv (by ring)
  · exact hasDerivAt_const _ _
  · have e := along_der (px := fun _ => v.px) (py := fun _ => v.py) (c0 v.dp v.px) (c0 v.dp v.py) (id1 v.dp) h0
    exact ((id1 v.dp).sub e).congr_deriv (by ring)

theorem asin_der {p A : ℝ → ℝ} {p' A' t k : ℝ} (hp : HasDerivAt p p' t) (hA : HasDerivAt A A' t) (hA0 : 0 < A t) (hk : 0 < k)
    (hkk : k * k = A t * A t - p t * p t) :
    HasDerivAt (fun t => arcsin (p t / A t)) ((p' - p t * A' / A t) / k) t := by
  have hq : (p t / A t) * (p t / A t) < 1 := by
    rw [div_mul_div_comm, div_lt_one (mul_pos hA0 hA0)]
    nlinarith
  have hm : p t / A t ≠ -1 := fun h => by rw [h] at hq; norm_num at hq
  have hm' : p t / A t ≠ 1 := fun h => by rw [h] at hq; norm_num at hq
  have h1 := (hasDerivAt_arcsin hm hm').comp t (hp.div hA hA0.ne')
  refine h1.congr_deriv ?_
  have h2 : √(1 - (p t / A t) ^ 2) = k / A t := by
    rw [sqrt_eq_iff_mul_self_eq_of_pos (div_pos hk hA0)]
    have := hA0.ne'
    field_simp
    nlinarith
  rw [h2]
  have := hA0.ne'
  have := hk.ne'
  field_simp

/-- Deflection, momentum and its change on the way through a dipole. -/
noncomputable def efW (h : ℝ) (v : PS) : ℝ := √(along2 v.dp v.px v.py) - 1 - h * v.x
noncomputable def efP (h s : ℝ) (v : PS) : ℝ := v.px * cos (h * s) + efW h v * sin (h * s)
noncomputable def efR (h s : ℝ) (v : PS) : ℝ := -(v.px * sin (h * s)) + efW h v * cos (h * s)
noncomputable def efA (v : PS) : ℝ := √((1 + v.dp) * (1 + v.dp) - v.py * v.py)
noncomputable def efU (h s : ℝ) (v : PS) : ℝ := arcsin (v.px / efA v) - arcsin (efP h s v / efA v)
noncomputable def ef (h s : ℝ) (v : PS) : PS :=
  ⟨(√(along2 v.dp (efP h s v) v.py) - efR h s v - 1) / h, efP h s v, v.y + v.py * s + v.py * efU h s v / h, v.py,
    v.ct + s - (1 + v.dp) * s - (1 + v.dp) * efU h s v / h, v.dp⟩

theorem ef_eq {h : ℝ} (hh : h ≠ 0) (s : ℝ) {v : PS} (h0 : 0 < along2 v.dp v.px v.py)
    (h1 : 0 < along2 v.dp (efP h s v) v.py) : sectorMapEF h s v = .ok (ef h s v) := by
  have e1 : s / (1 / h) = h * s := by field_simp
  have e2 : h * (1 / h + v.x) = 1 + h * v.x := by field_simp
  have e3 : √((1 + v.dp) * (1 + v.dp) - v.px * v.px - v.py * v.py) - (1 + h * v.x) = efW h v := by
    simp only [efW, along2]; ring
  have e4 : v.px * cos (h * s) + efW h v * sin (h * s) = efP h s v := rfl
  simp only [along2] at h0
  simp only [along2] at h1
  simp only [sectorMapEF, e1, e2, e3, e4]
  rw [if_pos ⟨hh, h0, h1⟩]
  simp only [ef, efU, efA, along2, efR]
  congr 2
  · field_simp
  · field_simp
  · field_simp

theorem ef_ok {h s : ℝ} {v v' : PS} (he : sectorMapEF h s v = .ok v') :
    h ≠ 0 ∧ 0 < along2 v.dp v.px v.py ∧ 0 < along2 v.dp (efP h s v) v.py := by
  have e1 : ∀ h0 : h ≠ 0, s / (1 / h) = h * s := fun h0 => by field_simp
  have e2 : ∀ h0 : h ≠ 0, h * (1 / h + v.x) = 1 + h * v.x := fun h0 => by field_simp
  have e3 : √((1 + v.dp) * (1 + v.dp) - v.px * v.px - v.py * v.py) - (1 + h * v.x) = efW h v := by
    simp only [efW, along2]; ring
  have e4 : v.px * cos (h * s) + efW h v * sin (h * s) = efP h s v := rfl
  simp only [sectorMapEF] at he
  split at he
  · rename_i hc
    obtain ⟨a, b, c⟩ := hc
    rw [e1 a, e2 a, e3, e4] at c
    exact ⟨a, b, c⟩
  · cases he

theorem efA_sq {h s : ℝ} {v : PS} (h1 : 0 < along2 v.dp (efP h s v) v.py) :
    0 < efA v ∧ √(along2 v.dp (efP h s v) v.py) * √(along2 v.dp (efP h s v) v.py)
      = efA v * efA v - efP h s v * efP h s v := by
  have hp : 0 < (1 + v.dp) * (1 + v.dp) - v.py * v.py := by
    simp only [along2] at h1
    nlinarith [mul_self_nonneg (efP h s v)]
  refine ⟨sqrt_pos.mpr hp, ?_⟩
  rw [mul_self_sqrt h1.le, efA, mul_self_sqrt hp.le, along2]
  ring

theorem ef_zero_p (h : ℝ) (v : PS) : efP h 0 v = v.px := by simp [efP]

theorem ef_zero {h : ℝ} (hh : h ≠ 0) (v : PS) : ef h 0 v = v := by
  ext <;> simp [ef, efU, ef_zero_p, efR, efW]
  field_simp
  ring

theorem efP_der (h s : ℝ) (v : PS) : HasDerivAt (fun s => efP h s v) (h * efR h s v) s := by
  have h1 : HasDerivAt (fun s => h * s) h s := by simpa using (hasDerivAt_id s).const_mul h
  have hS := (hasDerivAt_sin (h * s)).comp s h1
  have hC := (hasDerivAt_cos (h * s)).comp s h1
  refine ((hC.const_mul v.px).add (hS.const_mul (efW h v))).congr_deriv ?_
  simp only [efR]; ring

theorem efR_der (h s : ℝ) (v : PS) : HasDerivAt (fun s => efR h s v) (-(h * efP h s v)) s := by
  have h1 : HasDerivAt (fun s => h * s) h s := by simpa using (hasDerivAt_id s).const_mul h
  have hS := (hasDerivAt_sin (h * s)).comp s h1
  have hC := (hasDerivAt_cos (h * s)).comp s h1
  refine ((hS.const_mul v.px).neg.add (hC.const_mul (efW h v))).congr_deriv ?_
  simp only [efP]; ring

theorem ef_motion {h : ℝ} (hh : h ≠ 0) (s : ℝ) {v : PS} (h1 : 0 < along2 v.dp (efP h s v) v.py) :
    Hamilton (exactBend h) (fun s => ef h s v) s := by
  have hk := sqrt_pos.mpr h1
  obtain ⟨hA, hkk⟩ := efA_sq h1
  have c0 : ∀ b : ℝ, HasDerivAt (fun _ : ℝ => b) 0 s := fun b => hasDerivAt_const s b
  have dP := efP_der h s v
  have dR := efR_der h s v
  have dK := along_der (d := fun _ => v.dp) (py := fun _ => v.py) dP (c0 v.py) (c0 v.dp) h1
  have dU : HasDerivAt (fun s => efU h s v) (-(h * efR h s v / √(along2 v.dp (efP h s v) v.py))) s := by
    have := (asin_der dP (c0 (efA v)) hA hk hkk).const_sub (arcsin (v.px / efA v))
    exact this.congr_deriv (by ring)
  have hx : 1 + h * (ef h s v).x = √(along2 v.dp (efP h s v) v.py) - efR h s v := by
    simp only [ef]; field_simp; ring
  refine ⟨_, exact_grad h (v := ef h s v) (by simpa only [ef] using h1), ?_⟩
  rw [hx]
  simp only [ef]
  generalize √(along2 v.dp (efP h s v) v.py) = k at *
  have hk' := hk.ne'
  refine ⟨?_, ?_, ?_, ?_, ?_, ?_⟩
  · refine ((dK.sub dR).sub_const 1 |>.div_const h).congr_deriv ?_
    field_simp; ring
  · exact dP.congr_deriv (by ring)
  · refine ((((hasDerivAt_id s).const_mul v.py).const_add v.y).add ((dU.const_mul v.py).div_const h)).congr_deriv ?_
    field_simp; ring
  · simpa using c0 v.py
  · refine (((((hasDerivAt_id s).const_add v.ct).sub ((hasDerivAt_id s).const_mul (1 + v.dp))).sub
      ((dU.const_mul (1 + v.dp)).div_const h))).congr_deriv ?_
    field_simp; ring
  · simpa using c0 v.dp

theorem efW_ef {h : ℝ} (hh : h ≠ 0) (s : ℝ) {v : PS} : efW h (ef h s v) = efR h s v := by
  simp only [efW, ef]
  field_simp
  ring

theorem efP_add {h : ℝ} (hh : h ≠ 0) (s r : ℝ) (v : PS) :
    efP h r (ef h s v) = efP h (s + r) v ∧ efR h r (ef h s v) = efR h (s + r) v := by
  have e : h * (s + r) = h * s + h * r := by ring
  have e2 : (ef h s v).px = efP h s v := rfl
  rw [efP, efR, efW_ef hh, e2, efP, efR, efP, efR, e, sin_add, cos_add]
  constructor <;> ring

theorem ef_add {h : ℝ} (s r : ℝ) {v v1 : PS} (h1 : sectorMapEF h s v = .ok v1) :
    sectorMapEF h (s + r) v = sectorMapEF h r v1 := by
  obtain ⟨hh, h0, hs⟩ := ef_ok h1
  rw [ef_eq hh s h0 hs] at h1
  obtain rfl := Outcome.ok.inj h1
  obtain ⟨ep, er⟩ := efP_add hh s r v
  have hs' : 0 < along2 (ef h s v).dp (ef h s v).px (ef h s v).py := hs
  by_cases hr : 0 < along2 v.dp (efP h (s + r) v) v.py
  · rw [ef_eq hh _ h0 hr]
    have hr' : 0 < along2 (ef h s v).dp (efP h r (ef h s v)) (ef h s v).py := by rw [ep]; exact hr
    rw [ef_eq hh _ hs' hr']
    have eu : efU h r (ef h s v) = efU h (s + r) v - efU h s v := by
      simp only [efU, ep]
      have : efA (ef h s v) = efA v := rfl
      rw [this]
      have : (ef h s v).px = efP h s v := rfl
      rw [this]
      ring
    have e1 : ef h r (ef h s v) = ⟨(√(along2 v.dp (efP h (s + r) v) v.py) - efR h (s + r) v - 1) / h, efP h (s + r) v,
        (v.y + v.py * s + v.py * efU h s v / h) + v.py * r + v.py * (efU h (s + r) v - efU h s v) / h, v.py,
        (v.ct + s - (1 + v.dp) * s - (1 + v.dp) * efU h s v / h) + r - (1 + v.dp) * r -
          (1 + v.dp) * (efU h (s + r) v - efU h s v) / h, v.dp⟩ := by
      rw [ef, ep, er, eu]
      rfl
    rw [e1]
    congr 1
    simp only [ef, PS.mk.injEq, true_and, and_true]
    constructor <;> ring
  · have l : ∀ a, sectorMapEF h (s + r) v ≠ .ok a := fun a ha => hr (ef_ok ha).2.2
    have m : ∀ a, sectorMapEF h r (ef h s v) ≠ .ok a := fun a ha => hr (by
      have := (ef_ok ha).2.2
      rw [ep] at this
      exact this)
    have ub : ∀ (s : ℝ) (v : PS), (∀ a, sectorMapEF h s v ≠ .ok a) → sectorMapEF h s v = .ub := fun s v hn => by
      simp only [sectorMapEF] at hn ⊢
      split
      · rename_i c; exact absurd (if_pos c) (hn _)
      · rfl
    rw [ub _ _ l, ub _ _ m]

theorem efP_curve (h s : ℝ) {c : ℝ → PS} {u : PS} {t : ℝ} (hd : Der c u t) (h0 : 0 < along2 (c t).dp (c t).px (c t).py) :
    HasDerivAt (fun t => efW h (c t)) (((1 + (c t).dp) * u.dp - (c t).px * u.px - (c t).py * u.py) /
      √(along2 (c t).dp (c t).px (c t).py) - h * u.x) t :=
  ((along_der hd.2.1 hd.2.2.2.1 hd.2.2.2.2.2 h0).sub_const 1).sub (hd.1.const_mul h)

theorem ef_preserves {h s : ℝ} {v : PS} (hh : h ≠ 0) (h0 : 0 < along2 v.dp v.px v.py)
    (h1 : 0 < along2 v.dp (efP h s v) v.py) : Preserves (sectorMapEF h s) v := by
  have hk0 := sqrt_pos.mpr h0
  have hk1 := sqrt_pos.mpr h1
  obtain ⟨hA, hkk1⟩ := efA_sq h1
  have hkk0 : √(along2 v.dp v.px v.py) * √(along2 v.dp v.px v.py) = efA v * efA v - v.px * v.px := by
    have := (efA_sq (h := h) (s := 0) (v := v) (by rw [ef_zero_p]; exact h0)).2
    rwa [ef_zero_p] at this
  have hA2 : 0 < (1 + v.dp) * (1 + v.dp) - v.py * v.py := sqrt_pos.mp hA
  refine ⟨fun u =>
    let k0 := √(along2 v.dp v.px v.py)
    let k1 := √(along2 v.dp (efP h s v) v.py)
    let dW := ((1 + v.dp) * u.dp - v.px * u.px - v.py * u.py) / k0 - h * u.x
    let dP := u.px * cos (h * s) + dW * sin (h * s)
    let dR := -(u.px * sin (h * s)) + dW * cos (h * s)
    let dK := ((1 + v.dp) * u.dp - efP h s v * dP - v.py * u.py) / k1
    let dA := ((1 + v.dp) * u.dp - v.py * u.py) / efA v
    let dU := (u.px - v.px * dA / efA v) / k0 - (dP - efP h s v * dA / efA v) / k1
    ⟨(dK - dR) / h, dP, u.y + u.py * s + (u.py * efU h s v + v.py * dU) / h, u.py,
      u.ct - u.dp * s - (u.dp * efU h s v + (1 + v.dp) * dU) / h, u.dp⟩, fun c u t hc hd => ?_, fun u w => ?_⟩
  · subst hc
    obtain dW := efP_curve h s hd h0
    obtain ⟨d1, d2, d3, d4, d5, d6⟩ := id hd
    have dP : HasDerivAt (fun t => efP h s (c t)) _ t := (d2.mul_const (cos (h * s))).add (dW.mul_const (sin (h * s)))
    have dR : HasDerivAt (fun t => efR h s (c t)) _ t := (d2.mul_const (sin (h * s))).neg.add (dW.mul_const (cos (h * s)))
    have dK := along_der dP d4 d6 h1
    have e1 : HasDerivAt (fun t => 1 + (c t).dp) u.dp t := d6.const_add 1
    have dA : HasDerivAt (fun t => efA (c t)) (((1 + (c t).dp) * u.dp - (c t).py * u.py) / efA (c t)) t := by
      refine (((e1.mul e1).sub (d4.mul d4)).sqrt hA2.ne').congr_deriv ?_
      have : √((1 + (c t).dp) * (1 + (c t).dp) - (c t).py * (c t).py) = efA (c t) := rfl
      simp only [Pi.sub_apply, Pi.mul_apply, this]
      have := hA.ne'
      field_simp
      ring
    have dU : HasDerivAt (fun t => efU h s (c t)) _ t := (asin_der d2 dA hA hk0 hkk0).sub (asin_der dP dA hA hk1 hkk1)
    refine ⟨fun τ => ef h s (c τ), ?_, ?_⟩
    · have n0 := along2_near hd h0
      have n1 := (along2_der dP d4 d6).continuousAt.eventually_const_lt h1
      filter_upwards [n0, n1] with τ a b
      exact ef_eq hh s a b
    · refine ⟨((dK.sub dR).sub_const 1).div_const h, dP, ?_, d4, ?_, d6⟩
      · exact ((d3.add (d4.mul_const s)).add ((d4.mul dU).div_const h))
      · refine (((d5.add_const s).sub (e1.mul_const s)).sub ((e1.mul dU).div_const h))
  · simp only [form]
    have cs := cos_sq_add_sin_sq (h * s)
    have hA' := hA.ne'
    have hk0' := hk0.ne'
    have hk1' := hk1.ne'
    generalize efU h s v = U
    generalize √(along2 v.dp v.px v.py) = k0 at *
    generalize √(along2 v.dp (efP h s v) v.py) = k1 at *
    generalize efP h s v = P at *
    generalize efA v = A at *
    generalize cos (h * s) = C at *
    generalize sin (h * s) = S at *
    generalize 1 + v.dp = D at *
    linear_combination (norm := (field_simp; ring)) (1 / h) * (u.px * ((D * w.dp - v.px * w.px - v.py * w.py) / k0 - h * w.x)
      - w.px * ((D * u.dp - v.px * u.px - v.py * u.py) / k0 - h * u.x)) * cs

end Verif.Symplectic
