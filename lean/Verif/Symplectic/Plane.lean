import Mathlib.Analysis.SpecialFunctions.Trigonometric.DerivHyp
import Mathlib.Analysis.SpecialFunctions.Trigonometric.Deriv
import Mathlib.Analysis.SpecialFunctions.Sqrt
import Mathlib.Tactic.LinearCombination
import Mathlib.Tactic.FieldSimp
import Verif.Symplectic.Spec

/-!
# One plane of a linear magnet

Motion in one plane with focusing strength `j` and curvature `h`, for both signs of `j` at once.
-/

set_option linter.unusedSimpArgs false

namespace Verif.Symplectic
open Verif Verif.Symplectic.Spec Real

/-- Circular (`e = 1`) or hyperbolic (`e = -1`) functions. -/
structure Osc (e : ℝ) (sn cs : ℝ → ℝ) : Prop where
  unit : e * e = 1
  dsn : ∀ a, HasDerivAt sn (cs a) a
  dcs : ∀ a, HasDerivAt cs (-(e * sn a)) a
  one : ∀ a, cs a * cs a + e * (sn a * sn a) = 1
  sadd : ∀ a b, sn (a + b) = sn a * cs b + cs a * sn b
  cadd : ∀ a b, cs (a + b) = cs a * cs b - e * (sn a * sn b)
  szero : sn 0 = 0
  czero : cs 0 = 1

theorem osc_circ : Osc 1 sin cos where
  unit := by norm_num
  dsn := hasDerivAt_sin
  dcs a := by simpa using hasDerivAt_cos a
  one a := by have := cos_sq_add_sin_sq a; nlinarith
  sadd := sin_add
  cadd a b := by rw [cos_add]; ring
  szero := sin_zero
  czero := cos_zero

theorem osc_hyp : Osc (-1) sinh cosh where
  unit := by norm_num
  dsn := hasDerivAt_sinh
  dcs a := by simpa using hasDerivAt_cosh a
  one a := by have := cosh_sq a; nlinarith
  sadd := sinh_add
  cadd a b := by rw [cosh_add]; ring
  szero := sinh_zero
  czero := cosh_zero

variable {e : ℝ} {sn cs : ℝ → ℝ}

theorem Osc.sdouble (o : Osc e sn cs) (w s : ℝ) : sn (2 * w * s) = 2 * (sn (w * s) * cs (w * s)) := by
  rw [show 2 * w * s = w * s + w * s by ring, o.sadd]; ring

theorem Osc.cdouble (o : Osc e sn cs) (w s : ℝ) : 1 - cs (2 * w * s) = 2 * (e * (sn (w * s) * sn (w * s))) := by
  rw [show 2 * w * s = w * s + w * s by ring, o.cadd]
  linear_combination (o.one (w * s)).symm

/-- Position after a step. -/
noncomputable def plX (sn cs : ℝ → ℝ) (j h s w x p d : ℝ) : ℝ :=
  x * cs (w * s) + p * sn (w * s) / (w * (1 + d)) + d * h * (1 - cs (w * s)) / j

/-- Momentum after a step. -/
noncomputable def plP (sn cs : ℝ → ℝ) (j h s w x p d : ℝ) : ℝ :=
  -(j * x * sn (w * s) / w) + p * cs (w * s) + d * h * sn (w * s) / w

/-- Contribution to ct. -/
noncomputable def plQ (e : ℝ) (sn cs : ℝ → ℝ) (j h s w x p d : ℝ) : ℝ :=
  (-(2 * (h * h * d / j)) - p * p / (1 + d) / (1 + d) / 2 - (j * x - h * d) * (j * x - h * d) / j / (1 + d) / 2) * s / 2
  + (h * h * d / j - h * x) * sn (w * s) / w
  + ((j * x - h * d) * (j * x - h * d) / j / (1 + d) / 2 - p * p / (1 + d) / (1 + d) / 2) * (sn (w * s) * cs (w * s)) / w / 2
  - h * p / j * (1 - cs (w * s))
  + p * (j * x - h * d) / j / (1 + d) * (e * (sn (w * s) * sn (w * s))) / 2

theorem osc_step (o : Osc e sn cs) (w s : ℝ) :
    HasDerivAt (fun s => sn (w * s)) (w * cs (w * s)) s ∧ HasDerivAt (fun s => cs (w * s)) (-(e * (w * sn (w * s)))) s := by
  have h1 : HasDerivAt (fun s => w * s) w s := by simpa using (hasDerivAt_id s).const_mul w
  constructor
  · exact ((o.dsn (w * s)).comp s h1).congr_deriv (by ring)
  · exact ((o.dcs (w * s)).comp s h1).congr_deriv (by ring)

/-- The plane follows the equations of motion. -/
theorem pl_flow (o : Osc e sn cs) {j w d : ℝ} (h s x p : ℝ) (hd : 1 + d ≠ 0) (hw : w ≠ 0)
    (hj : j = e * (w * w * (1 + d))) :
    HasDerivAt (fun s => plX sn cs j h s w x p d) (plP sn cs j h s w x p d / (1 + d)) s ∧
    HasDerivAt (fun s => plP sn cs j h s w x p d) (-(j * plX sn cs j h s w x p d) + h * d) s ∧
    HasDerivAt (fun s => plQ e sn cs j h s w x p d)
      (-(plP sn cs j h s w x p d * plP sn cs j h s w x p d / (2 * ((1 + d) * (1 + d)))) - h * plX sn cs j h s w x p d) s := by
  obtain ⟨hS, hC⟩ := osc_step o w s
  have he : e ≠ 0 := fun h0 => by have := o.unit; rw [h0] at this; norm_num at this
  have hj0 : j ≠ 0 := by rw [hj]; exact mul_ne_zero he (mul_ne_zero (mul_ne_zero hw hw) hd)
  have h1 := o.one (w * s)
  have hu := o.unit
  refine ⟨?_, ?_, ?_⟩
  · refine (((hC.const_mul x).add ((hS.const_mul p).div_const (w * (1 + d)))).add
      (((hC.const_sub 1).const_mul (d * h)).div_const j)).congr_deriv ?_
    simp only [plP]
    generalize sn (w * s) = S at *
    generalize cs (w * s) = C at *
    subst hj
    field_simp
  · refine ((((hS.const_mul (j * x)).div_const w).neg.add (hC.const_mul p)).add
      ((hS.const_mul (d * h)).div_const w)).congr_deriv ?_
    simp only [plX]
    generalize sn (w * s) = S at *
    generalize cs (w * s) = C at *
    have hp : e * w * S = j * (S / (w * (1 + d))) := by
      rw [hj]; field_simp
    have hq : j * (d * h * (1 - C) / j) = d * h * (1 - C) := by field_simp
    have : j * x * (w * C) / w = j * x * C := by field_simp
    rw [this]
    have h3 : d * h * (w * C) / w = d * h * C := by field_simp
    rw [h3]
    linear_combination hq - p * hp
  · refine ((((((hasDerivAt_id s).const_mul _).div_const 2).add ((hS.const_mul _).div_const w)).add
      ((((hS.mul hC).const_mul _).div_const w).div_const 2)).sub ((hC.const_sub 1).const_mul _)).add
      ((((hS.mul hS).const_mul e).const_mul _).div_const 2) |>.congr_deriv ?_
    simp only [plX, plP]
    generalize sn (w * s) = S at *
    generalize cs (w * s) = C at *
    rcases mul_self_eq_one_iff.mp hu with rfl | rfl <;> subst hj
    · linear_combination (norm := (field_simp; ring))
        (p * p / (4 * ((1 + d) * (1 + d))) +
          ((1 * (w * w * (1 + d))) * x - h * d) * ((1 * (w * w * (1 + d))) * x - h * d) /
            (4 * (1 * (w * w * (1 + d))) * (1 + d))) * h1
    · linear_combination (norm := (field_simp; ring))
        (p * p / (4 * ((1 + d) * (1 + d))) +
          ((-1 * (w * w * (1 + d))) * x - h * d) * ((-1 * (w * w * (1 + d))) * x - h * d) /
            (4 * (-1 * (w * w * (1 + d))) * (1 + d))) * h1

/-- Derivative of the position with respect to the momentum error; `S`, `C` are the functions at the phase. -/
noncomputable def jXd (e j h s w x p d S C : ℝ) : ℝ :=
  (j * x - h * d) / j * (e * S * (w * s / (2 * (1 + d)))) - p * C * (w * s / (2 * (1 + d))) / (w * (1 + d))
    - p * S / (2 * w * ((1 + d) * (1 + d))) + h * (1 - C) / j

/-- Derivative of the momentum with respect to the momentum error. -/
noncomputable def jPd (e j h s w x p d S C : ℝ) : ℝ :=
  -((j * x - h * d) * ((S / (2 * (1 + d)) - C * (w * s / (2 * (1 + d)))) / w)) + p * (e * S * (w * s / (2 * (1 + d))))
    + h * S / w

/-- Derivative of the contribution to ct with respect to the momentum error. -/
noncomputable def jQd (e j h s w x p d S C : ℝ) : ℝ :=
  (-(2 * (h * h / j)) + p * p / ((1 + d) * (1 + d) * (1 + d)) + (j * x - h * d) * h / (j * (1 + d))
    + (j * x - h * d) * (j * x - h * d) / (2 * j * ((1 + d) * (1 + d)))) * s / 2
  + h * h / j * S / w + (h * h * d / j - h * x) * ((S / (2 * (1 + d)) - C * (w * s / (2 * (1 + d)))) / w)
  + (p * p / ((1 + d) * (1 + d) * (1 + d)) - (j * x - h * d) * h / (j * (1 + d))
    - (j * x - h * d) * (j * x - h * d) / (2 * j * ((1 + d) * (1 + d)))) * (S * C) / w / 2
  + ((j * x - h * d) * (j * x - h * d) / j / (1 + d) / 2 - p * p / (1 + d) / (1 + d) / 2) *
    (((S / (2 * (1 + d)) - C * (w * s / (2 * (1 + d)))) / w) * C + S / w * (e * S * (w * s / (2 * (1 + d))))) / 2
  + h * p / j * (e * S * (w * s / (2 * (1 + d))))
  + p * (-(h / (j * (1 + d))) - (j * x - h * d) / (j * ((1 + d) * (1 + d)))) * (e * (S * S)) / 2
  - p * (j * x - h * d) / (j * (1 + d)) * (e * (S * (C * (w * s / (2 * (1 + d))))))

/-- Velocity of the position for the velocities of position, momentum and momentum error. -/
noncomputable def jX (e j h s w x p d S C x' p' d' : ℝ) : ℝ :=
  C * x' + S / (w * (1 + d)) * p' + jXd e j h s w x p d S C * d'

/-- Velocity of the momentum. -/
noncomputable def jP (e j h s w x p d S C x' p' d' : ℝ) : ℝ :=
  -(j * S / w) * x' + C * p' + jPd e j h s w x p d S C * d'

/-- Velocity of the contribution to ct. -/
noncomputable def jQ (e j h s w x p d S C x' p' d' : ℝ) : ℝ :=
  -(C * jPd e j h s w x p d S C + j * S / w * jXd e j h s w x p d S C) * x'
    + (C * jXd e j h s w x p d S C - S / (w * (1 + d)) * jPd e j h s w x p d S C) * p' + jQd e j h s w x p d S C * d'

/-- The form is kept in one plane together with the longitudinal one. -/
theorem pl_form {e j w d S C : ℝ} (h s x p : ℝ) (hd : 1 + d ≠ 0) (hw : w ≠ 0)
    (hj : j = e * (w * w * (1 + d))) (h1 : C * C + e * (S * S) = 1) (a b c a' b' c' : ℝ) :
    jX e j h s w x p d S C a b c * jP e j h s w x p d S C a' b' c'
      - jP e j h s w x p d S C a b c * jX e j h s w x p d S C a' b' c'
      + (jQ e j h s w x p d S C a b c * c' - c * jQ e j h s w x p d S C a' b' c') = a * b' - b * a' := by
  simp only [jX, jP, jQ]
  have h2 : j * S / w * (S / (w * (1 + d))) = e * (S * S) := by
    rw [hj]; field_simp
  generalize jXd e j h s w x p d S C = XD
  generalize jPd e j h s w x p d S C = PD
  generalize jQd e j h s w x p d S C = QD
  generalize S / (w * (1 + d)) = A at *
  generalize j * S / w = B at *
  linear_combination (a * b' - b * a') * h1 + (a * b' - b * a') * h2

/-- Velocities of the plane along a curve. -/
theorem pl_jac (o : Osc e sn cs) {j : ℝ} (h s : ℝ) {x p d w : ℝ → ℝ} {x' p' d' t : ℝ} (hx : HasDerivAt x x' t)
    (hp : HasDerivAt p p' t) (hd : HasDerivAt d d' t) (hw : HasDerivAt w (-(w t / (2 * (1 + d t))) * d') t)
    (hd0 : 1 + d t ≠ 0) (hw0 : w t ≠ 0) (hj : j = e * (w t * w t * (1 + d t))) :
    HasDerivAt (fun t => plX sn cs j h s (w t) (x t) (p t) (d t))
      (jX e j h s (w t) (x t) (p t) (d t) (sn (w t * s)) (cs (w t * s)) x' p' d') t ∧
    HasDerivAt (fun t => plP sn cs j h s (w t) (x t) (p t) (d t))
      (jP e j h s (w t) (x t) (p t) (d t) (sn (w t * s)) (cs (w t * s)) x' p' d') t ∧
    HasDerivAt (fun t => plQ e sn cs j h s (w t) (x t) (p t) (d t))
      (jQ e j h s (w t) (x t) (p t) (d t) (sn (w t * s)) (cs (w t * s)) x' p' d') t := by
  have hS : HasDerivAt (fun t => sn (w t * s)) _ t := (o.dsn (w t * s)).comp t (hw.mul_const s)
  have hC : HasDerivAt (fun t => cs (w t * s)) _ t := (o.dcs (w t * s)).comp t (hw.mul_const s)
  have hd1 : HasDerivAt (fun t => 1 + d t) d' t := hd.const_add 1
  have he : e ≠ 0 := fun h0 => by have := o.unit; rw [h0] at this; norm_num at this
  have hj0 : j ≠ 0 := by rw [hj]; exact mul_ne_zero he (mul_ne_zero (mul_ne_zero hw0 hw0) hd0)
  have h1 := o.one (w t * s)
  have hu := o.unit
  have hj2 : HasDerivAt (fun t => j * x t - h * d t) (j * x' - h * d') t := (hx.const_mul j).sub (hd.const_mul h)
  refine ⟨?_, ?_, ?_⟩
  · refine (((hx.mul hC).add ((hp.mul hS).div (hw.mul hd1) (mul_ne_zero hw0 hd0))).add
      (((hd.mul_const h).mul (hC.const_sub 1)).div_const j)).congr_deriv ?_
    simp only [jX, jXd, Function.comp_apply, Pi.mul_apply, Pi.sub_apply, Pi.add_apply, Pi.div_apply, Pi.neg_apply]
    generalize sn (w t * s) = S at *
    generalize cs (w t * s) = C at *
    field_simp
    ring
  · refine (((((hx.const_mul j).mul hS).div hw hw0).neg.add (hp.mul hC)).add
      (((hd.mul_const h).mul hS).div hw hw0)).congr_deriv ?_
    simp only [jP, jPd, Function.comp_apply, Pi.mul_apply, Pi.sub_apply, Pi.add_apply, Pi.div_apply, Pi.neg_apply]
    generalize sn (w t * s) = S at *
    generalize cs (w t * s) = C at *
    field_simp
    ring
  · refine (((((((((((hd.const_mul (h * h)).div_const j).const_mul 2).neg.sub
        ((((hp.mul hp).div hd1 hd0).div hd1 hd0).div_const 2)).sub
        ((((hj2.mul hj2).div_const j).div hd1 hd0).div_const 2)).mul_const s).div_const 2).add
      (((((hd.const_mul (h * h)).div_const j).sub (hx.const_mul h)).mul hS).div hw hw0)).add
      (((((((hj2.mul hj2).div_const j).div hd1 hd0).div_const 2).sub
        ((((hp.mul hp).div hd1 hd0).div hd1 hd0).div_const 2)).mul (hS.mul hC)).div hw hw0 |>.div_const 2)).sub
      (((hp.const_mul h).div_const j).mul (hC.const_sub 1))).add
      ((((((hp.mul hj2).div_const j).div hd1 hd0).mul ((hS.mul hS).const_mul e)).div_const 2))).congr_deriv ?_
    simp only [jQ, jQd, jPd, jXd, Function.comp_apply, Pi.mul_apply, Pi.sub_apply, Pi.add_apply, Pi.div_apply, Pi.neg_apply]
    generalize sn (w t * s) = S at *
    generalize cs (w t * s) = C at *
    generalize x t = X at *
    generalize p t = P at *
    generalize d t = D at *
    generalize w t = W at *
    rcases mul_self_eq_one_iff.mp hu with rfl | rfl <;> subst hj
    · linear_combination (norm := (field_simp; ring))
        (((1 * (W * W * (1 + D))) * X - h * D) * s / (2 * (1 + D)) * x' +
          (P * s / (2 * ((1 + D) * (1 + D))) + h / (1 * (W * W * (1 + D)))) * p') * h1
    · linear_combination (norm := (field_simp; ring))
        (((-1 * (W * W * (1 + D))) * X - h * D) * s / (2 * (1 + D)) * x' +
          (P * s / (2 * ((1 + D) * (1 + D))) + h / (-1 * (W * W * (1 + D)))) * p') * h1

/-- Motion in one plane with focusing `j` and curvature `h`, as far as the theorems about the maps use it: position,
momentum and contribution to ct as functions of length, position, momentum and momentum error. -/
structure IsPlane (j h : ℝ) (X P Q : ℝ → ℝ → ℝ → ℝ → ℝ) : Prop where
  flow : ∀ s x p d, 0 < 1 + d →
    HasDerivAt (fun s => X s x p d) (P s x p d / (1 + d)) s ∧
    HasDerivAt (fun s => P s x p d) (-(j * X s x p d) + h * d) s ∧
    HasDerivAt (fun s => Q s x p d) (-(P s x p d * P s x p d / (2 * ((1 + d) * (1 + d)))) - h * X s x p d) s
  jac : ∀ s x0 p0 d0, 0 < 1 + d0 → ∃ JX JP JQ : ℝ → ℝ → ℝ → ℝ,
    (∀ (x p d : ℝ → ℝ) (x' p' d' t : ℝ), x t = x0 → p t = p0 → d t = d0 → HasDerivAt x x' t → HasDerivAt p p' t →
      HasDerivAt d d' t → HasDerivAt (fun t => X s (x t) (p t) (d t)) (JX x' p' d') t ∧
      HasDerivAt (fun t => P s (x t) (p t) (d t)) (JP x' p' d') t ∧
      HasDerivAt (fun t => Q s (x t) (p t) (d t)) (JQ x' p' d') t) ∧
    ∀ a b c a' b' c', JX a b c * JP a' b' c' - JP a b c * JX a' b' c' + (JQ a b c * c' - c * JQ a' b' c') = a * b' - b * a'
  zero : ∀ x p d, X 0 x p d = x ∧ P 0 x p d = p ∧ Q 0 x p d = 0
  add : ∀ s r x p d, 0 < 1 + d → X (s + r) x p d = X r (X s x p d) (P s x p d) d ∧
    P (s + r) x p d = P r (X s x p d) (P s x p d) d

theorem IsPlane.qadd {j h : ℝ} {X P Q : ℝ → ℝ → ℝ → ℝ → ℝ} (a : IsPlane j h X P Q) (s r x p d : ℝ) (hd : 0 < 1 + d) :
    Q (s + r) x p d = Q s x p d + Q r (X s x p d) (P s x p d) d := by
  have key : ∀ r, HasDerivAt (fun r => Q (s + r) x p d - Q r (X s x p d) (P s x p d) d) 0 r := fun r => by
    have h1 := (a.flow (s + r) x p d hd).2.2
    have h2 := (a.flow r (X s x p d) (P s x p d) d hd).2.2
    have h3 : HasDerivAt (fun r => s + r) 1 r := by simpa using (hasDerivAt_id r).const_add s
    have h4 := (h1.comp r h3).sub h2
    refine h4.congr_deriv ?_
    rw [(a.add s r x p d hd).1, (a.add s r x p d hd).2]
    ring
  have hc := is_const_of_deriv_eq_zero (f := fun r => Q (s + r) x p d - Q r (X s x p d) (P s x p d) d)
    (fun r => (key r).differentiableAt) (fun r => (key r).deriv) r 0
  simp only [add_zero, (a.zero _ _ _).2.2, sub_zero] at hc
  linarith

/-- Frequency of the motion in a plane. -/
noncomputable def freq (j d : ℝ) : ℝ := √(|j| / (1 + d))

theorem freq_pos {j d : ℝ} (hj : j ≠ 0) (hd : 0 < 1 + d) : 0 < freq j d :=
  sqrt_pos.mpr (div_pos (abs_pos.mpr hj) hd)

theorem freq_sq (j : ℝ) {d : ℝ} (hd : 0 < 1 + d) : freq j d * freq j d * (1 + d) = |j| := by
  rw [freq, mul_self_sqrt (div_nonneg (abs_nonneg j) hd.le)]; field_simp

theorem freq_der {j : ℝ} (hj : j ≠ 0) {d : ℝ → ℝ} {d' t : ℝ} (hd : 0 < 1 + d t) (h : HasDerivAt d d' t) :
    HasDerivAt (fun t => freq j (d t)) (-(freq j (d t) / (2 * (1 + d t))) * d') t := by
  have h1 : HasDerivAt (fun t => 1 + d t) d' t := h.const_add 1
  have h2 := (h1.fun_inv hd.ne').const_mul |j|
  have hp : 0 < |j| * (1 + d t)⁻¹ := mul_pos (abs_pos.mpr hj) (inv_pos.mpr hd)
  have h3 := h2.sqrt hp.ne'
  have hf : ∀ t, √(|j| * (1 + d t)⁻¹) = freq j (d t) := fun t => by rw [freq, div_eq_mul_inv]
  simp only [hf] at h3
  refine h3.congr_deriv ?_
  have hs := freq_sq j hd
  have h0 := (freq_pos hj hd).ne'
  rw [← hs]
  field_simp

theorem plane_osc (o : Osc e sn cs) {j : ℝ} (h : ℝ) (hj : j ≠ 0) (he : |j| = e * j) :
    IsPlane j h (fun s x p d => plX sn cs j h s (freq j d) x p d) (fun s x p d => plP sn cs j h s (freq j d) x p d)
      (fun s x p d => plQ e sn cs j h s (freq j d) x p d) := by
  have hjj : ∀ d, 0 < 1 + d → j = e * (freq j d * freq j d * (1 + d)) := fun d hd => by
    rw [freq_sq j hd, he]; linear_combination (-j) * o.unit
  refine ⟨fun s x p d hd => pl_flow o h s x p hd.ne' (freq_pos hj hd).ne' (hjj d hd), fun s x0 p0 d0 hd => ?_,
    fun x p d => ?_, fun s r x p d hd => ?_⟩
  · refine ⟨jX e j h s (freq j d0) x0 p0 d0 (sn (freq j d0 * s)) (cs (freq j d0 * s)),
      jP e j h s (freq j d0) x0 p0 d0 (sn (freq j d0 * s)) (cs (freq j d0 * s)),
      jQ e j h s (freq j d0) x0 p0 d0 (sn (freq j d0 * s)) (cs (freq j d0 * s)), ?_, ?_⟩
    · rintro x p d x' p' d' t rfl rfl rfl hx hp hdd
      exact pl_jac o h s hx hp hdd (freq_der hj hd hdd) hd.ne' (freq_pos hj hd).ne' (hjj _ hd)
    · exact pl_form h s x0 p0 hd.ne' (freq_pos hj hd).ne' (hjj _ hd) (o.one _)
  · simp only [plX, plP, plQ, mul_zero, o.szero, o.czero]
    refine ⟨?_, ?_, ?_⟩ <;> simp
  · have hw := (freq_pos hj hd).ne'
    have hd' := hd.ne'
    have h1 := hjj d hd
    simp only [plX, plP, mul_add, o.sadd, o.cadd]
    generalize freq j d = w at *
    generalize sn (w * s) = S
    generalize cs (w * s) = C
    generalize sn (w * r) = S'
    generalize cs (w * r) = C'
    have he0 : e ≠ 0 := fun h0 => by have := o.unit; rw [h0] at this; norm_num at this
    have hu := o.unit
    rcases mul_self_eq_one_iff.mp hu with rfl | rfl
    · constructor <;> subst h1 <;> field_simp <;> ring
    · constructor <;> subst h1 <;> field_simp <;> ring

theorem plane_drift : IsPlane 0 0 (fun s x p d => x + p * s / (1 + d)) (fun _ _ p _ => p)
    (fun s _ p d => -(p * p / (1 + d) / (1 + d) / 2) * s) := by
  refine ⟨fun s x p d hd => ?_, fun s x0 p0 d0 hd => ?_, fun x p d => ?_, fun s r x p d hd => ?_⟩
  · refine ⟨?_, ?_, ?_⟩
    · exact ((((hasDerivAt_id s).const_mul p).div_const (1 + d)).const_add x).congr_deriv (by ring)
    · simpa using hasDerivAt_const s p
    · exact ((hasDerivAt_id s).const_mul _).congr_deriv (by field_simp; ring)
  · have hd' := hd.ne'
    refine ⟨fun a b c => a + s / (1 + d0) * b - p0 * s / ((1 + d0) * (1 + d0)) * c, fun _ b _ => b,
      fun _ b c => -(p0 * s / ((1 + d0) * (1 + d0)) * b) + p0 * p0 * s / ((1 + d0) * (1 + d0) * (1 + d0)) * c, ?_, ?_⟩
    · rintro x p d x' p' d' t rfl rfl rfl hx hp hdd
      have h1 : HasDerivAt (fun t => 1 + d t) d' t := hdd.const_add 1
      refine ⟨?_, hp, ?_⟩
      · refine (hx.add ((hp.mul_const s).div h1 hd')).congr_deriv ?_
        field_simp
        ring
      · refine ((((((hp.mul hp).div h1 hd').div h1 hd').div_const 2).neg).mul_const s).congr_deriv ?_
        simp only [Pi.mul_apply, Pi.div_apply]
        field_simp
        ring
    · intro a b c a' b' c'
      ring
  · simp
  · exact ⟨by ring, rfl⟩

end Verif.Symplectic
