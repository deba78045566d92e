import Mathlib.Tactic.Ring
import Mathlib.Tactic.Linarith
import Mathlib.Tactic.FieldSimp
import Mathlib.Tactic.NormNum
import Mathlib.Tactic.IntervalCases
import Mathlib.Analysis.Real.Pi.Bounds
import Mathlib.Analysis.Complex.ExponentialBounds
import Mathlib.Analysis.SpecialFunctions.Gamma.BohrMollerup
import Verif.Absorber.Spec

/-! # Properties of scattering in a block of material -/

namespace Verif.Absorber

open Verif Spec MeasureTheory

/-! ## C354, C355: the function Gamma -/

theorem lanczos_pos (x : ℝ) (hx : 0 < x) : 0 < lanczos x := by
  unfold lanczos
  simp only
  have e : ∀ k : ℝ, x - 1 + (k + 1) = x + k := fun k => by ring
  have h : 0.99999999999980993 + 676.5203681218851 / (x - 1 + 1) + -1259.1392167224028 / (x - 1 + 2) + 771.32342877765313 / (x - 1 + 3) + -176.61502916214059 / (x - 1 + 4)
    + 12.507343278686905 / (x - 1 + 5) + -0.13857109526572012 / (x - 1 + 6) + 9.9843695780195716E-06 / (x - 1 + 7) + 1.5056327351493116E-7 / (x - 1 + 8) =
    ((426207831916787613 / 125000000000 : ℝ) + (40648319250249675489584283 / 9765625000000000000 : ℝ) * x ^ 1 + (6946501310917629812687579647 / 3125000000000000000000 : ℝ) * x ^ 2 + (8478621268779175770311451153 / 12500000000000000000000 : ℝ) * x ^ 3 + (646736292643652766923465573 / 5000000000000000000000 : ℝ) * x ^ 4 + (15784880456697452186791557 / 1000000000000000000000 : ℝ) * x ^ 5 + (30095855034716156123603239 / 25000000000000000000000 : ℝ) * x ^ 6 + (1311458333333588861362569 / 25000000000000000000000 : ℝ) * x ^ 7 + (99999999999980993 / 100000000000000000 : ℝ) * x ^ 8) / (x * (x + 1) * (x + 2) * (x + 3) * (x + 4) * (x + 5) * (x + 6) * (x + 7)) := by
    have h0 : x - 1 + 1 = x := by ring
    have h1 : x - 1 + 2 = x + 1 := by ring
    have h2 : x - 1 + 3 = x + 2 := by ring
    have h3 : x - 1 + 4 = x + 3 := by ring
    have h4 : x - 1 + 5 = x + 4 := by ring
    have h5 : x - 1 + 6 = x + 5 := by ring
    have h6 : x - 1 + 7 = x + 6 := by ring
    have h7 : x - 1 + 8 = x + 7 := by ring
    rw [h0, h1, h2, h3, h4, h5, h6, h7]
    rw [eq_div_iff (by positivity)]
    field_simp
    ring
  rw [h]
  positivity

/-- **C354.** For positive arguments Gamma is defined and positive. -/
theorem gamma_defined (x : ℝ) (hx : 0 < x) : ∃ g, gamma x = .ok g ∧ 0 < g := by
  have h : ¬ ((∃ i : Nat, i < 8 ∧ x - 1 + i + 1 = 0) ∨ x - 1 + 15 / 2 ≤ 0 ∨ lanczos x ≤ 0) := by
    rintro (⟨i, -, h⟩ | h | h)
    · have : (0 : ℝ) ≤ i := Nat.cast_nonneg i
      linarith
    · linarith
    · linarith [lanczos_pos x hx]
  unfold gamma logGamma
  simp only
  rw [if_neg h]
  exact ⟨_, rfl, Real.exp_pos _⟩

/-- The square of Gamma at an integer, without roots and logarithms. -/
theorem gamma_square (n : Nat) (hn : 1 ≤ n) (g : ℝ) (hg : gamma n = .ok g) :
    g ^ 2 = 2 * Real.pi * ((n : ℝ) + 13 / 2) ^ (2 * n - 1) / Real.exp 1 ^ (2 * n + 13) * lanczos n ^ 2 := by
  have hx : (0 : ℝ) < n := by exact_mod_cast hn
  have hl := lanczos_pos n hx
  have hp := Real.pi_pos
  unfold gamma logGamma at hg
  simp only at hg
  split at hg
  · simp [Outcome.bind] at hg
  · simp only [Outcome.bind] at hg
    injection hg with hg
    have hb : (0 : ℝ) < (n : ℝ) - 1 + 15 / 2 := by linarith
    have hs : 0 < √(2 * Real.pi) := Real.sqrt_pos.mpr (by positivity)
    rw [← hg, ← Real.exp_nat_mul]
    have e1 : ((2 : Nat) : ℝ) * (Real.log (√(2 * Real.pi)) + ((n : ℝ) - 1 + 1 / 2) * Real.log ((n : ℝ) - 1 + 15 / 2) - ((n : ℝ) - 1 + 15 / 2) + Real.log (lanczos n))
        = (2 : Nat) * Real.log (√(2 * Real.pi)) + ((2 * n - 1 : Nat) : ℝ) * Real.log ((n : ℝ) - 1 + 15 / 2) - ((2 * n + 13 : Nat) : ℝ) * 1 + (2 : Nat) * Real.log (lanczos n) := by
      rw [Nat.cast_sub (by omega)]
      push_cast
      ring
    rw [e1, Real.exp_add, Real.exp_sub, Real.exp_add, Real.exp_nat_mul, Real.exp_nat_mul, Real.exp_nat_mul, Real.exp_nat_mul, Real.exp_log hs, Real.exp_log hb, Real.exp_log hl,
      Real.sq_sqrt (by positivity)]
    have : (n : ℝ) - 1 + 15 / 2 = n + 13 / 2 := by ring
    rw [this]

/-- **C354.** At the integers from 1 to 20 Gamma is the factorial, to one part in ten million. -/
theorem gamma_integers (n : Nat) (h1 : 1 ≤ n) (h2 : n ≤ 20) : ∃ g, gamma n = .ok g ∧ |g - (n - 1).factorial| ≤ (n - 1).factorial / 10 ^ 7 := by
  obtain ⟨g, hg, hp⟩ := gamma_defined n (by exact_mod_cast h1)
  refine ⟨g, hg, ?_⟩
  have hsq := gamma_square n h1 g hg
  have hl := lanczos_pos n (by exact_mod_cast h1)
  have hF : (0 : ℝ) < (n - 1).factorial := by exact_mod_cast Nat.factorial_pos _
  have hpi1 := Real.pi_gt_d20
  have hpi2 := Real.pi_lt_d20
  have he1 := Real.exp_one_gt_d9
  have he2 := Real.exp_one_lt_d9
  have hpow1 : (2.7182818283 : ℝ) ^ (2 * n + 13) ≤ Real.exp 1 ^ (2 * n + 13) := pow_le_pow_left₀ (by norm_num) he1.le _
  have hpow2 : Real.exp 1 ^ (2 * n + 13) ≤ (2.7182818286 : ℝ) ^ (2 * n + 13) := pow_le_pow_left₀ (Real.exp_pos _).le he2.le _
  have hA : 0 < ((n : ℝ) + 13 / 2) ^ (2 * n - 1) * lanczos n ^ 2 := by positivity
  have lower : 2 * 3.14159265358979323846 * (((n : ℝ) + 13 / 2) ^ (2 * n - 1) * lanczos n ^ 2) / (2.7182818286 : ℝ) ^ (2 * n + 13) ≤ g ^ 2 := by
    rw [hsq, show 2 * Real.pi * ((n : ℝ) + 13 / 2) ^ (2 * n - 1) / Real.exp 1 ^ (2 * n + 13) * lanczos n ^ 2 =
      2 * Real.pi * (((n : ℝ) + 13 / 2) ^ (2 * n - 1) * lanczos n ^ 2) / Real.exp 1 ^ (2 * n + 13) by ring]
    apply div_le_div₀
    · have := Real.pi_pos; positivity
    · nlinarith
    · have := Real.exp_pos 1; positivity
    · exact hpow2
  have upper : g ^ 2 ≤ 2 * 3.14159265358979323847 * (((n : ℝ) + 13 / 2) ^ (2 * n - 1) * lanczos n ^ 2) / (2.7182818283 : ℝ) ^ (2 * n + 13) := by
    rw [hsq, show 2 * Real.pi * ((n : ℝ) + 13 / 2) ^ (2 * n - 1) / Real.exp 1 ^ (2 * n + 13) * lanczos n ^ 2 =
      2 * Real.pi * (((n : ℝ) + 13 / 2) ^ (2 * n - 1) * lanczos n ^ 2) / Real.exp 1 ^ (2 * n + 13) by ring]
    apply div_le_div₀
    · positivity
    · nlinarith
    · positivity
    · exact hpow1
  have key : ((n - 1).factorial * (1 - 1 / 10 ^ 7) : ℝ) ^ 2 ≤ g ^ 2 ∧ g ^ 2 ≤ ((n - 1).factorial * (1 + 1 / 10 ^ 7) : ℝ) ^ 2 := by
    constructor
    · refine le_trans ?_ lower
      clear lower upper hsq hA hpow1 hpow2 hF hl hg hpi1 hpi2 he1 he2 hp
      interval_cases n <;> (unfold lanczos; norm_num [Nat.factorial])
    · refine le_trans upper ?_
      clear lower upper hsq hA hpow1 hpow2 hF hl hg hpi1 hpi2 he1 he2 hp
      interval_cases n <;> (unfold lanczos; norm_num [Nat.factorial])
  have k1 := (pow_le_pow_iff_left₀ (by norm_num) hp.le (by norm_num)).mp key.1
  have k2 := (pow_le_pow_iff_left₀ hp.le (by positivity) (by norm_num)).mp key.2
  rw [abs_le]
  constructor <;> linarith

/-- **C355, violated.** For negative arguments between integers, where the function is defined, there is no value. -/
theorem gamma_negative_violated : gamma (-1 / 2) = .ub ∧ Real.Gamma (-1 / 2) ≠ 0 := by
  constructor
  · unfold gamma logGamma
    simp only
    rw [if_pos]
    · rfl
    · right; right
      unfold lanczos
      norm_num
  · exact Real.Gamma_ne_zero fun m h => by
      have : (m : ℝ) = 1 / 2 := by linarith
      have h2 : ((2 * m : Nat) : ℝ) = ((1 : Nat) : ℝ) := by push_cast; linarith
      have h3 : 2 * m = 1 := by exact_mod_cast h2
      omega

/-! ## C356, C357: multiple scattering -/

theorem standard_moment {Ω : Type} [MeasurableSpace Ω] (μ : Measure Ω) (Z1 Z2 : Ω → ℝ) (h : Standard μ Z1 Z2) (a b c d : ℝ) :
    ∫ w, (a * Z1 w + b * Z2 w) * (c * Z1 w + d * Z2 w) ∂μ = a * c + b * d := by
  have e : (fun w => (a * Z1 w + b * Z2 w) * (c * Z1 w + d * Z2 w)) = fun w => (a * c) * (Z1 w * Z1 w) + ((b * d) * (Z2 w * Z2 w) + (a * d + b * c) * (Z1 w * Z2 w)) := by
    funext w
    ring
  have h23 : Integrable (fun w => (b * d) * (Z2 w * Z2 w) + (a * d + b * c) * (Z1 w * Z2 w)) μ := (h.i2.const_mul _).add (h.i12.const_mul _)
  rw [e, integral_add (h.i1.const_mul _) h23, integral_add (h.i2.const_mul _) (h.i12.const_mul _), integral_const_mul, integral_const_mul,
    integral_const_mul, h.e1, h.e2, h.e12]
  ring

/-- **C356.** Displacement and angle have the second moments of multiple scattering in a block of length `x` (Particle Data Group): a third, a half and one
times the square of the angle, with the powers of the length. -/
theorem coulomb_moments {Ω : Type} [MeasurableSpace Ω] (μ : Measure Ω) (Z1 Z2 : Ω → ℝ) (h : Standard μ Z1 Z2) (x theta0 : ℝ) :
    moments μ (fun w => coulomb x theta0 (Z1 w) (Z2 w)) = (x ^ 2 * theta0 ^ 2 / 3, x * theta0 ^ 2 / 2, theta0 ^ 2) := by
  have h12 : √12 ^ 2 = (12 : ℝ) := Real.sq_sqrt (by norm_num)
  have hne : √12 ≠ (0 : ℝ) := by positivity
  have e1 : ∀ w, (coulomb x theta0 (Z1 w) (Z2 w)).1 = (x * theta0 / √12) * Z1 w + (x * theta0 / 2) * Z2 w := fun w => by
    unfold coulomb
    simp only
    ring
  have e2 : ∀ w, (coulomb x theta0 (Z1 w) (Z2 w)).2 = 0 * Z1 w + theta0 * Z2 w := fun w => by
    unfold coulomb
    simp only
    ring
  unfold moments
  simp only [e1, e2, standard_moment μ Z1 Z2 h]
  have e3 : x * theta0 / √12 * (x * theta0 / √12) = x ^ 2 * theta0 ^ 2 / 12 := by
    rw [div_mul_div_comm, show √12 * √12 = (12 : ℝ) by rw [← sq, h12]]
    ring
  refine Prod.ext ?_ (Prod.ext ?_ ?_)
  · simp only [e3]
    ring
  · simp only
    ring
  · simp only
    ring

/-- **C356.** If the square of the angle is proportional to the length, a block may be divided: moments of the first part, carried straight through the second, plus those of
the second are the moments of the whole. -/
theorem coulomb_divided {Ω : Type} [MeasurableSpace Ω] (μ : Measure Ω) (Z1 Z2 : Ω → ℝ) (h : Standard μ Z1 Z2) (k l1 l2 : ℝ) (hk : 0 ≤ k) (h1 : 0 ≤ l1) (h2 : 0 ≤ l2) :
    moments μ (fun w => coulomb (l1 + l2) (√(k * (l1 + l2))) (Z1 w) (Z2 w)) =
      drift l2 (moments μ (fun w => coulomb l1 (√(k * l1)) (Z1 w) (Z2 w))) + moments μ (fun w => coulomb l2 (√(k * l2)) (Z1 w) (Z2 w)) := by
  simp only [coulomb_moments μ Z1 Z2 h]
  rw [Real.sq_sqrt (by positivity), Real.sq_sqrt (by positivity), Real.sq_sqrt (by positivity)]
  unfold drift
  simp only [Prod.mk_add_mk]
  refine Prod.ext ?_ (Prod.ext ?_ ?_)
  · simp only
    ring
  · simp only
    ring
  · simp only
    ring

/-- Two random variables as asked for: one of two points, with equal chances. -/
theorem standard_case : Standard ((1 / 2 : ENNReal) • Measure.dirac ((√2, 0) : ℝ × ℝ) + (1 / 2 : ENNReal) • Measure.dirac ((0, √2) : ℝ × ℝ)) (fun w => w.1) (fun w => w.2) := by
  have hi : ∀ f : ℝ × ℝ → ℝ, Continuous f → Integrable f ((1 / 2 : ENNReal) • Measure.dirac ((√2, 0) : ℝ × ℝ) + (1 / 2 : ENNReal) • Measure.dirac ((0, √2) : ℝ × ℝ)) := by
    intro f hf
    refine Integrable.add_measure ?_ ?_
    · exact (integrable_dirac (by simp)).smul_measure (by simp)
    · exact (integrable_dirac (by simp)).smul_measure (by simp)
  have hv : ∀ f : ℝ × ℝ → ℝ, Continuous f → ∫ w, f w ∂((1 / 2 : ENNReal) • Measure.dirac ((√2, 0) : ℝ × ℝ) + (1 / 2 : ENNReal) • Measure.dirac ((0, √2) : ℝ × ℝ)) = f (√2, 0) / 2 + f (0, √2) / 2 := by
    intro f hf
    rw [integral_add_measure ((integrable_dirac (by simp)).smul_measure (by simp)) ((integrable_dirac (by simp)).smul_measure (by simp)), integral_smul_measure, integral_smul_measure,
      integral_dirac, integral_dirac]
    simp
    ring
  have h2 : √2 * √2 = (2 : ℝ) := Real.mul_self_sqrt (by norm_num)
  refine ⟨hi _ (by fun_prop), hi _ (by fun_prop), hi _ (by fun_prop), ?_, ?_, ?_⟩
  · rw [hv _ (by fun_prop)]
    simp only [h2]
    norm_num
  · rw [hv _ (by fun_prop)]
    simp only [h2]
    norm_num
  · rw [hv _ (by fun_prop)]
    simp

example : moments ((1 / 2 : ENNReal) • Measure.dirac ((√2, 0) : ℝ × ℝ) + (1 / 2 : ENNReal) • Measure.dirac ((0, √2) : ℝ × ℝ)) (fun w : ℝ × ℝ => coulomb 2 3 w.1 w.2) = (12, 9, 9) := by
  rw [coulomb_moments _ _ _ standard_case]
  norm_num

/-- **C357, violated.** With the angle of the code the square of the angle is not proportional to the length, so that two half blocks scatter less than the whole:
for two times one radiation length the squares of the angles sum up to less than that of two. -/
theorem divided_violated (E : ℝ) (hE : 0 < E) : angle 1 E ^ 2 + angle 1 E ^ 2 < angle 2 E ^ 2 := by
  have h2 : √2 ^ 2 = (2 : ℝ) := Real.sq_sqrt (by norm_num)
  have hl : 0 < Real.log 2 := Real.log_pos (by norm_num)
  unfold angle
  rw [Real.log_one, Real.sqrt_one, div_pow, div_pow, ← add_div]
  apply div_lt_div_of_pos_right _ (by positivity)
  rw [show (136 / 10000 * √2 * (1 + 38 / 1000 * Real.log 2)) ^ 2 = (136 / 10000) ^ 2 * √2 ^ 2 * (1 + 38 / 1000 * Real.log 2) ^ 2 by ring, h2]
  nlinarith

/-! ## C358, C359: energy loss -/

/-- The loss in terms of `v`, the fraction of the largest argument. -/
theorem rawLoss_eq (t1 g u : ℝ) (hg : 0 < t1 * g) : rawLoss t1 g u * ((t1 * g) ^ (-1 / t1)) ^ 2 = u ^ (1 / t1) * ((t1 * g) ^ (-1 / t1) * (1 - (u ^ (1 / t1)) ^ 2) +
    ((t1 * g) ^ (-1 / t1)) ^ 2 * (u ^ (1 / t1)) ^ 2 - 1 / 2 * ((t1 - 1) / (t1 + 1)) * u ^ (1 / t1) * (1 - u ^ (1 / t1))) := by
  have hne : (t1 * g) ^ (-1 / t1) ≠ 0 := (Real.rpow_pos_of_pos hg _).ne'
  unfold rawLoss
  simp only
  generalize (t1 * g) ^ (-1 / t1) = a at *
  generalize u ^ (1 / t1) = v
  generalize (t1 - 1) / (t1 + 1) = q
  field_simp
  ring

/-- **C358.** The energy loss is not negative as long as the value of Gamma times the length is not above the length-th power of four. -/
theorem loss_nonneg (t1 g u : ℝ) (ht : 0 < t1) (hg : 0 < g) (h4 : t1 ≤ 1 ∨ t1 * g ≤ 4 ^ t1) (hu : 0 ≤ u) (hu1 : u ≤ 1) : 0 ≤ loss t1 g u := by
  have hgp : 0 < t1 * g := mul_pos ht hg
  have hap : 0 < (t1 * g) ^ (-1 / t1) := Real.rpow_pos_of_pos hgp _
  have hv0 : 0 ≤ u ^ (1 / t1) := Real.rpow_nonneg hu _
  have hv1 : u ^ (1 / t1) ≤ 1 := Real.rpow_le_one hu hu1 (by positivity)
  have e := rawLoss_eq t1 g u hgp
  have ha : t1 ≤ 1 ∨ 1 / 4 ≤ (t1 * g) ^ (-1 / t1) := by
    rcases h4 with h | h
    · exact Or.inl h
    · right
      have h1 : ((4 : ℝ) ^ t1) ^ (-1 / t1) ≤ (t1 * g) ^ (-1 / t1) := Real.rpow_le_rpow_of_nonpos hgp h (by
        apply div_nonpos_of_nonpos_of_nonneg (by norm_num) ht.le)
      rw [← Real.rpow_mul (by norm_num), show t1 * (-1 / t1) = -1 by field_simp, Real.rpow_neg_one] at h1
      linarith
  have hraw : 0 ≤ rawLoss t1 g u := by
    by_contra hneg
    push Not at hneg
    have hq1 : (t1 - 1) / (t1 + 1) < 1 := by rw [div_lt_one (by linarith)]; linarith
    have h2 : 0 ≤ (t1 * g) ^ (-1 / t1) * (1 - (u ^ (1 / t1)) ^ 2) + ((t1 * g) ^ (-1 / t1)) ^ 2 * (u ^ (1 / t1)) ^ 2 - 1 / 2 * ((t1 - 1) / (t1 + 1)) * u ^ (1 / t1) * (1 - u ^ (1 / t1)) := by
      generalize (t1 * g) ^ (-1 / t1) = a at *
      generalize u ^ (1 / t1) = v at *
      have hvv : 0 ≤ v * (1 - v) := mul_nonneg hv0 (by linarith)
      have h3 : 0 ≤ a ^ 2 * v ^ 2 := by positivity
      have h5 : 0 ≤ a * (1 - v ^ 2) := mul_nonneg hap.le (by nlinarith)
      rcases ha with h | h
      · have hq : (t1 - 1) / (t1 + 1) ≤ 0 := div_nonpos_of_nonpos_of_nonneg (by linarith) (by linarith)
        nlinarith
      · have h6 : 1 / 4 * (1 - v ^ 2) ≤ a * (1 - v ^ 2) := mul_le_mul_of_nonneg_right h (by nlinarith)
        have h7 : (t1 - 1) / (t1 + 1) * (v * (1 - v)) ≤ 1 * (v * (1 - v)) := mul_le_mul_of_nonneg_right hq1.le hvv
        nlinarith
    have h3 := mul_nonneg hv0 h2
    rw [← e] at h3
    have : rawLoss t1 g u * ((t1 * g) ^ (-1 / t1)) ^ 2 < 0 := mul_neg_of_neg_of_pos hneg (by positivity)
    linarith
  unfold loss
  split
  · unfold maxdp
    norm_num
  · exact hraw

/-- What comes out of the block, as far as the momentum is concerned. -/
theorem scatter_dp (G : ℝ → Outcome Empty ℝ) (X0 x E0 u z1 z2 z3 z4 : ℝ) (p q : Part) (h : scatter G X0 x E0 u z1 z2 z3 z4 p = .ok q) :
    ∃ g, G (x / X0 / Real.log 2) = .ok g ∧ 1 + q.dp = (1 + p.dp) * (1 - loss (x / X0 / Real.log 2) g u) := by
  unfold scatter at h
  simp only at h
  split at h
  · exact absurd h (by simp)
  · cases hG : G (x / X0 / Real.log 2) with
    | ok g =>
      rw [hG] at h
      simp only [Outcome.bind] at h
      split at h
      · exact absurd h (by simp)
      · injection h with h
        refine ⟨g, rfl, ?_⟩
        rw [← h]
        ring
    | throw e => exact e.elim
    | ub =>
      rw [hG] at h
      exact absurd h (by simp [Outcome.bind])

/-- **C358.** A particle that has energy keeps at least a ten millionth of it, whatever the block. -/
theorem energy_positive (G : ℝ → Outcome Empty ℝ) (X0 x E0 u z1 z2 z3 z4 : ℝ) (p q : Part) (h : scatter G X0 x E0 u z1 z2 z3 z4 p = .ok q) (hp : -1 < p.dp) :
    (1 + p.dp) / 10000000 ≤ 1 + q.dp := by
  obtain ⟨g, -, e⟩ := scatter_dp G X0 x E0 u z1 z2 z3 z4 p q h
  have hl : loss (x / X0 / Real.log 2) g u ≤ 1 - 1 / 10000000 := by
    unfold loss
    split
    · exact le_refl _
    · rename_i hh
      unfold maxdp at hh
      linarith
  rw [e]
  nlinarith

/-- **C358.** In blocks of up to `log 2` radiation lengths, with the function Gamma of the code, a particle leaves with no more energy than it had, and it does leave. -/
theorem thin_block (X0 x E0 u z1 z2 z3 z4 : ℝ) (p : Part) (hX : 0 < X0) (hx : 0 < x) (ht : x / X0 ≤ Real.log 2) (hE : 0 < E0) (hu : 0 ≤ u) (hu1 : u ≤ 1) (hp : -1 < p.dp) :
    ∃ q, scatter gamma X0 x E0 u z1 z2 z3 z4 p = .ok q ∧ -1 < q.dp ∧ q.dp ≤ p.dp := by
  have hl : 0 < Real.log 2 := Real.log_pos (by norm_num)
  have ht1 : 0 < x / X0 / Real.log 2 := by positivity
  obtain ⟨g, hg, hgp⟩ := gamma_defined _ ht1
  have hex : ∃ q, scatter gamma X0 x E0 u z1 z2 z3 z4 p = .ok q := by
    unfold scatter
    simp only
    rw [if_neg (by rintro (h | h); exact hX.ne' h; have := div_pos hx hX; linarith), hg]
    simp only [Outcome.bind]
    rw [if_neg]
    · exact ⟨_, rfl⟩
    · have hloss : loss (x / X0 / Real.log 2) g u ≤ maxdp := by
        unfold loss
        split
        · exact le_refl _
        · rename_i h
          exact not_lt.mp h
      unfold maxdp at hloss
      have h1 : 0 < 1 + p.dp := by linarith
      have h2 : 0 < E0 * (1 + p.dp) := by positivity
      have h3 : 0 < E0 * (1 + (p.dp - loss (x / X0 / Real.log 2) g u * (1 + p.dp))) := by
        apply mul_pos hE
        nlinarith
      intro h
      linarith
  obtain ⟨q, hq⟩ := hex
  refine ⟨q, hq, ?_, ?_⟩
  · have := energy_positive _ _ _ _ _ _ _ _ _ _ _ hq hp
    have h1 : 0 < 1 + p.dp := by linarith
    have h2 : 0 < (1 + p.dp) / 10000000 := by positivity
    linarith
  · obtain ⟨g', hg', e⟩ := scatter_dp _ _ _ _ _ _ _ _ _ _ _ hq
    rw [hg] at hg'
    injection hg' with hg'
    subst hg'
    have hn := loss_nonneg _ g u ht1 hgp (Or.inl (by rw [div_le_one hl]; exact ht)) hu hu1
    nlinarith

/-- **C358.** With the exact function Gamma this holds up to eight times that. -/
theorem medium_block (X0 x E0 u z1 z2 z3 z4 : ℝ) (p q : Part) (hX : 0 < X0) (hx : 0 < x) (ht : x / X0 ≤ 8 * Real.log 2) (hu : 0 ≤ u) (hu1 : u ≤ 1) (hp : -1 < p.dp)
    (h : scatter (fun t => .ok (Real.Gamma t)) X0 x E0 u z1 z2 z3 z4 p = .ok q) : q.dp ≤ p.dp := by
  have hl : 0 < Real.log 2 := Real.log_pos (by norm_num)
  have ht1 : 0 < x / X0 / Real.log 2 := by positivity
  have ht8 : x / X0 / Real.log 2 ≤ 8 := by rw [div_le_iff₀ hl]; exact ht
  obtain ⟨g, hg, e⟩ := scatter_dp _ _ _ _ _ _ _ _ _ _ _ h
  injection hg with hg
  generalize x / X0 / Real.log 2 = t1 at *
  have hgp : 0 < g := hg ▸ Real.Gamma_pos_of_pos ht1
  have hconv : t1 * g ≤ 4 ^ t1 := by
    rw [← hg, ← Real.Gamma_add_one ht1.ne']
    have hc := Real.convexOn_log_Gamma.2 (show (1 : ℝ) ∈ Set.Ioi 0 by simp) (show (9 : ℝ) ∈ Set.Ioi 0 by simp) (show 0 ≤ 1 - t1 / 8 by linarith) (show 0 ≤ t1 / 8 by linarith) (by ring)
    have hmid : (1 - t1 / 8) • (1 : ℝ) + (t1 / 8) • (9 : ℝ) = t1 + 1 := by
      simp only [smul_eq_mul]
      ring
    rw [hmid] at hc
    have h9 : Real.Gamma 9 = 40320 := by
      rw [show (9 : ℝ) = ((8 : Nat) : ℝ) + 1 by norm_num, Real.Gamma_nat_eq_factorial]
      norm_num [Nat.factorial]
    simp only [Function.comp_apply, Real.Gamma_one, Real.log_one, smul_eq_mul, mul_zero, zero_add, h9] at hc
    have hlog : Real.log 40320 ≤ 8 * Real.log 4 := by
      rw [show (8 : ℝ) * Real.log 4 = ((8 : Nat) : ℝ) * Real.log 4 by norm_num, ← Real.log_pow]
      exact Real.log_le_log (by norm_num) (by norm_num)
    have hG : 0 < Real.Gamma (t1 + 1) := Real.Gamma_pos_of_pos (by linarith)
    rw [← Real.log_le_log_iff hG (by positivity), Real.log_rpow (by norm_num)]
    nlinarith
  have hn := loss_nonneg t1 g u ht1 hgp (Or.inr hconv) hu hu1
  nlinarith

example : ∃ q, scatter gamma 1 (1 / 2) 10 (1 / 3) 1 (-1) 2 0 ⟨0, 0, 0, 0, 0⟩ = .ok q ∧ -1 < q.dp ∧ q.dp ≤ 0 :=
  thin_block 1 (1 / 2) 10 (1 / 3) 1 (-1) 2 0 ⟨0, 0, 0, 0, 0⟩ (by norm_num) (by norm_num) (by have := Real.log_two_gt_d9; norm_num; linarith) (by norm_num) (by norm_num) (by norm_num) (by norm_num)

/-- Losses in forty times `log 2` radiation lengths. -/
theorem thick_loss (g u : ℝ) (hg : (10 : ℝ) ^ 47 ≤ 40 * g) (h0 : 1 / 1000 ≤ u) (h1 : u ≤ 12 / 100) : loss 40 g u ≤ -2 := by
  have hgp : 0 < 40 * g := lt_of_lt_of_le (by norm_num) hg
  have ha0 : 0 < (40 * g) ^ (-1 / (40 : ℝ)) := Real.rpow_pos_of_pos hgp _
  have ha1 : (40 * g) ^ (-1 / (40 : ℝ)) ≤ 67 / 1000 := by
    have e1 : (40 * g) ^ (-1 / (40 : ℝ)) ≤ ((10 : ℝ) ^ 47) ^ (-1 / (40 : ℝ)) := Real.rpow_le_rpow_of_nonpos (by norm_num) hg (by norm_num)
    have e2 : ((10 : ℝ) ^ 47) ^ (-1 / (40 : ℝ)) ≤ (((1000 / 67 : ℝ)) ^ 40) ^ (-1 / (40 : ℝ)) := Real.rpow_le_rpow_of_nonpos (by norm_num) (by norm_num) (by norm_num)
    have e3 : (((1000 / 67 : ℝ)) ^ 40) ^ (-1 / (40 : ℝ)) = 67 / 1000 := by
      rw [← Real.rpow_natCast, ← Real.rpow_mul (by norm_num)]
      norm_num
    linarith
  have hv0 : 84 / 100 ≤ u ^ (1 / (40 : ℝ)) := by
    have e1 : ((84 / 100 : ℝ) ^ 40) ^ (1 / (40 : ℝ)) ≤ u ^ (1 / (40 : ℝ)) := Real.rpow_le_rpow (by norm_num) (le_trans (by norm_num) h0) (by norm_num)
    have e2 : ((84 / 100 : ℝ) ^ 40) ^ (1 / (40 : ℝ)) = 84 / 100 := by
      rw [← Real.rpow_natCast, ← Real.rpow_mul (by norm_num)]
      norm_num
    linarith
  have hv1 : u ^ (1 / (40 : ℝ)) ≤ 95 / 100 := by
    have e1 : u ^ (1 / (40 : ℝ)) ≤ ((95 / 100 : ℝ) ^ 40) ^ (1 / (40 : ℝ)) := Real.rpow_le_rpow (by linarith) (le_trans h1 (by norm_num)) (by norm_num)
    have e2 : ((95 / 100 : ℝ) ^ 40) ^ (1 / (40 : ℝ)) = 95 / 100 := by
      rw [← Real.rpow_natCast, ← Real.rpow_mul (by norm_num)]
      norm_num
    linarith
  have e := rawLoss_eq 40 g u hgp
  have hraw : rawLoss 40 g u ≤ -2 := by
    generalize (40 * g) ^ (-1 / (40 : ℝ)) = a at *
    generalize u ^ (1 / (40 : ℝ)) = v at *
    have h3 : a * (1 - v ^ 2) + a ^ 2 * v ^ 2 - 1 / 2 * ((40 - 1) / (40 + 1)) * v * (1 - v) ≤ -(5 / 2) * a ^ 2 := by
      have hvv : 0 ≤ 1 - v ^ 2 := by nlinarith
      have i1 : a * (1 - v ^ 2) ≤ 67 / 1000 * (1 - v ^ 2) := mul_le_mul_of_nonneg_right ha1 hvv
      have i2 : a ^ 2 ≤ (67 / 1000) ^ 2 := pow_le_pow_left₀ ha0.le ha1 2
      have i3 : a ^ 2 * v ^ 2 ≤ (67 / 1000) ^ 2 * (95 / 100) ^ 2 := by
        apply mul_le_mul i2 (pow_le_pow_left₀ (by linarith) hv1 2) (by positivity) (by norm_num)
      nlinarith
    have h4 : rawLoss 40 g u * a ^ 2 ≤ -2 * a ^ 2 := by
      rw [e]
      have : v * (a * (1 - v ^ 2) + a ^ 2 * v ^ 2 - 1 / 2 * ((40 - 1) / (40 + 1)) * v * (1 - v)) ≤ v * (-(5 / 2) * a ^ 2) := mul_le_mul_of_nonneg_left h3 (by linarith)
      nlinarith [sq_nonneg a]
    exact le_of_mul_le_mul_right h4 (by positivity)
  unfold loss
  rw [if_neg (by unfold maxdp; linarith)]
  exact hraw

/-- A lower bound without π and e. -/
theorem gamma_lower (n : Nat) (hn : 1 ≤ n) (g : ℝ) (hg : gamma n = .ok g) :
    2 * 3 * (((n : ℝ) + 13 / 2) ^ (2 * n - 1) * lanczos n ^ 2) / (2.7182818286 : ℝ) ^ (2 * n + 13) ≤ g ^ 2 := by
  have hsq := gamma_square n hn g hg
  have hl := lanczos_pos n (by exact_mod_cast hn)
  have hpow : Real.exp 1 ^ (2 * n + 13) ≤ (2.7182818286 : ℝ) ^ (2 * n + 13) := pow_le_pow_left₀ (Real.exp_pos _).le Real.exp_one_lt_d9.le _
  have hpi := Real.pi_gt_three
  have hA : 0 < ((n : ℝ) + 13 / 2) ^ (2 * n - 1) * lanczos n ^ 2 := by positivity
  rw [hsq, show 2 * Real.pi * ((n : ℝ) + 13 / 2) ^ (2 * n - 1) / Real.exp 1 ^ (2 * n + 13) * lanczos n ^ 2 =
    2 * Real.pi * (((n : ℝ) + 13 / 2) ^ (2 * n - 1) * lanczos n ^ 2) / Real.exp 1 ^ (2 * n + 13) by ring]
  apply div_le_div₀
  · have := Real.pi_pos; positivity
  · nlinarith
  · have := Real.exp_pos 1; positivity
  · exact hpow

/-- The function Gamma of the code at 40. -/
theorem gamma_forty : ∃ g, gamma 40 = .ok g ∧ (10 : ℝ) ^ 47 ≤ 40 * g := by
  obtain ⟨g, hg, hp⟩ := gamma_defined 40 (by norm_num)
  refine ⟨g, hg, ?_⟩
  have lower := gamma_lower 40 (by norm_num) g (by exact_mod_cast hg)
  have key : ((10 : ℝ) ^ 47 / 40) ^ 2 ≤ g ^ 2 := by
    refine le_trans ?_ lower
    unfold lanczos
    norm_num
  have := (pow_le_pow_iff_left₀ (by norm_num) hp.le (by norm_num)).mp key
  linarith

/-- **C359, violated.** In a block of 27.7 radiation lengths (forty times `log 2`) more than a tenth of the random numbers multiply the energy of the particle by three or more. -/
theorem gain_violated (X0 x E0 u z1 z2 z3 z4 : ℝ) (p q : Part) (ht : x / X0 = 40 * Real.log 2) (h0 : 1 / 1000 ≤ u) (h1 : u ≤ 12 / 100) (hp : -1 < p.dp)
    (h : scatter gamma X0 x E0 u z1 z2 z3 z4 p = .ok q) : 3 * (1 + p.dp) ≤ 1 + q.dp := by
  have hl : Real.log 2 ≠ 0 := (Real.log_pos (by norm_num)).ne'
  obtain ⟨g, hg, e⟩ := scatter_dp _ _ _ _ _ _ _ _ _ _ _ h
  rw [ht, mul_div_assoc, div_self hl, mul_one] at hg e
  obtain ⟨g', hg', hb⟩ := gamma_forty
  rw [hg] at hg'
  injection hg' with hg'
  subst hg'
  have := thick_loss g u hb h0 h1
  rw [e]
  nlinarith

/-- There is such a passage. -/
theorem gain_case : ∃ q, scatter gamma 1 (40 * Real.log 2) 10 (1 / 10) 0 0 0 0 ⟨0, 0, 0, 0, 0⟩ = .ok q ∧ 2 ≤ q.dp := by
  have hl : 0 < Real.log 2 := Real.log_pos (by norm_num)
  have hex : ∃ q, scatter gamma 1 (40 * Real.log 2) 10 (1 / 10) 0 0 0 0 ⟨0, 0, 0, 0, 0⟩ = .ok q := by
    obtain ⟨g, hg, hb⟩ := gamma_forty
    unfold scatter
    simp only
    rw [if_neg (by rintro (h | h); exact one_ne_zero h; rw [div_one] at h; linarith), show 40 * Real.log 2 / 1 / Real.log 2 = 40 by field_simp, hg]
    simp only [Outcome.bind]
    rw [if_neg]
    · exact ⟨_, rfl⟩
    · have := thick_loss g (1 / 10) hb (by norm_num) (by norm_num)
      intro h
      linarith
  obtain ⟨q, hq⟩ := hex
  refine ⟨q, hq, ?_⟩
  have := gain_violated 1 (40 * Real.log 2) 10 (1 / 10) 0 0 0 0 _ q (by ring) (by norm_num) (by norm_num) (by norm_num) hq
  simp only at this
  linarith

/-- **C359, violated.** A block of no length is not left alone: the result is undefined. -/
theorem empty_violated (G : ℝ → Outcome Empty ℝ) (X0 E0 u z1 z2 z3 z4 : ℝ) (p : Part) : scatter G X0 0 E0 u z1 z2 z3 z4 p = .ub := by
  unfold scatter
  simp only
  rw [if_pos (Or.inr (by simp))]

end Verif.Absorber
