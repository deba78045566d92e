import Verif.Photon.Powers
import Mathlib.Analysis.Calculus.Deriv.Pow
import Mathlib.Analysis.Calculus.Deriv.MeanValue
import Mathlib.Analysis.Complex.ExponentialBounds
import Mathlib.Tactic.Positivity
import Mathlib.Tactic.FieldSimp

/-! Bounds of polynomials on intervals, and the bounds of the spectrum in the cube root of the energy. -/

namespace Verif.Photon
open Real

/-- The coefficients around another point. -/
def addMul (m : ℤ) : List ℤ → ℤ → List ℤ
  | [], c => [c]
  | a :: as, c => (c + m * a) :: addMul m as a

theorem poly_addMul (m : ℤ) (as : List ℤ) (c : ℤ) (s : ℝ) : poly (addMul m as c) s = c + (s + m) * poly as s := by
  induction as generalizing c with
  | nil => simp [addMul, poly]
  | cons a as ih =>
    simp only [addMul, poly, ih]
    push_cast
    ring

/-- A polynomial shifted by a whole number. -/
def shift (m : ℤ) : List ℤ → List ℤ
  | [] => []
  | c :: cs => addMul m (shift m cs) c

theorem poly_shift (m : ℤ) (cs : List ℤ) (s : ℝ) : poly (shift m cs) s = poly cs (s + m) := by
  induction cs with
  | nil => rfl
  | cons c cs ih => simp only [shift, poly_addMul, ih, poly]

/-- The polynomial in `n` times the variable. -/
def homog (n : ℤ) : List ℤ → List ℤ
  | [] => []
  | c :: cs => (c * n ^ cs.length) :: homog n cs

theorem poly_homog {n : ℤ} (hn : 0 < n) (cs : List ℤ) (c : ℝ) : ∃ k : ℕ, poly (homog n cs) (n * c) * n = n ^ k * poly cs c := by
  have hn' : (n : ℝ) ≠ 0 := by positivity
  refine ⟨cs.length, ?_⟩
  induction cs with
  | nil => simp [poly, homog]
  | cons a cs ih =>
    simp only [poly, homog, List.length_cons]
    push_cast
    linear_combination (n : ℝ) * c * ih

/-- A lower bound on an interval from zero. -/
def lo (d : ℤ) : List ℤ → ℤ
  | [] => 0
  | c :: cs => c + min 0 (d * lo d cs)

theorem lo_le {d : ℤ} {s : ℝ} (h0 : 0 ≤ s) (h1 : s ≤ d) (cs : List ℤ) : (lo d cs : ℝ) ≤ poly cs s := by
  induction cs with
  | nil => simp [lo, poly]
  | cons c cs ih =>
    simp only [lo, poly]
    push_cast
    have : min 0 ((d : ℝ) * lo d cs) ≤ s * poly cs s := by
      rcases le_total 0 (lo d cs : ℝ) with h | h
      · exact le_trans (min_le_left _ _) (mul_nonneg h0 (h.trans ih))
      · refine le_trans (min_le_right _ _) ?_
        calc (d : ℝ) * lo d cs ≤ s * lo d cs := mul_le_mul_of_nonpos_right h1 h
          _ ≤ s * poly cs s := mul_le_mul_of_nonneg_left ih h0
    linarith

/-- Whether lower bounds on intervals, one after the other, are not negative. -/
def checks (cs : List ℤ) : ℤ → List ℤ → Bool
  | _, [] => true
  | m, d :: ds => decide (0 ≤ d) && decide (0 ≤ lo d (shift m cs)) && checks cs (m + d) ds

theorem checks_sound {cs : List ℤ} {ds : List ℤ} {m : ℤ} (h : checks cs m ds = true) (hne : ds ≠ []) {u : ℝ} (h0 : (m : ℝ) ≤ u)
    (h1 : u ≤ m + ds.sum) : 0 ≤ poly cs u := by
  induction ds generalizing m with
  | nil => exact absurd rfl hne
  | cons d ds ih =>
    simp only [checks, Bool.and_eq_true, decide_eq_true_eq] at h
    by_cases hu : u ≤ m + d
    · have := lo_le (s := u - m) (d := d) (by linarith) (by linarith) (shift m cs)
      rw [poly_shift, sub_add_cancel] at this
      exact le_trans (by exact_mod_cast h.1.2) this
    · push Not at hu
      rcases ds with _ | ⟨d', ds⟩
      · simp at h1; linarith
      · refine ih h.2 (by simp) (by push_cast; linarith) ?_
        rw [List.sum_cons] at h1
        push_cast at h1 ⊢
        linarith

theorem nonneg_of_checks {n : ℤ} (hn : 0 < n) {cs ds : List ℤ} {m : ℤ} (h : checks (homog n cs) m ds = true) (hne : ds ≠ []) {c : ℝ}
    (h0 : (m : ℝ) ≤ n * c) (h1 : n * c ≤ m + ds.sum) : 0 ≤ poly cs c := by
  obtain ⟨k, hk⟩ := poly_homog hn cs c
  have hn' : (0 : ℝ) < n := by exact_mod_cast hn
  have := mul_nonneg (checks_sound h hne h0 h1) hn'.le
  rw [hk] at this
  exact nonneg_of_mul_nonneg_right (by linarith [this]) (by positivity : (0 : ℝ) < n ^ k)

/-- Both polynomials in the sixth power, in one polynomial. -/
def weave (e : ℤ) : List ℤ → List ℤ → List ℤ
  | [], _ => []
  | p :: ps, [] => p :: 0 :: e :: 0 :: 0 :: 0 :: weave 0 ps []
  | p :: ps, q :: qs => p :: 0 :: e :: 0 :: -q :: 0 :: weave 0 ps qs

theorem poly_weave (ps qs : List ℤ) (e : ℤ) (c : ℝ) (hl : qs.length ≤ ps.length) (h0 : ps ≠ [] ∨ e = 0) :
    poly (weave e ps qs) c = poly ps (c ^ 6) - c ^ 4 * poly qs (c ^ 6) + e * c ^ 2 := by
  induction ps generalizing qs e with
  | nil =>
    have : qs = [] := by simpa using hl
    rcases h0 with h | rfl
    · exact absurd rfl h
    · simp [weave, poly, this]
  | cons p ps ih =>
    rcases qs with _ | ⟨q, qs⟩
    · simp only [weave, poly, ih [] 0 (by simp) (Or.inr rfl)]
      push_cast
      ring
    · simp only [weave, poly, ih qs 0 (by simpa using hl) (Or.inr rfl)]
      push_cast
      ring

/-- The coefficients of the spectrum at low energies in the cube root of the energy. -/
def hInts : List ℤ := weave (-scale) pPowers qPowers

/-- The spectrum at low energies, times the energy to the power 2/3, in the cube root of the energy. -/
noncomputable def lowPart (c : ℝ) : ℝ := pLow (c ^ 6 / 16 - 2) - c ^ 4 * qLow (c ^ 6 / 16 - 2) - c ^ 2

theorem scale_pos : (0 : ℝ) < scale := by simp [scale]

theorem hInts_poly (c : ℝ) : poly hInts c = scale * lowPart c := by
  rw [hInts, poly_weave _ _ _ _ (by decide) (Or.inl (by decide)), ← pLow_poly, ← qLow_poly, lowPart]
  push_cast
  ring

/-- Minus the derivative. -/
def negDeriv : ℤ → List ℤ → List ℤ
  | _, [] => []
  | k, c :: cs => (-k * c) :: negDeriv (k + 1) cs

theorem hasDerivAt_pow_poly (k : ℕ) (cs : List ℤ) (c : ℝ) :
    HasDerivAt (fun c => c ^ (k + 1) * poly cs c) (-(c ^ k * poly (negDeriv (k + 1) cs) c)) c := by
  induction cs generalizing k with
  | nil => simpa [poly, negDeriv] using hasDerivAt_const c (0 : ℝ)
  | cons a cs ih =>
    have h1 := ((hasDerivAt_pow (k + 1) c).mul_const (a : ℝ)).add (ih (k + 1))
    have h2 : (fun c : ℝ => c ^ (k + 1) * poly (a :: cs) c) = (fun c : ℝ => c ^ (k + 1) * (a : ℝ)) + fun c : ℝ => c ^ (k + 1 + 1) * poly cs c := by
      funext x
      simp only [poly, Pi.add_apply]
      ring
    rw [h2]
    refine h1.congr_deriv ?_
    simp only [negDeriv, poly]
    push_cast
    ring

theorem hasDerivAt_poly (a : ℤ) (cs : List ℤ) (c : ℝ) : HasDerivAt (poly (a :: cs)) (-poly (negDeriv 1 cs) c) c := by
  have h := (hasDerivAt_pow_poly 0 cs c).const_add (a : ℝ)
  have h2 : poly (a :: cs) = fun c : ℝ => (a : ℝ) + c ^ (0 + 1) * poly cs c := by
    funext x
    simp [poly]
  rw [h2]
  refine h.congr_deriv ?_
  simp

theorem lowPart_check : checks (homog 256 ((hInts.head! - 1) :: hInts.tail)) 0 [278, 71, 46, 36, 30, 5] = true := by decide +kernel

theorem slope_check : checks (homog 256 (negDeriv 1 hInts.tail)) 0 [256] = true := by decide +kernel

theorem hInts_cons : hInts = hInts.head! :: hInts.tail := by decide

/-- The bound from a tangent of the exponential. -/
def tangent (h1 al be M : ℤ) (cs : List ℤ) : List ℤ :=
  match cs with
  | a :: b :: c :: d :: e :: f :: r => (-M * a) :: (-M * b) :: (h1 * al - M * c) :: (-M * d) :: (-M * e) :: (-(h1 * be) - M * f) :: r.map (-M * ·)
  | r => r

theorem tangent_check :
    checks (homog 256 (tangent hInts.sum 2 1 1 hInts)) 256 [32] = true ∧
    checks (homog 256 (tangent hInts.sum 30000000000 10000000000 27182818286 hInts)) 287 [57] = true ∧
    checks (homog 256 (tangent hInts.sum (4 * 10000000000 ^ 2) (10000000000 ^ 2) (27182818286 ^ 2) hInts)) 343 [43] = true ∧
    checks (homog 256 (tangent hInts.sum (5 * 10000000000 ^ 3) (10000000000 ^ 3) (27182818286 ^ 3) hInts)) 385 [36] = true ∧
    checks (homog 256 (tangent hInts.sum (6 * 10000000000 ^ 4) (10000000000 ^ 4) (27182818286 ^ 4) hInts)) 420 [30] = true ∧
    checks (homog 256 (tangent hInts.sum (7 * 10000000000 ^ 5) (10000000000 ^ 5) (27182818286 ^ 5) hInts)) 449 [17] = true := by
  decide +kernel

theorem poly_map (M : ℤ) (cs : List ℤ) (c : ℝ) : poly (cs.map (M * ·)) c = M * poly cs c := by
  induction cs with
  | nil => simp [poly]
  | cons a cs ih =>
    simp only [List.map_cons, poly, ih]
    push_cast
    ring

theorem poly_tangent (h1 al be M a b c d e f : ℤ) (r : List ℤ) (x : ℝ) :
    poly (tangent h1 al be M (a :: b :: c :: d :: e :: f :: r)) x =
      h1 * x ^ 2 * (al - be * x ^ 3) - M * poly (a :: b :: c :: d :: e :: f :: r) x := by
  simp only [tangent, poly, poly_map]
  push_cast
  ring

theorem hInts_six : ∃ a b c d e f r, hInts = a :: b :: c :: d :: e :: f :: r := ⟨_, _, _, _, _, _, _, rfl⟩

theorem poly_one (cs : List ℤ) : poly cs 1 = cs.sum := by
  induction cs with
  | nil => simp [poly]
  | cons a cs ih => simp [poly, ih]

/-- Positive up to energy six. -/
theorem lowPart_pos {c : ℝ} (h0 : 0 ≤ c) (h1 : c ^ 3 < 6) : 0 < lowPart c := by
  have hc : c ≤ 1.82 := by
    by_contra h
    push Not at h
    have : (1.82 : ℝ) ^ 3 ≤ c ^ 3 := pow_le_pow_left₀ (by norm_num) h.le 3
    norm_num at this
    linarith
  have := nonneg_of_checks (by norm_num) lowPart_check (by simp) (c := c) (by push_cast; linarith)
    (by simp only [List.sum_cons, List.sum_nil]; push_cast; norm_num at hc ⊢; linarith)
  have h2 : poly ((hInts.head! - 1) :: hInts.tail) c = poly hInts c - 1 := by
    conv_rhs => rw [hInts_cons]
    simp only [poly]
    push_cast
    ring
  rw [h2, hInts_poly] at this
  exact pos_of_mul_pos_right (by linarith : 0 < (scale : ℝ) * lowPart c) scale_pos.le

/-- Falling up to energy one. -/
theorem lowPart_antitone : AntitoneOn lowPart (Set.Icc 0 1) := by
  have h : AntitoneOn (poly hInts) (Set.Icc 0 1) := by
    rw [hInts_cons]
    refine antitoneOn_of_deriv_nonpos (convex_Icc _ _) (fun x _ => (hasDerivAt_poly _ _ x).continuousAt.continuousWithinAt)
      (fun x _ => (hasDerivAt_poly _ _ x).differentiableAt.differentiableWithinAt) fun x hx => ?_
    rw [interior_Icc] at hx
    rw [(hasDerivAt_poly _ _ x).deriv, neg_nonpos]
    refine nonneg_of_checks (by norm_num) slope_check (by simp) (by push_cast; linarith [hx.1]) ?_
    simp only [List.sum_cons, List.sum_nil]
    push_cast
    linarith [hx.2]
  intro a ha b hb hab
  have := h ha hb hab
  rw [hInts_poly, hInts_poly] at this
  exact le_of_mul_le_mul_left this scale_pos

theorem exp_tangent (k : ℕ) (x : ℝ) : ((k + 2 : ℝ) - x) * 10000000000 ^ k / 27182818286 ^ k ≤ exp (1 - x) := by
  have h1 : (k + 2 : ℝ) - x ≤ exp (k + 1 - x) := by linarith [Real.add_one_le_exp ((k : ℝ) + 1 - x)]
  have h2 : (10000000000 / 27182818286 : ℝ) ≤ exp (-1) := by
    rw [Real.exp_neg, ← one_div, div_le_div_iff₀ (by norm_num) (Real.exp_pos _)]
    linarith [Real.exp_one_lt_d9]
  calc ((k + 2 : ℝ) - x) * 10000000000 ^ k / 27182818286 ^ k = (k + 2 - x) * (10000000000 / 27182818286) ^ k := by rw [div_pow]; ring
    _ ≤ exp (k + 1 - x) * exp (-1) ^ k :=
      mul_le_mul h1 (pow_le_pow_left₀ (by norm_num) h2 k) (by positivity) (Real.exp_pos _).le
    _ = exp (1 - x) := by rw [← Real.exp_nat_mul, ← Real.exp_add]; congr 1; ring

theorem below_of_tangent (k : ℕ) {c : ℝ} {m d : ℤ}
    (h : checks (homog 256 (tangent hInts.sum ((k + 2) * 10000000000 ^ k) (10000000000 ^ k) (27182818286 ^ k) hInts)) m [d] = true)
    (h0 : (m : ℝ) ≤ 256 * c) (h1 : 256 * c ≤ m + d) :
    lowPart c ≤ c ^ 2 * lowPart 1 * exp (1 - c ^ 3) := by
  have h2 := nonneg_of_checks (by norm_num) h (by simp) (c := c) (by push_cast; exact h0)
    (by simp only [List.sum_cons, List.sum_nil]; push_cast; linarith)
  obtain ⟨a, b, c', d', e, f, r, hr⟩ := hInts_six
  rw [hr, poly_tangent, ← hr, hInts_poly, ← poly_one, hInts_poly] at h2
  push_cast at h2
  have h3 := exp_tangent k (c ^ 3)
  have h4 : lowPart c ≤ c ^ 2 * lowPart 1 * (((k + 2 : ℝ) - c ^ 3) * 10000000000 ^ k / 27182818286 ^ k) := by
    rw [mul_div_assoc', le_div_iff₀ (by positivity)]
    have : 0 ≤ (scale : ℝ) * (c ^ 2 * lowPart 1 * (((k + 2 : ℝ) - c ^ 3) * 10000000000 ^ k) - lowPart c * 27182818286 ^ k) := by
      refine h2.trans (le_of_eq ?_)
      ring
    have := nonneg_of_mul_nonneg_right this scale_pos
    linarith
  refine h4.trans (mul_le_mul_of_nonneg_left h3 (mul_nonneg (sq_nonneg c) ?_))
  exact (lowPart_pos (by norm_num) (by norm_num)).le

/-- Below the exponential from energy one to six. -/
theorem lowPart_below {c : ℝ} (h0 : 1 ≤ c) (h1 : c ^ 3 < 6) : lowPart c ≤ c ^ 2 * lowPart 1 * exp (1 - c ^ 3) := by
  have hc : c ≤ 1.82 := by
    by_contra h
    push Not at h
    have : (1.82 : ℝ) ^ 3 ≤ c ^ 3 := pow_le_pow_left₀ (by norm_num) h.le 3
    norm_num at this
    linarith
  have ht := tangent_check
  norm_num at hc
  by_cases a0 : c ≤ 288 / 256
  · exact below_of_tangent 0 (by simpa using ht.1) (by push_cast; linarith) (by push_cast; linarith)
  push Not at a0
  by_cases a1 : c ≤ 344 / 256
  · exact below_of_tangent 1 (by simpa using ht.2.1) (by push_cast; linarith) (by push_cast; linarith)
  push Not at a1
  by_cases a2 : c ≤ 386 / 256
  · exact below_of_tangent 2 (by simpa using ht.2.2.1) (by push_cast; linarith) (by push_cast; linarith)
  push Not at a2
  by_cases a3 : c ≤ 421 / 256
  · exact below_of_tangent 3 (by simpa using ht.2.2.2.1) (by push_cast; linarith) (by push_cast; linarith)
  push Not at a3
  by_cases a4 : c ≤ 450 / 256
  · exact below_of_tangent 4 (by simpa using ht.2.2.2.2.1) (by push_cast; linarith) (by push_cast; linarith)
  push Not at a4
  exact below_of_tangent 5 (by simpa using ht.2.2.2.2.2) (by push_cast; linarith) (by push_cast; linarith)

end Verif.Photon
