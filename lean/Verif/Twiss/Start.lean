import Mathlib.Algebra.Order.Floor.Ring
import Mathlib.Algebra.Order.Round
import Mathlib.Tactic.Ring
import Mathlib.Tactic.FieldSimp
import Mathlib.Tactic.Linarith
import Mathlib.Tactic.NormNum
import Mathlib.Tactic.FinCases
import Verif.Twiss.Model
import Verif.Twiss.Spec
import Verif.LinAlg.Properties
import Verif.Orbit.Properties

/-!
# Properties: the values of the lattice functions and the matrix at the start (C178, C179)
-/

namespace Verif.Twiss

open Verif Finset

/-! ## Values -/

theorem elem_ok {n : Nat} (m : Matrix (Fin n) (Fin n) ℝ) (a b : Fin n) (x y : Int) (hx : x = a.val) (hy : y = b.val) :
    elem m x y = .ok (m a b) := by
  subst hx; subst hy
  rw [elem, dif_pos ⟨⟨by omega, by omega⟩, by omega, by omega⟩]
  rfl

theorem atan2_angle (x y : ℝ) : Spec.Angle x y (atan2 y x / (2 * Real.pi)) := by
  have h : 2 * Real.pi * (atan2 y x / (2 * Real.pi)) = Complex.arg ⟨x, y⟩ := by
    rw [atan2]; field_simp
  have hn : ‖(⟨x, y⟩ : ℂ)‖ = Real.sqrt (x ^ 2 + y ^ 2) := by
    rw [Complex.norm_def, Complex.normSq_mk]; congr 1; ring
  rw [Spec.Angle, h, ← hn]
  exact ⟨(Complex.norm_mul_cos_arg ⟨x, y⟩).symm, (Complex.norm_mul_sin_arg ⟨x, y⟩).symm⟩

/-- C178: the function of the place is the place. -/
theorem value_place {n : Nat} (ok : Bool) (s : ℝ) (p : PS) (m : Matrix (Fin n) (Fin n) ℝ) : value ok s p m (0, 0, 0) = .ok s := by
  simp [value]

/-- C178: the functions of the orbit are its coordinates. -/
theorem value_orbit {n : Nat} (ok : Bool) (s : ℝ) (p : PS) (m : Matrix (Fin n) (Fin n) ℝ) (i : Fin 6) :
    value ok s p m (i.val + 1, 0, 0) = .ok (p i) := by
  have h : (0 : Int) < i.val + 1 := by omega
  rw [value, if_neg (by simp), if_neg (by omega), if_neg (by omega), if_pos ⟨h, rfl, rfl⟩, coord,
    dif_pos ⟨by omega, by omega⟩]
  congr 2
  ext
  simp

/-- C178: the functions of two coordinates and a plane. -/
theorem value_twiss {d : Nat} (ok : Bool) (s : ℝ) (p : PS) (m : Matrix (Fin (2 * d)) (Fin (2 * d)) ℝ) (i j : Fin (2 * d)) (c : Fin d)
    (h : c.val = 2 → ok = true) :
    value ok s p m (i.val + 1, j.val + 1, c.val + 1) = .ok (Spec.twiss m i j (ix c 0) (ix c 1)) := by
  have h1 : ¬ (((c.val : Int) + 1 = 3) ∧ ok = false) := by
    rintro ⟨h2, h3⟩
    rw [h (by omega)] at h3
    cases h3
  rw [value, if_neg h1, if_neg (by omega), if_neg (by omega), if_neg (by omega), if_pos ⟨by omega, by omega, by omega⟩,
    elem_ok m i (ix c 0) _ _ (by omega) (by simp [ix]; omega), elem_ok m j (ix c 0) _ _ (by omega) (by simp [ix]; omega),
    elem_ok m i (ix c 1) _ _ (by omega) (by simp [ix]; omega), elem_ok m j (ix c 1) _ _ (by omega) (by simp [ix]; omega)]
  rfl

/-- C178: the phase of a plane is the angle of the first row of the plane, in turns, between (nearly) zero and one in the
transverse planes and between minus a half and a half in the third. -/
theorem value_phase {d : Nat} (ok : Bool) (s : ℝ) (p : PS) (m : Matrix (Fin (2 * d)) (Fin (2 * d)) ℝ) (c : Fin d)
    (h : c.val = 2 → ok = true) : ∃ v, value ok s p m (0, 0, c.val + 1) = .ok v ∧
      Spec.Angle (m (ix c 0) (ix c 0)) (m (ix c 0) (ix c 1)) v ∧
      (c.val ≠ 2 → -(1 / 1000000000) ≤ v ∧ v < 1) ∧ (c.val = 2 → -(1 / 2) < v ∧ v ≤ 1 / 2) := by
  have h1 : ¬ (((c.val : Int) + 1 = 3) ∧ ok = false) := by
    rintro ⟨h2, h3⟩
    rw [h (by omega)] at h3
    cases h3
  set x := m (ix c 0) (ix c 0) with hx
  set y := m (ix c 0) (ix c 1) with hy
  have hp := Real.pi_pos
  have hl : -(1 / 2) < atan2 y x / (2 * Real.pi) := by
    rw [lt_div_iff₀ (by positivity)]
    have := Complex.neg_pi_lt_arg ⟨x, y⟩
    rw [atan2]; linarith
  have hu : atan2 y x / (2 * Real.pi) ≤ 1 / 2 := by
    rw [div_le_iff₀ (by positivity)]
    have := Complex.arg_le_pi ⟨x, y⟩
    rw [atan2]; linarith
  have ha := atan2_angle x y
  have e : value ok s p m (0, 0, c.val + 1) = .ok (if ((c.val : Int) + 1) ≠ 3 ∧ atan2 y x / (2 * Real.pi) < -(1 / 1000000000)
      then atan2 y x / (2 * Real.pi) + 1 else atan2 y x / (2 * Real.pi)) := by
    rw [value, if_neg h1, if_pos ⟨rfl, rfl, by omega⟩, elem_ok m (ix c 0) (ix c 1) _ _ (by simp [ix]; omega) (by simp [ix]; omega),
      elem_ok m (ix c 0) (ix c 0) _ _ (by simp [ix]; omega) (by simp [ix]; omega)]
    rfl
  refine ⟨_, e, ?_, ?_, ?_⟩
  · split
    · obtain ⟨a1, a2⟩ := ha
      have e2 : 2 * Real.pi * (atan2 y x / (2 * Real.pi) + 1) = 2 * Real.pi * (atan2 y x / (2 * Real.pi)) + 2 * Real.pi := by ring
      rw [Spec.Angle, e2, Real.cos_add_two_pi, Real.sin_add_two_pi]
      exact ⟨a1, a2⟩
    · exact ha
  · intro hc
    split
    · rename_i h2; exact ⟨by linarith, by linarith [h2.2]⟩
    · rename_i h2
      rw [not_and_or] at h2
      rcases h2 with h2 | h2
      · exact absurd (by omega : (c.val : Int) + 1 ≠ 3) h2
      · exact ⟨not_lt.1 h2, by linarith⟩
  · intro hc
    rw [if_neg (by rintro ⟨h2, _⟩; exact h2 (by omega))]
    exact ⟨hl, hu⟩

/-- The functions which can be had. -/
def Valid (n : Nat) (ok : Bool) : Ix → Prop
  | (i, j, k) => (k = 3 → ok = true) ∧ ((i = 0 ∧ j = 0 ∧ 0 < k) → 2 * k ≤ n) ∧ ((0 < i ∧ j = 0 ∧ k = 0) → i ≤ 6) ∧
    ((0 < i ∧ 0 < j ∧ 0 < k) → i ≤ n ∧ j ≤ n ∧ 2 * k ≤ n)

theorem elem_some {n : Nat} (m : Matrix (Fin n) (Fin n) ℝ) (x y : Int) (hx : 0 ≤ x ∧ x < n) (hy : 0 ≤ y ∧ y < n) : ∃ v, elem m x y = .ok v :=
  ⟨_, by rw [elem, dif_pos ⟨hx, hy⟩]⟩

theorem value_valid {n : Nat} (ok : Bool) (s : ℝ) (p : PS) (m : Matrix (Fin n) (Fin n) ℝ) (x : Ix) (h : Valid n ok x) :
    ∃ v, value ok s p m x = .ok v := by
  obtain ⟨i, j, k⟩ := x
  obtain ⟨h1, h2, h3, h4⟩ := h
  rw [value, if_neg (by rintro ⟨a, b⟩; rw [h1 a] at b; cases b)]
  split
  · rename_i h5
    have := h2 ⟨h5.1, h5.2.1, h5.2.2⟩
    obtain ⟨y, hy⟩ := elem_some m (2 * k - 2) (2 * k - 1) (by omega) (by omega)
    obtain ⟨x, hx⟩ := elem_some m (2 * k - 2) (2 * k - 2) (by omega) (by omega)
    rw [hy, hx]
    exact ⟨_, rfl⟩
  · split
    · exact ⟨_, rfl⟩
    · split
      · rename_i h5
        have := h3 ⟨h5.1, h5.2.1, h5.2.2⟩
        rw [coord, dif_pos ⟨by omega, by omega⟩]
        exact ⟨_, rfl⟩
      · split
        · rename_i h5
          obtain ⟨a1, a2, a3⟩ := h4 ⟨h5.1, h5.2.1, h5.2.2⟩
          obtain ⟨a, ha⟩ := elem_some m (i - 1) (2 * k - 2) (by omega) (by omega)
          obtain ⟨b, hb⟩ := elem_some m (j - 1) (2 * k - 2) (by omega) (by omega)
          obtain ⟨c, hc⟩ := elem_some m (i - 1) (2 * k - 1) (by omega) (by omega)
          obtain ⟨e, he⟩ := elem_some m (j - 1) (2 * k - 1) (by omega) (by omega)
          rw [ha, hb, hc, he]
          exact ⟨_, rfl⟩
        · exact ⟨_, rfl⟩

theorem row_valid {n : Nat} (ok : Bool) (s : ℝ) (p : PS) (m : Matrix (Fin n) (Fin n) ℝ) (cols : List Ix) (h : ∀ x ∈ cols, Valid n ok x) :
    ∃ r, row ok s p m cols = .ok r := by
  induction cols with
  | nil => exact ⟨[], rfl⟩
  | cons c cs ih =>
    obtain ⟨v, hv⟩ := value_valid ok s p m c (h c (by simp))
    obtain ⟨r, hr⟩ := ih (fun x hx => h x (by simp [hx]))
    rw [row, hv]
    exact ⟨v :: r, by simp only [Outcome.bind, hr]⟩

/-- C178: a row has the values of the functions in their order. -/
theorem row_values {n : Nat} (ok : Bool) (s : ℝ) (p : PS) (m : Matrix (Fin n) (Fin n) ℝ) (cols : List Ix) (r : List ℝ)
    (h : row ok s p m cols = .ok r) : r.length = cols.length ∧ ∀ (c : Nat) (x : Ix), cols[c]? = some x →
      ∃ v, r[c]? = some v ∧ value ok s p m x = .ok v := by
  induction cols generalizing r with
  | nil =>
    rw [row, Outcome.ok.injEq] at h
    subst h
    exact ⟨rfl, fun c x hx => by simp at hx⟩
  | cons c cs ih =>
    rw [row] at h
    cases hv : value ok s p m c with
    | throw e => rw [hv] at h; cases h
    | ub => rw [hv] at h; cases h
    | ok v =>
      rw [hv] at h
      cases hr : row ok s p m cs with
      | throw e => simp only [Outcome.bind, hr] at h; cases h
      | ub => simp only [Outcome.bind, hr] at h; cases h
      | ok r' =>
        simp only [Outcome.bind, hr, Outcome.ok.injEq] at h
        subst h
        obtain ⟨h1, h2⟩ := ih r' hr
        refine ⟨by simp [h1], ?_⟩
        intro k x hx
        cases k with
        | zero =>
          simp only [List.getElem?_cons_zero, Option.some.injEq] at hx
          subst hx
          exact ⟨v, by simp, hv⟩
        | succ k =>
          simp only [List.getElem?_cons_succ] at hx
          exact h2 k x hx

/-- C178: a longitudinal function of unstable motion is refused. -/
theorem longitudinal_refused {n : Nat} (s : ℝ) (p : PS) (m : Matrix (Fin n) (Fin n) ℝ) (i j : Int) :
    value false s p m (i, j, 3) = .throw .longitudinal := by
  simp [value]

/-! ## The matrix at the start -/

section Start

variable {d : Nat}

theorem sum_plane (c : Fin d) (g : Fin (2 * d) → ℝ) (h : ∀ x, x.val / 2 ≠ c.val → g x = 0) : ∑ x, g x = g (ix c 0) + g (ix c 1) := by
  have hne : ix c 0 ≠ ix c 1 := fun e => by simpa [ix] using congrArg Fin.val e
  rw [← sum_pair hne]
  symm
  apply sum_subset (subset_univ _)
  intro x _ hx
  apply h
  intro e
  simp only [mem_insert, mem_singleton, not_or] at hx
  have h2 : x.val % 2 < 2 := Nat.mod_lt _ (by decide)
  have h3 := Nat.div_add_mod x.val 2
  rcases (by omega : x.val % 2 = 0 ∨ x.val % 2 = 1) with h4 | h4
  · exact hx.1 (Fin.ext (by simp [ix]; omega))
  · exact hx.2 (Fin.ext (by simp [ix]; omega))

theorem plane_ix (c : Fin d) (b : Fin 2) : plane (ix c b) = c := Fin.ext (by simp [plane, ix]; omega)

theorem rot_apply (n m : Matrix (Fin (2 * d)) (Fin (2 * d)) ℝ) (r : Fin (2 * d)) (c : Fin d) :
    (m * rot n) r (ix c 0) = m r (ix c 0) * Real.cos (theta n c) - m r (ix c 1) * Real.sin (theta n c) ∧
    (m * rot n) r (ix c 1) = m r (ix c 0) * Real.sin (theta n c) + m r (ix c 1) * Real.cos (theta n c) := by
  have v0 : (ix c 0).val = 2 * c.val := by simp [ix]
  have v1 : (ix c 1).val = 2 * c.val + 1 := by simp [ix]
  have n01 : ix c 0 ≠ ix c 1 := fun e => by rw [Fin.ext_iff] at e; omega
  refine ⟨?_, ?_⟩
  · rw [Matrix.mul_apply, sum_plane c _ (fun x hx => by rw [rot, if_pos (by omega), mul_zero])]
    rw [rot, if_neg (by omega), if_pos rfl, plane_ix, rot, if_neg (by omega), if_neg (Ne.symm n01), if_neg (by omega), plane_ix]
    ring
  · rw [Matrix.mul_apply, sum_plane c _ (fun x hx => by rw [rot, if_pos (by omega), mul_zero])]
    rw [rot, if_neg (by omega), if_neg n01, if_pos (by omega), plane_ix, rot, if_neg (by omega), if_pos rfl, plane_ix]

/-- The eigenvector of a plane. -/
def vec (hd : 2 * d ≤ 6) (ev : Fin 3 → Fin 6 → ℂ) (c : Fin d) (r : Fin (2 * d)) : ℂ := ev ⟨c.val, by omega⟩ (Fin.castLE hd r)

/-- The eigenvector turned. -/
noncomputable def turned (hd : 2 * d ≤ 6) (ev : Fin 3 → Fin 6 → ℂ) (c : Fin d) (r : Fin (2 * d)) : ℂ :=
  vec hd ev c r * Complex.exp (theta (rawN hd ev) c * Complex.I)

theorem rawN_ix (hd : 2 * d ≤ 6) (ev : Fin 3 → Fin 6 → ℂ) (c : Fin d) (r : Fin (2 * d)) :
    rawN hd ev r (ix c 0) = Real.sqrt 2 * (vec hd ev c r).re ∧ rawN hd ev r (ix c 1) = Real.sqrt 2 * (vec hd ev c r).im := by
  have e0 : (⟨(ix c 0).val / 2, by omega⟩ : Fin 3) = ⟨c.val, by omega⟩ := Fin.ext (by simp [ix])
  have e1 : (⟨(ix c 1).val / 2, by omega⟩ : Fin 3) = ⟨c.val, by omega⟩ := Fin.ext (by simp [ix]; omega)
  refine ⟨?_, ?_⟩
  · rw [rawN]
    rw [if_pos (by simp [ix]), e0]
    rfl
  · rw [rawN]
    rw [if_neg (by simp [ix]), e1]
    rfl

theorem startN_ix (hd : 2 * d ≤ 6) (ev : Fin 3 → Fin 6 → ℂ) (c : Fin d) (r : Fin (2 * d)) :
    startN hd ev r (ix c 0) = Real.sqrt 2 * (turned hd ev c r).re ∧ startN hd ev r (ix c 1) = Real.sqrt 2 * (turned hd ev c r).im := by
  obtain ⟨h1, h2⟩ := rot_apply (rawN hd ev) (rawN hd ev) r c
  obtain ⟨g1, g2⟩ := rawN_ix hd ev c r
  rw [startN, h1, h2, g1, g2, turned, Complex.mul_re, Complex.mul_im, Complex.exp_ofReal_mul_I_re, Complex.exp_ofReal_mul_I_im]
  exact ⟨by ring, by ring⟩

/-- The first row of a plane: the eigenvector is turned until its first component is positive. -/
theorem turned_first (hd : 2 * d ≤ 6) (ev : Fin 3 → Fin 6 → ℂ) (c : Fin d) :
    turned hd ev c (ix c 0) = (‖vec hd ev c (ix c 0)‖ : ℂ) := by
  have ht : theta (rawN hd ev) c = -Complex.arg (vec hd ev c (ix c 0)) := by
    rw [theta, atan2, (rawN_ix hd ev c (ix c 0)).1, (rawN_ix hd ev c (ix c 0)).2]
    congr 1
    have e : (⟨Real.sqrt 2 * (vec hd ev c (ix c 0)).re, Real.sqrt 2 * (vec hd ev c (ix c 0)).im⟩ : ℂ) =
        (Real.sqrt 2 : ℂ) * vec hd ev c (ix c 0) := by
      apply Complex.ext
      · rw [Complex.re_ofReal_mul]
      · rw [Complex.im_ofReal_mul]
    rw [e, Complex.arg_real_mul _ (by positivity)]
  rw [turned, ht]
  conv_lhs => rw [← Complex.norm_mul_exp_arg_mul_I (vec hd ev c (ix c 0))]
  rw [mul_assoc, ← Complex.exp_add]
  simp

/-- C179: the lattice functions at the start are those of the eigenvectors, `2 Re (v_i conj v_j)`, and all phases are zero:
the first row of every plane has a positive first and no second component. -/
theorem start_functions (hd : 2 * d ≤ 6) (ev : Fin 3 → Fin 6 → ℂ) (c : Fin d) (i j : Fin (2 * d)) :
    Spec.twiss (startN hd ev) i j (ix c 0) (ix c 1) = 2 * (vec hd ev c i * (starRingEnd ℂ) (vec hd ev c j)).re ∧
    startN hd ev (ix c 0) (ix c 1) = 0 ∧ startN hd ev (ix c 0) (ix c 0) = Real.sqrt 2 * ‖vec hd ev c (ix c 0)‖ := by
  have h2 : Real.sqrt 2 * Real.sqrt 2 = 2 := Real.mul_self_sqrt (by norm_num)
  refine ⟨?_, ?_, ?_⟩
  · rw [Spec.twiss, (startN_ix hd ev c i).1, (startN_ix hd ev c i).2, (startN_ix hd ev c j).1, (startN_ix hd ev c j).2]
    have e : (turned hd ev c i * (starRingEnd ℂ) (turned hd ev c j)).re = (vec hd ev c i * (starRingEnd ℂ) (vec hd ev c j)).re := by
      rw [turned, turned, map_mul]
      have : Complex.exp (theta (rawN hd ev) c * Complex.I) * (starRingEnd ℂ) (Complex.exp (theta (rawN hd ev) c * Complex.I)) = 1 := by
        rw [Complex.mul_conj, Complex.normSq_eq_norm_sq, Complex.norm_exp_ofReal_mul_I]
        simp
      rw [show vec hd ev c i * Complex.exp (theta (rawN hd ev) c * Complex.I) *
        ((starRingEnd ℂ) (vec hd ev c j) * (starRingEnd ℂ) (Complex.exp (theta (rawN hd ev) c * Complex.I))) =
        vec hd ev c i * (starRingEnd ℂ) (vec hd ev c j) *
        (Complex.exp (theta (rawN hd ev) c * Complex.I) * (starRingEnd ℂ) (Complex.exp (theta (rawN hd ev) c * Complex.I))) from by ring,
        this, mul_one]
    rw [← e, Complex.mul_re, Complex.conj_re, Complex.conj_im]
    calc _ = Real.sqrt 2 * Real.sqrt 2 * ((turned hd ev c i).re * (turned hd ev c j).re + (turned hd ev c i).im * (turned hd ev c j).im) := by ring
      _ = _ := by rw [h2]; ring
  · rw [(startN_ix hd ev c (ix c 0)).2, turned_first, Complex.ofReal_im, mul_zero]
  · rw [(startN_ix hd ev c (ix c 0)).1, turned_first, Complex.ofReal_re]

end Start

end Verif.Twiss
