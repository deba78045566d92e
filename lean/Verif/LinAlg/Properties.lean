import Verif.LinAlg.Lemmas
import Mathlib.Algebra.BigOperators.Fin
import Mathlib.Tactic.NormNum
import Mathlib.Tactic.NoncommRing
import Mathlib.Tactic.FinCases
import Mathlib.Analysis.Complex.Norm
import Mathlib.Analysis.SpecialFunctions.Sqrt

/-!
# Properties of inversion, symplectification and eigensystems (C150-C152)
-/

set_option linter.unusedSectionVars false

namespace Verif.LinAlg
open Verif

section Inverse

variable {n : Nat} {K R : Type} [Field K] [Field R] [LinearOrder R] [IsStrictOrderedRing R]

/-- C150: the inversion ends with the inverse and a positive smallest pivot, or with the exception for a singular matrix,
which has no inverse. -/
theorem inverse_spec (ab : K → R) (hab : ∀ z, 0 ≤ ab z) (hz : ∀ z, ab z = 0 ↔ z = 0) (a : Matrix (Fin n) (Fin n) K) :
    (inverse ab a = .throw .singular ∧ a.det = 0) ∨
    ∃ b m, inverse ab a = .ok (b, m) ∧ 0 < m ∧ b * a = 1 ∧ a * b = 1 := by
  have h0 : Inv (R := R) a ⟨a, 1, fun _ => false, 1000000000⟩ := by
    refine ⟨?_, ?_, by norm_num, ?_⟩
    · intro k _ i
      simp
    · intro k hk
      simp at hk
    · intro v hv
      simpa using hv
  have hl : left (fun _ : Fin n => false) = n := by simp [left]
  rw [inverse]
  rcases rounds_spec ab hab hz a n _ h0 hl with ⟨h1, h2⟩ | ⟨s, h1, h2, h3⟩
  · left
    rw [h1]
    exact ⟨rfl, h2⟩
  · right
    rw [h1]
    exact ⟨_, _, rfl, h2, h3, mul_eq_one_comm.1 h3⟩

/-- C150: the exception comes for singular matrices only, and for all of them. -/
theorem inverse_singular (ab : K → R) (hab : ∀ z, 0 ≤ ab z) (hz : ∀ z, ab z = 0 ↔ z = 0) (a : Matrix (Fin n) (Fin n) K) :
    inverse ab a = .throw .singular ↔ ∃ v, v ≠ 0 ∧ a.mulVec v = 0 := by
  have he : (∃ v, v ≠ 0 ∧ a.mulVec v = 0) ↔ a.det = 0 := Matrix.exists_mulVec_eq_zero_iff
  rw [he]
  rcases inverse_spec ab hab hz a with ⟨h1, h2⟩ | ⟨b, m, h1, _, h3, _⟩
  · simp [h1, h2]
  · rw [h1]
    constructor
    · intro h
      exact absurd h (by simp)
    · intro h
      have := congrArg Matrix.det h3
      rw [Matrix.det_mul, h, mul_zero, Matrix.det_one] at this
      exact absurd this zero_ne_one

/-- The result is the only inverse. -/
theorem inverse_eq (ab : K → R) (hab : ∀ z, 0 ≤ ab z) (hz : ∀ z, ab z = 0 ↔ z = 0) (a b : Matrix (Fin n) (Fin n) K)
    (h : b * a = 1) : ∃ m, inverse ab a = .ok (b, m) := by
  rcases inverse_spec ab hab hz a with ⟨_, h2⟩ | ⟨c, m, h1, _, _, h4⟩
  · have := congrArg Matrix.det h
    rw [Matrix.det_mul, h2, mul_zero, Matrix.det_one] at this
    exact absurd this zero_ne_one
  · refine ⟨m, ?_⟩
    rw [h1]
    have : b = c := by rw [← mul_one b, ← h4, ← mul_assoc, h, one_mul]
    rw [this]

end Inverse

/-! ## Symplectification -/

section Symplectify

variable {K R : Type} [Field K] [Field R] [LinearOrder R] [IsStrictOrderedRing R]

theorem form_eq (x y : Fin 6 → K) : Spec.form x y = x ⬝ᵥ ((sMat : Matrix (Fin 6) (Fin 6) K).mulVec y) := by
  simp [Spec.form, dotProduct, Matrix.mulVec, sMat, Fin.sum_univ_six]
  ring

theorem sMat_sq : (sMat : Matrix (Fin 6) (Fin 6) K) * sMat = -1 := by
  ext i j
  fin_cases i <;> fin_cases j <;> simp [Matrix.mul_apply, sMat, Fin.sum_univ_six]

theorem sMat_transpose : (sMat : Matrix (Fin 6) (Fin 6) K).transpose = - sMat := by
  ext i j
  fin_cases i <;> fin_cases j <;> simp [sMat]

theorem symplectic_iff (a : Matrix (Fin 6) (Fin 6) K) : Spec.Symplectic a ↔ a.transpose * sMat * a = sMat := by
  have key : ∀ x y, Spec.form (a.mulVec x) (a.mulVec y) = x ⬝ᵥ ((a.transpose * sMat * a).mulVec y) := by
    intro x y
    rw [form_eq, Matrix.mul_assoc, ← Matrix.mulVec_mulVec, Matrix.dotProduct_mulVec x, Matrix.vecMul_transpose,
      Matrix.mulVec_mulVec]
  constructor
  · intro h
    ext i j
    have := h (Pi.single i 1) (Pi.single j 1)
    rw [key, form_eq] at this
    simpa using this
  · intro h x y
    rw [key, h, form_eq]

/-- The Cayley transform of a matrix with `tᵀ s + s t = 0` is symplectic. -/
theorem cayley (t x : Matrix (Fin 6) (Fin 6) K) (ht : t.transpose * sMat = - (sMat * t)) (h1 : x * (1 - t) = 1)
    (h2 : (1 - t) * x = 1) : (x * (1 + t)).transpose * sMat * (x * (1 + t)) = sMat := by
  have hc : x * (1 + t) = (1 + t) * x := by
    calc x * (1 + t) = x * (1 + t) * ((1 - t) * x) := by rw [h2, mul_one]
      _ = x * ((1 - t) * (1 + t)) * x := by noncomm_ring
      _ = (x * (1 - t)) * ((1 + t) * x) := by noncomm_ring
      _ = (1 + t) * x := by rw [h1, one_mul]
  have hB : (1 + t).transpose * sMat * (1 + t) = (1 - t).transpose * sMat * (1 - t) := by
    rw [Matrix.transpose_add, Matrix.transpose_sub, Matrix.transpose_one]
    have e1 : (1 + t.transpose) * sMat * (1 + t) =
      sMat + (t.transpose * sMat + sMat * t) + t.transpose * sMat * t := by noncomm_ring
    have e2 : (1 - t.transpose) * sMat * (1 - t) =
      sMat - (t.transpose * sMat + sMat * t) + t.transpose * sMat * t := by noncomm_ring
    rw [e1, e2, ht]
    simp
  calc (x * (1 + t)).transpose * sMat * (x * (1 + t))
      = x.transpose * ((1 + t).transpose * sMat * (1 + t)) * x := by
        rw [hc, Matrix.transpose_mul]; noncomm_ring
    _ = (x.transpose * (1 - t).transpose) * sMat * ((1 - t) * x) := by rw [hB]; noncomm_ring
    _ = sMat := by rw [← Matrix.transpose_mul, h2, Matrix.transpose_one, one_mul, mul_one]

/-- C151: whatever matrix is given, if there is a result it is symplectic. -/
theorem symplectify_symplectic (ab : K → R) (hab : ∀ z, 0 ≤ ab z) (hz : ∀ z, ab z = 0 ↔ z = 0)
    (a r : Matrix (Fin 6) (Fin 6) K) (h : symplectify ab a = .ok r) : Spec.Symplectic r := by
  rw [symplectic_iff]
  rw [symplectify] at h
  rcases inverse_spec ab hab hz (1 + a) with ⟨h1, _⟩ | ⟨y, m, h1, _, _, _⟩
  · rw [h1] at h
    exact absurd h (by simp)
  · rw [h1] at h
    simp only at h
    set w := symPart (sMat * (1 - a) * y) with hw
    have hwt : w.transpose = w := by
      ext i j
      simp only [hw, Matrix.transpose_apply, symPart]
      ring
    rcases inverse_spec ab hab hz (1 - sMat * w) with ⟨h2, _⟩ | ⟨x, m2, h2, _, h3, h4⟩
    · rw [h2] at h
      exact absurd h (by simp)
    · rw [h2] at h
      simp only [Outcome.ok.injEq] at h
      subst h
      refine cayley _ x ?_ h3 h4
      rw [Matrix.transpose_mul, hwt, sMat_transpose, mul_neg, neg_mul, mul_assoc, sMat_sq, ← mul_assoc, sMat_sq]
      simp

/-- C151 (partial): a symplectic matrix is kept, if `1 + a` has an inverse. -/
theorem symplectify_fixed_partial (ab : K → R) (hab : ∀ z, 0 ≤ ab z) (hz : ∀ z, ab z = 0 ↔ z = 0) (h2 : (2 : K) ≠ 0)
    (a : Matrix (Fin 6) (Fin 6) K) (ha : Spec.Symplectic a) (hd : ∀ v, a.mulVec v = - v → v = 0) :
    symplectify ab a = .ok a := by
  rw [symplectic_iff] at ha
  rw [symplectify]
  rcases inverse_spec ab hab hz (1 + a) with ⟨h1, _⟩ | ⟨y, m, h1, _, h3, h4⟩
  · obtain ⟨v, hv, hv0⟩ := (inverse_singular ab hab hz (1 + a)).1 h1
    refine absurd (hd v ?_) hv
    rw [Matrix.add_mulVec, Matrix.one_mulVec] at hv0
    exact eq_neg_of_add_eq_zero_right hv0
  · rw [h1]
    simp only
    set v := sMat * (1 - a) * y with hv
    have hsym : v.transpose = v := by
      have e1 : (1 + a).transpose * (v.transpose) * (1 + a) = (1 + a).transpose * v * (1 + a) := by
        have l1 : (1 + a).transpose * (v.transpose) * (1 + a) =
            (y * (1 + a)).transpose * ((1 - a).transpose * sMat.transpose) * (1 + a) := by
          rw [hv, Matrix.transpose_mul, Matrix.transpose_mul, Matrix.transpose_mul]
          noncomm_ring
        have l2 : (1 + a).transpose * v * (1 + a) = (1 + a).transpose * sMat * (1 - a) * (y * (1 + a)) := by
          rw [hv]; noncomm_ring
        rw [l1, l2, h3, Matrix.transpose_one, one_mul, mul_one, sMat_transpose, Matrix.transpose_add,
          Matrix.transpose_sub, Matrix.transpose_one]
        have l3 : (1 - a.transpose) * -sMat * (1 + a) =
          -sMat - sMat * a + a.transpose * sMat + a.transpose * sMat * a := by noncomm_ring
        have l4 : (1 + a.transpose) * sMat * (1 - a) =
          sMat - sMat * a + a.transpose * sMat - a.transpose * sMat * a := by noncomm_ring
        rw [l3, l4, ha]
        abel
      have e2 : y.transpose * ((1 + a).transpose * (v.transpose) * (1 + a)) * y =
          y.transpose * ((1 + a).transpose * v * (1 + a)) * y := by rw [e1]
      have l5 : ∀ q : Matrix (Fin 6) (Fin 6) K,
          y.transpose * ((1 + a).transpose * q * (1 + a)) * y = ((1 + a) * y).transpose * q * ((1 + a) * y) := by
        intro q
        rw [Matrix.transpose_mul]
        noncomm_ring
      rw [l5, l5, h4, Matrix.transpose_one, one_mul, mul_one, one_mul, mul_one] at e2
      exact e2
    have hw : symPart v = v := by
      ext i j
      have : v j i = v i j := by
        have := congrFun (congrFun hsym i) j
        simpa using this
      simp only [symPart, this]
      field_simp
      ring
    rw [hw]
    have hsv : sMat * v = - ((1 - a) * y) := by
      rw [hv, mul_assoc, ← mul_assoc, sMat_sq]
      simp
    have hx : ((2 : K)⁻¹ • (1 + a)) * (1 - sMat * v) = 1 := by
      have e : (1 : Matrix (Fin 6) (Fin 6) K) - sMat * v = (2 : K) • y := by
        calc (1 : Matrix (Fin 6) (Fin 6) K) - sMat * v = (1 + a) * y + (1 - a) * y := by rw [hsv, h4, sub_neg_eq_add]
          _ = y + y := by noncomm_ring
          _ = (2 : K) • y := (two_smul K y).symm
      rw [e, Matrix.smul_mul, Matrix.mul_smul, h4, smul_smul, inv_mul_cancel₀ h2, one_smul]
    obtain ⟨m2, h5⟩ := inverse_eq ab hab hz _ _ hx
    rw [h5]
    simp only [Outcome.ok.injEq]
    have e : (1 : Matrix (Fin 6) (Fin 6) K) + sMat * v = (2 : K) • (a * y) := by
      calc (1 : Matrix (Fin 6) (Fin 6) K) + sMat * v = (1 + a) * y - (1 - a) * y := by rw [hsv, h4, ← sub_eq_add_neg]
        _ = a * y + a * y := by noncomm_ring
        _ = (2 : K) • (a * y) := (two_smul K (a * y)).symm
    rw [e, Matrix.smul_mul, Matrix.mul_smul, smul_smul, inv_mul_cancel₀ h2, one_smul]
    calc (1 + a) * (a * y) = a * ((1 + a) * y) := by noncomm_ring
      _ = a := by rw [h4, mul_one]

/-- C151 (violated): a symplectic matrix with an eigenvalue -1, for example minus the identity (half-integer tunes), ends
with the exception for a singular matrix. -/
theorem symplectify_violated (ab : K → R) (hab : ∀ z, 0 ≤ ab z) (hz : ∀ z, ab z = 0 ↔ z = 0)
    (a : Matrix (Fin 6) (Fin 6) K) (v : Fin 6 → K) (hv : v ≠ 0) (h : a.mulVec v = - v) :
    symplectify ab a = .throw .singular ∧ Spec.Symplectic (-1 : Matrix (Fin 6) (Fin 6) K) := by
  constructor
  · rw [symplectify, (inverse_singular ab hab hz (1 + a)).2 ⟨v, hv, ?_⟩]
    rw [Matrix.add_mulVec, Matrix.one_mulVec, h, add_neg_cancel]
  · rw [symplectic_iff]
    simp

end Symplectify

/-! ## Eigenvectors -/

section Eigen

theorem bnorm_eq (b : Vec) : bnorm b = Spec.form (fun i => (starRingEnd ℂ) (b i)) b := by
  rw [form_eq]
  simp only [bnorm, dotProduct, Matrix.mulVec, Finset.mul_sum, mul_assoc]

theorem bnorm_conj (b : Vec) : (starRingEnd ℂ) (bnorm b) = - bnorm b := by
  rw [bnorm_eq]
  simp only [Spec.form, map_add, map_sub, map_mul, Complex.conj_conj]
  ring

theorem bnorm_re (b : Vec) : (bnorm b).re = 0 := by
  have := congrArg Complex.re (bnorm_conj b)
  rw [Complex.conj_re, Complex.neg_re] at this
  linarith

/-- C152: an eigenvector of a real matrix with a norm becomes an eigenvector again, of the eigenvalue or its conjugate, and
is normalised to `i`. -/
theorem finish_spec (t : Matrix (Fin 6) (Fin 6) ℝ) (b v : Vec) (lam mu : ℂ)
    (hb : Spec.Eigen (cplx t) lam b) (h : finish b lam = .ok (mu, v)) :
    Spec.Eigen (cplx t) mu v ∧ Spec.form (fun i => (starRingEnd ℂ) (v i)) v = Complex.I ∧
    (mu = lam ∨ mu = (starRingEnd ℂ) lam) := by
  rw [finish] at h
  simp only at h
  split at h
  · exact absurd h (by simp)
  · rename_i h0
    have hre := bnorm_re b
    have him : (bnorm b).im ≠ 0 := by
      intro hi
      exact h0 (Complex.ext hre hi)
    have hnorm : ‖bnorm b‖ = |(bnorm b).im| := by
      have : bnorm b = ((bnorm b).im : ℂ) * Complex.I := by
        apply Complex.ext <;> simp [hre]
      rw [this, norm_mul, Complex.norm_I, mul_one, Complex.norm_real, Real.norm_eq_abs]
      simp
    set c := Real.sqrt (1 / ‖bnorm b‖) with hc
    have hcc : c * c = 1 / |(bnorm b).im| := by
      rw [hc, hnorm, Real.mul_self_sqrt (by positivity)]
    have hform : Spec.form (fun i => (starRingEnd ℂ) (b i * (c : ℂ))) (fun i => b i * (c : ℂ)) =
        ((c * c : ℝ) : ℂ) * bnorm b := by
      rw [bnorm_eq]
      simp only [Spec.form, map_mul, Complex.conj_ofReal, Complex.ofReal_mul]
      ring
    have heig : Spec.Eigen (cplx t) lam (fun i => b i * (c : ℂ)) := by
      intro i
      have := hb i
      rw [← mul_assoc, ← this, Finset.sum_mul]
      exact Finset.sum_congr rfl fun j _ => by ring
    split at h
    · rename_i hneg
      simp only [Outcome.ok.injEq, Prod.mk.injEq] at h
      obtain ⟨rfl, rfl⟩ := h
      refine ⟨?_, ?_, Or.inr rfl⟩
      · intro i
        have := congrArg (starRingEnd ℂ) (heig i)
        rw [map_sum, map_mul] at this
        simp only [map_mul, Complex.conj_ofReal, cplx, Matrix.of_apply] at this ⊢
        rw [← this]
      · have e : Spec.form (fun i => (starRingEnd ℂ) ((starRingEnd ℂ) (b i * (c : ℂ))))
            (fun i => (starRingEnd ℂ) (b i * (c : ℂ))) =
            (starRingEnd ℂ) (Spec.form (fun i => (starRingEnd ℂ) (b i * (c : ℂ))) (fun i => b i * (c : ℂ))) := by
          simp only [Spec.form, map_add, map_sub, map_mul, Complex.conj_conj]
        rw [e, hform, hcc, abs_of_neg hneg]
        apply Complex.ext
        · simp [hre]
        · simp only [map_mul, Complex.conj_ofReal, Complex.im_ofReal_mul, Complex.conj_im, Complex.I_im]
          field_simp
    · rename_i hneg
      simp only [Outcome.ok.injEq, Prod.mk.injEq] at h
      obtain ⟨rfl, rfl⟩ := h
      refine ⟨heig, ?_, Or.inl rfl⟩
      have hp : 0 < (bnorm b).im := lt_of_le_of_ne (not_lt.1 hneg) him.symm
      rw [hform, hcc, abs_of_pos hp]
      apply Complex.ext
      · simp [hre]
      · simp only [Complex.im_ofReal_mul, Complex.I_im]
        field_simp

/-- C152: from an eigenvector and any other value which is no eigenvalue, one iteration finds the eigenvalue and keeps the
direction of the vector. -/
theorem iter_eigen (sq : ℂ → ℂ) (hsq : ∀ z, sq z * sq z = z) (m : Matrix (Fin 6) (Fin 6) ℂ) (b : Vec) (lam mu : ℂ)
    (hb : Spec.Eigen m mu b) (hn : ∑ i, b i * b i = 1)
    (hlam : ∀ v, Spec.Eigen m lam v → v = 0) :
    ∃ p : ℝ, ∃ c : ℂ, (c = 1 ∨ c = -1) ∧ iterStep sq m b lam = .ok (fun i => c * b i, mu, p) := by
  have hne : mu - lam ≠ 0 := by
    intro h
    have : mu = lam := sub_eq_zero.1 h
    subst this
    have := hlam b hb
    subst this
    simp at hn
  set mp : Matrix (Fin 6) (Fin 6) ℂ := Matrix.of fun i j => if i = j then m i j - lam else m i j with hmp
  have hmv : ∀ v i, mp.mulVec v i = (∑ j, m i j * v j) - lam * v i := by
    intro v i
    simp only [Matrix.mulVec, dotProduct, hmp, Matrix.of_apply]
    have : ∀ j, (if i = j then m i j - lam else m i j) * v j = m i j * v j - (if i = j then lam * v i else 0) := by
      intro j
      split
      · rename_i h; subst h; ring
      · ring
    rw [Finset.sum_congr rfl fun j _ => this j, Finset.sum_sub_distrib, Finset.sum_ite_eq]
    simp
  rw [iterStep]
  simp only [← hmp]
  rcases inverse_spec (fun z : ℂ => ‖z‖) (fun z => norm_nonneg z) (fun z => norm_eq_zero) mp with
    ⟨h1, _⟩ | ⟨x, p, h1, _, h3, _⟩
  · obtain ⟨v, hv, hv0⟩ := (inverse_singular (fun z : ℂ => ‖z‖) (fun z => norm_nonneg z) (fun z => norm_eq_zero) mp).1 h1
    refine absurd (hlam v ?_) hv
    intro i
    have := congrFun hv0 i
    rw [hmv, Pi.zero_apply] at this
    exact sub_eq_zero.1 this
  · rw [h1]
    simp only
    have hy : ∀ i, ∑ col, x i col * b col = b i / (mu - lam) := by
      intro i
      have e1 : mp.mulVec b = (mu - lam) • b := by
        funext k
        rw [hmv, hb k, Pi.smul_apply, smul_eq_mul]
        ring
      have e2 := congrArg (fun v => x.mulVec v i) e1
      simp only [Matrix.mulVec_mulVec, h3, Matrix.one_mulVec, Matrix.mulVec_smul, Pi.smul_apply, smul_eq_mul] at e2
      rw [eq_div_iff hne, mul_comm, e2]
      rfl
    simp only [hy]
    have hyn : ∑ k, b k / (mu - lam) * (b k / (mu - lam)) = 1 / (mu - lam) * (1 / (mu - lam)) := by
      have : ∀ k, b k / (mu - lam) * (b k / (mu - lam)) = b k * b k * (1 / (mu - lam) * (1 / (mu - lam))) := by
        intro k; field_simp
      rw [Finset.sum_congr rfl fun k _ => this k, ← Finset.sum_mul, hn, one_mul]
    have hyb : ∑ k, b k / (mu - lam) * b k = 1 / (mu - lam) := by
      have : ∀ k, b k / (mu - lam) * b k = b k * b k * (1 / (mu - lam)) := by
        intro k; field_simp
      rw [Finset.sum_congr rfl fun k _ => this k, ← Finset.sum_mul, hn, one_mul]
    rw [hyn, hyb]
    have hs := hsq (1 / (mu - lam) * (1 / (mu - lam)))
    set q := sq (1 / (mu - lam) * (1 / (mu - lam))) with hq
    have hq2 : q = 1 / (mu - lam) ∨ q = - (1 / (mu - lam)) := by
      rw [← mul_self_eq_mul_self_iff]; exact hs
    have hi : 1 / (mu - lam) ≠ 0 := one_div_ne_zero hne
    have hq0 : q ≠ 0 := by
      rcases hq2 with h | h <;> rw [h]
      · exact hi
      · exact neg_ne_zero.2 hi
    rw [if_neg (by simp only [not_or]; exact ⟨hq0, hi⟩)]
    rcases hq2 with h | h
    · refine ⟨p, 1, Or.inl rfl, ?_⟩
      simp only [Outcome.ok.injEq, Prod.mk.injEq, and_true]
      refine ⟨?_, ?_⟩
      · funext i
        rw [h]
        field_simp
      · field_simp
        ring
    · refine ⟨p, -1, Or.inr rfl, ?_⟩
      simp only [Outcome.ok.injEq, Prod.mk.injEq, and_true]
      refine ⟨?_, ?_⟩
      · funext i
        rw [h]
        field_simp
      · field_simp
        ring

theorem bnorm_guess (pln : Nat) : bnorm (guessVec pln) = 0 := by
  rw [bnorm_eq]
  have : ∀ i, (starRingEnd ℂ) (guessVec pln i) = guessVec pln i := by
    intro i
    simp only [guessVec]
    split
    · rw [Complex.conj_ofReal]
    · simp
  simp only [this, Spec.form]
  ring

/-- C152 (violated): whenever the first guess of a vector is taken as it is, the result is no number, since the guess is
real and has no norm. -/
theorem guess_violated (sq : ℂ → ℂ) (t : Matrix (Fin 6) (Fin 6) ℝ) (pln : Fin 3)
    (h : testGuess (cplx t) (guessVec pln.val) ≤ 1 / 10 ^ 15) : plane sq t pln = .ub := by
  rw [plane, if_neg (not_lt.2 h), finish]
  simp only
  rw [if_pos (bnorm_guess pln.val)]

/-- The identity is such a case. -/
theorem identity_violated (sq : ℂ → ℂ) (pln : Fin 3) : plane sq 1 pln = .ub := by
  apply guess_violated
  have : testGuess (cplx 1) (guessVec pln.val) = 0 := by
    rw [testGuess]
    apply Finset.sum_eq_zero
    intro i _
    have : ∑ j, cplx 1 i j * guessVec pln.val j = guessVec pln.val i := by
      have : ∀ j, cplx 1 i j * guessVec pln.val j =
          if i = j then guessVec pln.val i else 0 := by
        intro j
        simp only [cplx, Matrix.of_apply, Matrix.one_apply]
        split
        · rename_i h; subst h; simp
        · simp
      rw [Finset.sum_congr rfl fun j _ => this j, Finset.sum_ite_eq]
      simp
    rw [this]
    simp
  rw [this]
  positivity

/-- The first guess of the eigenvalue solves the characteristic equation of a plane. -/
theorem guess_root (sq : ℂ → ℂ) (hsq : ∀ z, sq z * sq z = z) (a b c d : ℝ) (h : a * d - b * c = 1) :
    ((a : ℂ) - guessVal sq a d) * ((d : ℂ) - guessVal sq a d) - (b : ℂ) * (c : ℂ) = 0 := by
  have hd : (a : ℂ) * (d : ℂ) - (b : ℂ) * (c : ℂ) = 1 := by exact_mod_cast h
  have hs := hsq ((((a + d) / 2 : ℝ) : ℂ) * (((a + d) / 2 : ℝ) : ℂ) - 1)
  rw [guessVal]
  set q := sq ((((a + d) / 2 : ℝ) : ℂ) * (((a + d) / 2 : ℝ) : ℂ) - 1)
  push_cast at hs ⊢
  linear_combination hd + hs

/-- C152 (violated): without coupling between the planes the first guess of the eigenvalue is exact, and the matrix to be
inverted is singular: in exact arithmetic there is an exception. -/
theorem uncoupled_violated (sq : ℂ → ℂ) (hsq : ∀ z, sq z * sq z = z) (t : Matrix (Fin 6) (Fin 6) ℝ) (pln : Fin 3)
    (e o : Fin 6) (he : e.val = 2 * pln.val) (ho : o.val = 2 * pln.val + 1)
    (hblock : ∀ i, i ≠ e → i ≠ o → t i e = 0 ∧ t i o = 0) (hdet : t e e * t o o - t e o * t o e = 1)
    (h : testGuess (cplx t) (guessVec pln.val) > 1 / 10 ^ 15) : plane sq t pln = .throw .singular := by
  have hee : (⟨2 * pln.val, by omega⟩ : Fin 6) = e := Fin.ext he.symm
  have hoo : (⟨2 * pln.val + 1, by omega⟩ : Fin 6) = o := Fin.ext ho.symm
  have heo : e ≠ o := by
    intro h
    rw [h] at he
    omega
  rw [plane, if_pos h, iterate, if_pos (by norm_num), iterStep, firstVal, hee, hoo]
  simp only
  set lam := guessVal sq (t e e) (t o o) with hlam
  have hl2 : ((t e e : ℂ) - lam) * ((t o o : ℂ) - lam) - (t e o : ℂ) * (t o e : ℂ) = 0 :=
    guess_root sq hsq _ _ _ _ hdet
  have hsing : inverse (fun z : ℂ => ‖z‖) (Matrix.of fun i j : Fin 6 => if i = j then cplx t i j - lam else cplx t i j) =
      .throw .singular := by
    rw [inverse_singular _ (fun z => norm_nonneg z) (fun z => norm_eq_zero)]
    have h2 : ∃ v : Fin 2 → ℂ, v ≠ 0 ∧ (!![(t e e : ℂ) - lam, (t e o : ℂ); (t o e : ℂ), (t o o : ℂ) - lam]).mulVec v = 0 := by
      have : (!![(t e e : ℂ) - lam, (t e o : ℂ); (t o e : ℂ), (t o o : ℂ) - lam]).det = 0 := by
        rw [Matrix.det_fin_two_of]
        exact hl2
      exact Matrix.exists_mulVec_eq_zero_iff.2 this
    obtain ⟨v, hv, hv0⟩ := h2
    have r0 : ((t e e : ℂ) - lam) * v 0 + (t e o : ℂ) * v 1 = 0 := by
      have := congrFun hv0 0
      simpa [Matrix.mulVec, dotProduct, Fin.sum_univ_two] using this
    have r1 : (t o e : ℂ) * v 0 + ((t o o : ℂ) - lam) * v 1 = 0 := by
      have := congrFun hv0 1
      simpa [Matrix.mulVec, dotProduct, Fin.sum_univ_two] using this
    refine ⟨fun k => if k = e then v 0 else if k = o then v 1 else 0, ?_, ?_⟩
    · intro hc
      apply hv
      have h0 := congrFun hc e
      have h1 := congrFun hc o
      simp only [if_true, if_neg heo.symm, Pi.zero_apply] at h0 h1
      funext k
      fin_cases k
      · exact h0
      · exact h1
    · funext i
      simp only [Matrix.mulVec, dotProduct, Pi.zero_apply, Matrix.of_apply, cplx]
      have hterm : ∀ k, (if i = k then (t i k : ℂ) - lam else (t i k : ℂ)) * (if k = e then v 0 else if k = o then v 1 else 0)
          = (if k = e then (if i = e then (t i e : ℂ) - lam else (t i e : ℂ)) * v 0 else 0) +
            (if k = o then (if i = o then (t i o : ℂ) - lam else (t i o : ℂ)) * v 1 else 0) := by
        intro k
        by_cases h1 : k = e
        · subst h1
          simp [heo]
        · by_cases h2 : k = o
          · subst h2
            simp [h1]
          · simp [h1, h2]
      rw [Finset.sum_congr rfl fun k _ => hterm k, Finset.sum_add_distrib, Finset.sum_ite_eq', Finset.sum_ite_eq']
      simp only [Finset.mem_univ, if_true]
      by_cases h1 : i = e
      · subst h1
        rw [if_pos rfl, if_neg heo]
        exact r0
      · by_cases h2 : i = o
        · subst h2
          rw [if_neg h1, if_pos rfl]
          exact r1
        · obtain ⟨h3, h4⟩ := hblock i h1 h2
          rw [if_neg h1, if_neg h2, h3, h4]
          simp
  rw [hsing]

end Eigen

/-! ## Cases which meet the hypotheses -/

/-- The value, if there is one. -/
def value {α : Type} : Outcome Err α → Option α
  | .ok a => some a
  | _ => none

/-- The inversion of a matrix which needs an exchange of rows. -/
example : value (inverse (n := 2) (fun q : ℚ => |q|) !![0, 2; 4, 1]) = some (!![-1 / 8, 1 / 4; 1 / 2, 0], 2) := by decide +kernel

/-- A singular matrix. -/
example : inverse (n := 2) (fun q : ℚ => |q|) !![1, 2; 2, 4] = .throw .singular := by decide +kernel

/-- The modulus of rational numbers meets the hypotheses. -/
example : (∀ z : ℚ, 0 ≤ |z|) ∧ ∀ z : ℚ, |z| = 0 ↔ z = 0 := ⟨abs_nonneg, fun _ => abs_eq_zero⟩

/-- A drift is symplectic and has no eigenvalue -1. -/
def drift : Matrix (Fin 6) (Fin 6) ℚ := fun i j =>
  if i = j then 1 else if (i = 0 ∧ j = 1) ∨ (i = 2 ∧ j = 3) then 2 else 0

example : drift.transpose * sMat * drift = sMat := by decide +kernel

/-- Something which is not symplectic gets a symplectic result. -/
example : value (symplectify (fun q : ℚ => |q|) (fun i j => if i = j then 2 else 0)) = some 1 := by decide +kernel

/-- A quarter of a turn in all planes for `uncoupled_violated`: the numbers are exact as doubles as well. -/
noncomputable def quarter : Matrix (Fin 6) (Fin 6) ℝ := sMat

example (sq : ℂ → ℂ) (hsq : ∀ z, sq z * sq z = z) : plane sq quarter 0 = .throw .singular := by
  refine uncoupled_violated sq hsq quarter 0 0 1 rfl rfl ?_ ?_ ?_
  · intro i h0 h1
    fin_cases i <;> simp_all [quarter, sMat]
  · simp [quarter, sMat]
  · have h : ‖(∑ j, cplx quarter 1 j * guessVec 0 j) - guessVec 0 1‖ ^ 2 ≤
        testGuess (cplx quarter) (guessVec 0) := by
      unfold testGuess
      exact Finset.single_le_sum (f := fun i => ‖(∑ j, cplx quarter i j * guessVec 0 j) - guessVec 0 i‖ ^ 2)
        (fun i _ => by positivity) (Finset.mem_univ 1)
    have e : (∑ j, cplx quarter 1 j * guessVec 0 j) - guessVec 0 1 = ((-2 * (1 / Real.sqrt 2) : ℝ) : ℂ) := by
      simp [Fin.sum_univ_six, quarter, sMat, guessVec, cplx]
      ring
    rw [e, Complex.norm_real, Real.norm_eq_abs, sq_abs, mul_pow, div_pow, Real.sq_sqrt (by norm_num)] at h
    refine lt_of_lt_of_le ?_ h
    norm_num

end Verif.LinAlg
