import Verif.SVD.Properties
import Verif.Weighted.Model

/-! # Properties of `SVDMatrix` -/

namespace Verif.Weighted
open Finset

/-- The sum of squares of what is left of each equation, times its weight. -/
noncomputable def Spec.residual (n : ℕ) (A : ℕ → ℕ → ℝ) (wts : ℕ → ℝ) (x b : Fin (n + 1) → ℝ) : ℝ :=
  ∑ r : Fin (n + 1), (wts r * (∑ c : Fin (n + 1), A r c * x c - b r)) ^ 2

theorem residual_eq (n : ℕ) (A : ℕ → ℕ → ℝ) (wts : ℕ → ℝ) (x b : Fin (n + 1) → ℝ) : Spec.residual n A wts x b =
    LU.Spec.residual (SVD.Spec.matrix (n + 1) fun r c => A r c * wts r) x fun i => b i * wts i := by
  unfold Spec.residual LU.Spec.residual
  refine sum_congr rfl fun r _ => ?_
  have : (SVD.Spec.matrix (n + 1) fun r c => A r c * wts r).mulVec x r = wts r * ∑ c : Fin (n + 1), A r c * x c := by
    rw [Matrix.mulVec, dotProduct, mul_sum]
    exact sum_congr rfl fun c _ => by simp only [SVD.Spec.matrix]; ring
  rw [this]
  ring

theorem make_ok {n : ℕ} {A : ℕ → ℕ → ℝ} {wts : ℕ → ℝ} {t : ℝ} {X : Obj} (h : make n A wts t = .ok X) :
    ∃ st, SVD.svd n (fun r c => A r c * wts r) (fun _ _ => 0) = .ok st ∧
      LU.clip t ((List.range (n + 1)).map st.V) = .ok X.w ∧ X.u = st.M ∧ X.v = st.S ∧ X.wts = wts := by
  unfold make at h
  split at h
  next st hst =>
    split at h
    next w hw =>
      cases h
      exact ⟨st, hst, hw, rfl, rfl, rfl⟩
    next => cases h
    next => cases h
  next => cases h
  next => cases h

theorem orthonormal {n : ℕ} {U : ℕ → ℕ → ℝ}
    (h : ∀ r ≤ n, ∀ r' ≤ n, SVD.Spec.dot (n + 1) (U r) (U r') = if r = r' then 1 else 0) :
    (SVD.Spec.matrix (n + 1) U).transpose * SVD.Spec.matrix (n + 1) U = 1 := by
  apply mul_eq_one_comm.1
  ext i j
  rw [Matrix.mul_apply, Matrix.one_apply]
  have := h i (by omega) j (by omega)
  rw [SVD.Spec.dot, ← Fin.sum_univ_eq_sum_range (fun k => U i k * U j k)] at this
  simp only [Fin.ext_iff]
  exact this

/-- The solution minimises the weighted sum of squares, provided that the product of the vectors and the singular values
kept is the weighted matrix; under the hypotheses of `weighted_columns` it is, by `SVD.svd_columns`. -/
theorem weighted_least {n : ℕ} {A : ℕ → ℕ → ℝ} {wts : ℕ → ℝ} {t : ℝ} {X : Obj} (h : make n A wts t = .ok X)
    (hA : ∀ r ≤ n, ∀ b ≤ n, ∑ c ∈ range (n + 1), X.u r c * X.w.getD c 0 * X.v b c = A r b * wts r) (b y : Fin (n + 1) → ℝ) :
    Spec.residual n A wts (solve n X b) b ≤ Spec.residual n A wts y b := by
  obtain ⟨st, h1, -, h3, h4, h5⟩ := make_ok h
  obtain ⟨-, ho⟩ := SVD.svd_orthonormal h1
  rw [residual_eq, residual_eq]
  unfold solve
  rw [h5]
  refine LU.svd_least_squares _ (SVD.Spec.matrix (n + 1) X.u) _ (SVD.Spec.matrix (n + 1) X.v) _ ?_ ?_ ?_ y
  · rw [h3]; exact orthonormal fun r hr r' hr' => (ho r hr r' hr').1
  · rw [h4]; exact orthonormal fun r hr r' hr' => (ho r hr r' hr').2
  · ext i j
    rw [Matrix.mul_apply]
    simp only [Matrix.mul_diagonal, Matrix.transpose_apply]
    have := hA i (by omega) j (by omega)
    rw [← Fin.sum_univ_eq_sum_range (fun k => X.u i k * X.w.getD k 0 * X.v j k)] at this
    exact this.symm

/-- If the weighted columns are orthogonal, longer than the tolerance and not shorter than the threshold says, the object is made,
and each system with weights other than zero is solved exactly, whatever the weights are. -/
theorem weighted_columns {n : ℕ} {A : ℕ → ℕ → ℝ} {wts : ℕ → ℝ} {t : ℝ}
    (h0 : ∀ c ≤ n, ∀ c' ≤ n, c ≠ c' → ∑ r ∈ range (n + 1), A r c * wts r * (A r c' * wts r) = 0)
    (h1 : ∀ c ≤ n, SVD.eps ^ 2 < ∑ r ∈ range (n + 1), A r c * wts r * (A r c * wts r)) (ht1 : t < 1)
    (ht : ∀ c ≤ n, ∀ c' ≤ n, t * Real.sqrt (∑ r ∈ range (n + 1), A r c' * wts r * (A r c' * wts r)) <
      Real.sqrt (∑ r ∈ range (n + 1), A r c * wts r * (A r c * wts r))) (hw : ∀ r ≤ n, wts r ≠ 0) :
    ∃ X, make n A wts t = .ok X ∧ ∀ (b : Fin (n + 1) → ℝ) (r : Fin (n + 1)), ∑ c : Fin (n + 1), A r c * solve n X b c = b r := by
  obtain ⟨st, h, hV, hA⟩ := SVD.svd_columns (A := fun r c => A r c * wts r) h0 h1 (fun _ _ => 0)
  have hpos : ∀ c ≤ n, 0 < st.V c := fun c hc => by
    rw [hV c hc]
    exact Real.sqrt_pos.2 ((by have := SVD.eps_pos; positivity : 0 < SVD.eps ^ 2).trans (h1 c hc))
  have hmem : ∀ x ∈ (List.range (n + 1)).map st.V, ∃ c ≤ n, x = st.V c := by
    intro x hx
    obtain ⟨c, hc, rfl⟩ := List.mem_map.1 hx
    exact ⟨c, by have := List.mem_range.1 hc; omega, rfl⟩
  have hclip : LU.clip t ((List.range (n + 1)).map st.V) = .ok ((List.range (n + 1)).map st.V) := by
    rcases LU.svd_clip t ht1 ((List.range (n + 1)).map st.V) (fun x hx => by
      obtain ⟨c, hc, rfl⟩ := hmem x hx
      exact (hpos c hc).le) with ⟨-, hz⟩ | ⟨top, htop, -, -, he⟩
    · exact absurd (hz (st.V 0) (List.mem_map.2 ⟨0, List.mem_range.2 (by omega), rfl⟩)) (hpos 0 (by omega)).ne'
    · rw [he]
      congr 1
      conv_rhs => rw [← List.map_id ((List.range (n + 1)).map st.V)]
      refine List.map_congr_left fun x hx => ?_
      obtain ⟨c, hc, rfl⟩ := hmem x hx
      obtain ⟨c', hc', rfl⟩ := hmem top htop
      rw [hV c hc, hV c' hc', if_pos (ht c hc c' hc')]
      rfl
  refine ⟨⟨st.M, st.S, (List.range (n + 1)).map st.V, wts⟩, ?_, fun b r => ?_⟩
  · unfold make
    rw [h]
    simp only [hclip]
  · have hg : (fun i : Fin (n + 1) => ((List.range (n + 1)).map st.V).getD i 0) = fun i : Fin (n + 1) => st.V i := by
      funext i
      simp [List.getD_eq_getElem?_getD, List.getElem?_range i.isLt]
    have hs := (SVD.svd_solve h hA fun i => b i * wts i).2 fun c hc => (hpos c hc).ne'
    have hr := congrFun hs r
    unfold solve
    simp only [hg]
    rw [Matrix.mulVec, dotProduct] at hr
    have e : wts r * ∑ c : Fin (n + 1), A r c * LU.svdSolve (SVD.Spec.matrix (n + 1) st.M) (fun i => st.V i)
        (SVD.Spec.matrix (n + 1) st.S) (fun i => b i * wts i) c = wts r * b r := by
      rw [mul_sum, mul_comm (wts r) (b r), ← hr]
      exact sum_congr rfl fun c _ => by simp only [SVD.Spec.matrix]; ring
    exact mul_left_cancel₀ (hw r (by omega)) e

/-- The equations `x = b₀` and `x' = b₁` with the weights 2 and 3: the hypotheses of `weighted_columns` are met. -/
example : ∃ X, make 1 (fun r c => if r = c then 1 else 0) (fun r => r + 2) (1 / 1000000) = .ok X ∧
    ∀ (b : Fin 2 → ℝ) (r : Fin 2), ∑ c : Fin 2, (if (r : ℕ) = c then (1 : ℝ) else 0) * solve 1 X b c = b r := by
  have he := SVD.eps_lt_one
  have hp := SVD.eps_pos
  have s4 : Real.sqrt 4 = 2 := by rw [show (4 : ℝ) = 2 ^ 2 by norm_num, Real.sqrt_sq (by norm_num)]
  have s9 : Real.sqrt 9 = 3 := by rw [show (9 : ℝ) = 3 ^ 2 by norm_num, Real.sqrt_sq (by norm_num)]
  have h01 : ∀ c ≤ 1, c = 0 ∨ c = 1 := fun c hc => by omega
  refine weighted_columns (n := 1) (A := fun r c => if r = c then 1 else 0) (wts := fun r => r + 2) (fun c hc c' hc' hne => ?_)
    (fun c hc => ?_) (by norm_num) (fun c hc c' hc' => ?_) fun r hr => by positivity
  · rcases h01 c hc with rfl | rfl <;> rcases h01 c' hc' with rfl | rfl <;> first | exact absurd rfl hne | norm_num [sum_range_succ]
  · rcases h01 c hc with rfl | rfl <;> norm_num [sum_range_succ] <;> nlinarith
  · rcases h01 c hc with rfl | rfl <;> rcases h01 c' hc' with rfl | rfl <;> norm_num [sum_range_succ, s4, s9]

end Verif.Weighted
