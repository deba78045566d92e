import Verif.LU.Model
import Verif.SVD.Model

/-!
# `SVDMatrix` (Merlin++/TLASimp.h 95-226)

For square matrices, the only ones that are accepted (C155).
-/

namespace Verif.Weighted

/-- The exceptions of the decomposition and `SingularValuesAllZero`. -/
inductive Err where
  | svd (e : SVD.Err)
  | clip (e : LU.Err)

/-- The members (TLASimp.h 166-168). -/
structure Obj where
  u : ℕ → ℕ → ℝ
  v : ℕ → ℕ → ℝ
  w : List ℝ
  wts : ℕ → ℝ

/-- The constructor with weights and `Init` (TLASimp.h 180-226) for a matrix of `n + 1` rows and columns: each column is
multiplied by the weights, and small singular values are set to zero.  The
constructor without weights (172-178) takes weights of one. -/
noncomputable def make (n : ℕ) (A : ℕ → ℕ → ℝ) (wts : ℕ → ℝ) (threshold : ℝ) : Outcome Err Obj :=
  match SVD.svd n (fun r c => A r c * wts r) (fun _ _ => 0) with
  | .ok st =>
    match LU.clip threshold ((List.range (n + 1)).map st.V) with
    | .ok w => .ok ⟨st.M, st.S, w, wts⟩
    | .throw e => .throw (.clip e)
    | .ub => .ub
  | .throw e => .throw (.svd e)
  | .ub => .ub

/-- `operator()` (TLASimp.h 120-140). -/
noncomputable def solve (n : ℕ) (X : Obj) (b : Fin (n + 1) → ℝ) : Fin (n + 1) → ℝ :=
  LU.svdSolve (fun i j : Fin (n + 1) => X.u i j) (fun i => X.w.getD i 0) (fun i j : Fin (n + 1) => X.v i j)
    fun i => b i * X.wts i

end Verif.Weighted
