import Verif.Tunes.Signal

/-!
# The interpolation
-/

namespace Verif.Tunes

open Verif Spec

theorem triple (th u : ℝ) : Real.sin u ^ 2 + Real.sin (2 * th - u) ^ 2 + 2 * Real.sin u * Real.sin (2 * th - u) * Real.cos (2 * th) =
    Real.sin (2 * th) ^ 2 := by
  rw [Real.sin_sub]
  have h1 := Real.sin_sq_add_cos_sq u
  have h2 := Real.sin_sq_add_cos_sq (2 * th)
  linear_combination Real.sin (2 * th) ^ 2 * h1 - Real.sin u ^ 2 * h2

theorem root_nonneg (th u : ℝ) (h0 : 0 < th) (h4 : th ≤ Real.pi / 4) (hu1 : -(2 * th) ≤ u) (hu2 : u ≤ 2 * th) :
    0 ≤ Real.sin (2 * th) + (1 + Real.cos (2 * th)) * (Real.sin u + Real.sin (2 * th - u)) := by
  have hp := Real.pi_pos
  have e : Real.sin (2 * th) + (1 + Real.cos (2 * th)) * (Real.sin u + Real.sin (2 * th - u)) =
      2 * Real.sin th * Real.cos th * (1 + Real.cos u + Real.cos (2 * th - u)) := by
    rw [Real.sin_sub, Real.cos_sub, Real.sin_two_mul, Real.cos_two_mul]
    have h := Real.sin_sq_add_cos_sq th
    linear_combination (-4 * Real.cos th ^ 2 * Real.sin u) * h
  rw [e]
  have hs : 0 < Real.sin th := Real.sin_pos_of_pos_of_lt_pi h0 (by linarith)
  have hc : 0 < Real.cos th := Real.cos_pos_of_mem_Ioo ⟨by linarith, by linarith⟩
  have hcu : 0 ≤ Real.cos u := Real.cos_nonneg_of_mem_Icc ⟨by linarith, by linarith⟩
  have := Real.neg_one_le_cos (2 * th - u)
  have : 0 ≤ 1 + Real.cos u + Real.cos (2 * th - u) := by linarith
  positivity

theorem amp_heights (ka th u : ℝ) (hk : 0 < ka) (h0 : 0 < th) (h4 : th ≤ Real.pi / 4) (hu1 : -(2 * th) ≤ u) (hu2 : u ≤ 2 * th) :
    amp (ka * (Real.sin (2 * th) + Real.sin (2 * th - u))) (ka * (Real.sin (2 * th) + Real.sin u)) (Real.cos (2 * th)) =
      .ok (Real.sin u / Real.sin (2 * th)) := by
  have hp := Real.pi_pos
  have id := triple th u
  have hD := root_nonneg th u h0 h4 hu1 hu2
  have hS : 0 < Real.sin (2 * th) := Real.sin_pos_of_pos_of_lt_pi (by linarith) (by linarith)
  have hc : 0 ≤ Real.cos (2 * th) := Real.cos_nonneg_of_mem_Icc ⟨by linarith, by linarith⟩
  have ht : 0 ≤ Real.sin (2 * th - u) := Real.sin_nonneg_of_nonneg_of_le_pi (by linarith) (by linarith)
  have hs : 0 ≤ Real.sin (2 * th) + Real.sin u := by
    have : Real.sin (-(2 * th)) ≤ Real.sin u :=
      Real.strictMonoOn_sin.monotoneOn ⟨by linarith, by linarith⟩ ⟨by linarith, by linarith⟩ hu1
    rw [Real.sin_neg] at this
    linarith
  generalize Real.sin (2 * th) = S at *
  generalize Real.cos (2 * th) = c at *
  generalize Real.sin (2 * th - u) = t at *
  generalize Real.sin u = s at *
  have hr : c * c * (ka * (S + t) + ka * (S + s)) * (ka * (S + t) + ka * (S + s)) -
      2 * (ka * (S + t)) * (ka * (S + s)) * (2 * c * c - c - 1) = (ka * (S + (1 + c) * (s + t))) ^ 2 := by
    linear_combination (-ka ^ 2 * (1 + 2 * c)) * id
  have h1 : 0 < ka * (S + t) * (ka * (S + t)) + ka * (S + s) * (ka * (S + s)) + 2 * (ka * (S + t)) * (ka * (S + s)) * c := by
    have h2 : 0 < ka * (S + t) := by positivity
    have h3 : 0 ≤ ka * (S + s) := by positivity
    positivity
  rw [amp]
  simp only [hr]
  rw [if_neg, Real.sqrt_sq (by positivity)]
  · congr 1
    rw [div_eq_div_iff h1.ne' hS.ne']
    linear_combination (-ka ^ 2 * (S + s)) * id
  · intro h
    rcases h with h | h
    · exact absurd (sq_nonneg (ka * (S + (1 + c) * (s + t)))) (by linarith)
    · exact h1.ne' h

end Verif.Tunes
