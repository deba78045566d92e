import Verif.Photon.Spec
import Mathlib.Analysis.SpecialFunctions.Trigonometric.Chebyshev.RootsExtrema
import Mathlib.Tactic.Ring
import Mathlib.Tactic.NormNum
import Mathlib.Tactic.Linarith
import Mathlib.Tactic.LinearCombination

/-! The spectrum is made of Chebyshev series (C299). -/

namespace Verif.Photon
open Verif.Photon.Spec Real Polynomial

/-- The backward recurrence. -/
def clen (z : ℝ) : List ℝ → ℝ × ℝ
  | [] => (0, 0)
  | c :: cs => (z * (clen z cs).1 - (clen z cs).2 + c, (clen z cs).1)

theorem clen_step {z c a b : ℝ} {cs : List ℝ} (h : clen z cs = (a, b)) {x : ℝ} (hx : x = z * a - b + c) : clen z (c :: cs) = (x, a) := by
  rw [clen, h, hx]

/-- A series of Chebyshev polynomials of the first kind, from a given degree. -/
noncomputable def seriesT (t : ℝ) (n : ℤ) : List ℝ → ℝ
  | [] => 0
  | c :: cs => c * (Chebyshev.T ℝ n).eval t + seriesT t (n + 1) cs

/-- A series of Chebyshev polynomials of the second kind, from a given degree. -/
noncomputable def seriesU (t : ℝ) (n : ℤ) : List ℝ → ℝ
  | [] => 0
  | c :: cs => c * (Chebyshev.U ℝ n).eval t + seriesU t (n + 1) cs

theorem series_eq (cs : List ℝ) (t : ℝ) : series cs t = seriesT t 0 cs := by
  have : ∀ (cs : List ℝ) (n : Nat), ((cs.zipIdx n).map fun c => c.1 * (Chebyshev.T ℝ (c.2 : ℤ)).eval t).sum = seriesT t n cs := by
    intro cs
    induction cs with
    | nil => intro n; rfl
    | cons c cs ih =>
      intro n
      simp only [List.zipIdx_cons, List.map_cons, List.sum_cons, seriesT]
      rw [ih (n + 1)]
      simp
  exact this cs 0

theorem seriesU_step (t : ℝ) (cs : List ℝ) (n : ℤ) : seriesU t (n + 1) cs = 2 * t * seriesU t n cs - seriesU t (n - 1) cs := by
  induction cs generalizing n with
  | nil => simp [seriesU]
  | cons c cs ih =>
    simp only [seriesU]
    rw [ih (n + 1), Chebyshev.U_add_one, show n + 1 - 1 = n by ring, show n - 1 + 1 = n by ring]
    simp
    ring

theorem clen_seriesU (t : ℝ) (cs : List ℝ) : (clen (2 * t) cs).1 = seriesU t 0 cs ∧ (clen (2 * t) cs).2 = seriesU t (-1) cs := by
  induction cs with
  | nil => exact ⟨rfl, rfl⟩
  | cons c cs ih =>
    simp only [clen, seriesU, Chebyshev.U_zero, Chebyshev.U_neg_one]
    constructor
    · rw [ih.1, ih.2, seriesU_step]
      simp
      ring
    · rw [ih.1]; simp

theorem seriesT_U (t : ℝ) (cs : List ℝ) (n : ℤ) : seriesT t (n + 1) cs = t * seriesU t n cs - seriesU t (n - 1) cs := by
  induction cs generalizing n with
  | nil => simp [seriesT, seriesU]
  | cons c cs ih =>
    simp only [seriesT, seriesU]
    rw [ih (n + 1)]
    have h := Chebyshev.T_eq_X_mul_U_sub_U ℝ (n - 1)
    rw [show n - 1 + 2 = n + 1 by ring, show n - 1 + 1 = n by ring] at h
    rw [h, show n + 1 - 1 = n by ring, show n - 1 + 1 = n by ring]
    simp
    ring

/-- The backward recurrence sums a Chebyshev series. -/
theorem clenshaw (t c : ℝ) (cs : List ℝ) : 0.5 * (2 * t) * (clen (2 * t) cs).1 - (clen (2 * t) cs).2 + c = series (c :: cs) t := by
  rw [(clen_seriesU t cs).1, (clen_seriesU t cs).2, series_eq, seriesT, seriesT_U]
  simp
  ring

theorem pLow_series (t : ℝ) : pLow (2 * t) = series pCoeffs t := by
  unfold pLow pCoeffs
  rw [← clenshaw]
  extract_lets x0 x1 x2 x3 x4 x5 x6 x7 x8 x9 x10 x11 x12 x13 x14 x15 x16 x17
  have h0 : clen (2 * t) [0.00000000000000000012] = (x0, 0) := clen_step (cs := []) rfl (by simp [x0])
  have h1 := clen_step (c := 0.00000000000000000460) h0 (x := x1) (by show 2 * t * x0 + 0.00000000000000000460 = _; ring)
  have h2 := clen_step (c := 0.00000000000000031738) h1 (x := x2) (rfl)
  have h3 := clen_step (c := 0.00000000000002004426) h2 (x := x3) (rfl)
  have h4 := clen_step (c := 0.00000000000111455474) h3 (x := x4) (rfl)
  have h5 := clen_step (c := 0.00000000005407460944) h4 (x := x5) (rfl)
  have h6 := clen_step (c := 0.00000000226722011790) h5 (x := x6) (rfl)
  have h7 := clen_step (c := 0.00000008125130371644) h6 (x := x7) (rfl)
  have h8 := clen_step (c := 0.00000245751373955212) h7 (x := x8) (rfl)
  have h9 := clen_step (c := 0.00006181256113829740) h8 (x := x9) (rfl)
  have h10 := clen_step (c := 0.00127066381953661690) h9 (x := x10) (rfl)
  have h11 := clen_step (c := 0.02091216799114667278) h10 (x := x11) (rfl)
  have h12 := clen_step (c := 0.26880346058164526514) h11 (x := x12) (rfl)
  have h13 := clen_step (c := 2.61902183794862213818) h12 (x := x13) (rfl)
  have h14 := clen_step (c := 18.65250896865416256398) h13 (x := x14) (rfl)
  have h15 := clen_step (c := 92.95232665922707542088) h14 (x := x15) (rfl)
  have h16 := clen_step (c := 308.15919413131586030542) h15 (x := x16) (rfl)
  have h17 := clen_step (c := 644.86979658236221700714) h16 (x := x17) (rfl)
  rw [h17]

theorem qLow_series (t : ℝ) : qLow (2 * t) = series qCoeffs t := by
  unfold qLow qCoeffs
  rw [← clenshaw]
  extract_lets x0 x1 x2 x3 x4 x5 x6 x7 x8 x9 x10 x11 x12 x13 x14 x15 x16
  have h0 : clen (2 * t) [0.00000000000000000004] = (x0, 0) := clen_step (cs := []) rfl (by simp [x0])
  have h1 := clen_step (c := 0.00000000000000000289) h0 (x := x1) (by show 2 * t * x0 + 0.00000000000000000289 = _; ring)
  have h2 := clen_step (c := 0.00000000000000019786) h1 (x := x2) (rfl)
  have h3 := clen_step (c := 0.00000000000001196168) h2 (x := x3) (rfl)
  have h4 := clen_step (c := 0.00000000000063427729) h3 (x := x4) (rfl)
  have h5 := clen_step (c := 0.00000000002923635681) h4 (x := x5) (rfl)
  have h6 := clen_step (c := 0.00000000115951672806) h5 (x := x6) (rfl)
  have h7 := clen_step (c := 0.00000003910314748244) h6 (x := x7) (rfl)
  have h8 := clen_step (c := 0.00000110599584794379) h7 (x := x8) (rfl)
  have h9 := clen_step (c := 0.00002581451439721298) h8 (x := x9) (rfl)
  have h10 := clen_step (c := 0.00048768692916240683) h9 (x := x10) (rfl)
  have h11 := clen_step (c := 0.00728456195503504923) h10 (x := x11) (rfl)
  have h12 := clen_step (c := 0.08357935463720537773) h11 (x := x12) (rfl)
  have h13 := clen_step (c := 0.71031361199218887514) h12 (x := x13) (rfl)
  have h14 := clen_step (c := 4.26780261265492264837) h13 (x := x14) (rfl)
  have h15 := clen_step (c := 17.05540785795221885751) h14 (x := x15) (rfl)
  have h16 := clen_step (c := 41.83903486779678800040) h15 (x := x16) (rfl)
  rw [h16]

theorem pHigh_series (t : ℝ) : pHigh (2 * t) = series hCoeffs t := by
  unfold pHigh hCoeffs
  rw [← clenshaw]
  extract_lets x0 x1 x2 x3 x4 x5 x6 x7 x8 x9 x10 x11 x12 x13 x14 x15 x16 x17 x18 x19 x20 x21 x22 x23 x24 x25 x26 x27 x28
  have h0 : clen (2 * t) [0.00000000000000000001] = (x0, 0) := clen_step (cs := []) rfl (by simp [x0])
  have h1 := clen_step (c := -0.00000000000000000002) h0 (x := x1) (by show 2 * t * x0 - 0.00000000000000000002 = _; ring)
  have h2 := clen_step (c := 0.00000000000000000006) h1 (x := x2) (rfl)
  have h3 := clen_step (c := -0.00000000000000000020) h2 (x := x3) (sub_eq_add_neg (2 * t * x2 - x1) _)
  have h4 := clen_step (c := 0.00000000000000000066) h3 (x := x4) (rfl)
  have h5 := clen_step (c := -0.00000000000000000216) h4 (x := x5) (sub_eq_add_neg (2 * t * x4 - x3) _)
  have h6 := clen_step (c := 0.00000000000000000721) h5 (x := x6) (rfl)
  have h7 := clen_step (c := -0.00000000000000002443) h6 (x := x7) (sub_eq_add_neg (2 * t * x6 - x5) _)
  have h8 := clen_step (c := 0.00000000000000008441) h7 (x := x8) (rfl)
  have h9 := clen_step (c := -0.00000000000000029752) h8 (x := x9) (sub_eq_add_neg (2 * t * x8 - x7) _)
  have h10 := clen_step (c := 0.00000000000000107116) h9 (x := x10) (rfl)
  have h11 := clen_step (c := -0.00000000000000394564) h10 (x := x11) (sub_eq_add_neg (2 * t * x10 - x9) _)
  have h12 := clen_step (c := 0.00000000000001489474) h11 (x := x12) (rfl)
  have h13 := clen_step (c := -0.00000000000005773537) h12 (x := x13) (sub_eq_add_neg (2 * t * x12 - x11) _)
  have h14 := clen_step (c := 0.00000000000023030657) h13 (x := x14) (rfl)
  have h15 := clen_step (c := -0.00000000000094784973) h14 (x := x15) (sub_eq_add_neg (2 * t * x14 - x13) _)
  have h16 := clen_step (c := 0.00000000000403683207) h15 (x := x16) (rfl)
  have h17 := clen_step (c := -0.00000000001785432348) h16 (x := x17) (sub_eq_add_neg (2 * t * x16 - x15) _)
  have h18 := clen_step (c := 0.00000000008235329314) h17 (x := x18) (rfl)
  have h19 := clen_step (c := -0.00000000039817923621) h18 (x := x19) (sub_eq_add_neg (2 * t * x18 - x17) _)
  have h20 := clen_step (c := 0.00000000203088939238) h19 (x := x20) (rfl)
  have h21 := clen_step (c := -0.00000001101482369622) h20 (x := x21) (sub_eq_add_neg (2 * t * x20 - x19) _)
  have h22 := clen_step (c := 0.00000006418902302372) h21 (x := x22) (rfl)
  have h23 := clen_step (c := -0.00000040756144386809) h22 (x := x23) (sub_eq_add_neg (2 * t * x22 - x21) _)
  have h24 := clen_step (c := 0.00000287536465397527) h23 (x := x24) (rfl)
  have h25 := clen_step (c := -0.00002321251614543524) h24 (x := x25) (sub_eq_add_neg (2 * t * x24 - x23) _)
  have h26 := clen_step (c := 0.00022505317277986004) h25 (x := x26) (rfl)
  have h27 := clen_step (c := -0.00287636803664026799) h26 (x := x27) (sub_eq_add_neg (2 * t * x26 - x25) _)
  have h28 := clen_step (c := 0.06239591359332750793) h27 (x := x28) (rfl)
  rw [h28]

end Verif.Photon
