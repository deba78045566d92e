import Verif.TransportMaps.Sector

/-!
# The bend with gradient: each second order term

`C`, `S` and `c`, `y` are the cosine- and sine-like functions of the two planes, `k` is the focusing strength
`K1 + h * h` in the plane of the bend and `W` the denominator `K1 + h * h + 4 * K1`.
-/

set_option linter.unusedVariables false
set_option linter.unusedSimpArgs false
set_option linter.unusedSectionVars false

namespace Verif.TransportMaps
open Verif Verif.Symplectic Verif.TransportMaps.Spec Real

noncomputable section

/-- A term of the second order map. -/
def g111 (h k W K2 s C S c y : ℝ) : ℝ :=
    ((-1 + (2 * (-(k - h ^ 2) / (h * h))) + (-((1 / ((h ^ 3))) * K2))) * (((1 / h) * (h * (1 - C) / k)) + ((S ^ 2)))
    * ((h ^ 3))) / 3 + (k * ((2 * (1 / h) * (h * (1 - C) / k)) + (-((S ^ 2)))) * h) / 6

/-- A term of the second order map. -/
def g112 (h k W K2 s C S c y : ℝ) : ℝ :=
    ((2 * (-1 + (2 * (-(k - h ^ 2) / (h * h))) + (-((1 / ((h ^ 3))) * K2))) * ((h ^ 2)) * (h * (1 - C) / k) * S) /
    3) - (k * (h * (1 - C) / k) * S) / 3

/-- A term of the second order map. -/
def g116 (h k W K2 s C S c y : ℝ) : ℝ :=
    ((((h ^ 2)) * (2 + (-(-(k - h ^ 2) / (h * h)))) * s * S) / 2) + 2 * (-1 + (2 * (-(k - h ^ 2) / (h * h))) + (-((1
    / ((h ^ 3))) * K2))) * ((h ^ 4)) * (1 / k) * (((s * S) / 2) + ((-((1 / h) * (h * (1 - C) / k))) + (-((S ^ 2))))
    / 3) - (((h ^ 2)) * ((2 * (1 / h) * (h * (1 - C) / k)) + (-((S ^ 2))))) / 3

/-- A term of the second order map. -/
def g122 (h k W K2 s C S c y : ℝ) : ℝ :=
    ((-1 + (2 * (-(k - h ^ 2) / (h * h))) + (-((1 / ((h ^ 3))) * K2))) * (1 / k) * ((2 * (1 / h) * (h * (1 - C) /
    k)) + (-((S ^ 2)))) * ((h ^ 3))) / 3 + ((((1 / h) * (h * (1 - C) / k)) + ((S ^ 2))) * h) / 6

/-- A term of the second order map. -/
def g126 (h k W K2 s C S c y : ℝ) : ℝ :=
    (((h ^ 2)) * (2 + (-(-(k - h ^ 2) / (h * h)))) * (1 / k) * ((-(C * s)) + S)) / 2 + ((h * (1 - C) / k) * h * S) /
    3 + 2 * (-1 + (2 * (-(k - h ^ 2) / (h * h))) + (-((1 / ((h ^ 3))) * K2))) * ((h ^ 4)) * (1 / k) * (((1 / k) *
    ((-(C * s)) + S)) / 2 - ((1 / h) * (h * (1 - C) / k) * S) / 3)

/-- A term of the second order map. -/
def g166 (h k W K2 s C S c y : ℝ) : ℝ :=
    ((1 / k) * ((2 * (1 / h) * (h * (1 - C) / k)) + (-((S ^ 2)))) * ((h ^ 3))) / 6 - (h * (1 - C) / k) + (-1 + (2 *
    (-(k - h ^ 2) / (h * h))) + (-((1 / ((h ^ 3))) * K2))) * ((h ^ 5)) * (1 / (k * k)) * (((S ^ 2)) / 3 + (4 * (1 /
    h) * (h * (1 - C) / k)) / 3 - s * S) + (2 + (-(-(k - h ^ 2) / (h * h)))) * (1 / k) * ((h ^ 3)) * (((1 / h) * (h
    * (1 - C) / k)) - (s * S) / 2)

/-- A term of the second order map. -/
def g133 (h k W K2 s C S c y : ℝ) : ℝ :=
    -((-(k - h ^ 2)) * (h * (1 - C) / k)) / 2 + (((1 / h) * (h * (1 - C) / k)) - (-(k - h ^ 2)) * (1 / W) * ((-2 *
    (1 / h) * (h * (1 - C) / k)) + ((y ^ 2)))) * K2

/-- A term of the second order map. -/
def g134 (h k W K2 s C S c y : ℝ) : ℝ :=
    (2 * (1 / W) * ((-S) + (c * y)) * K2)

/-- A term of the second order map. -/
def g144 (h k W K2 s C S c y : ℝ) : ℝ :=
    -(h * (1 - C) / k) / 2 + (1 / W) * ((-2 * (1 / h) * (h * (1 - C) / k)) + ((y ^ 2))) * K2

/-- A term of the second order map. -/
def g211 (h k W K2 s C S c y : ℝ) : ℝ :=
    -(C * (-k * S) * h) + ((-1 + (2 * (-(k - h ^ 2) / (h * h))) + (-((1 / ((h ^ 3))) * K2))) * (1 + (2 * C)) * ((h ^
    3)) * S) / 3 + ((k * k) * (h * (1 - C) / k) * S) / 3

/-- A term of the second order map. -/
def g212 (h k W K2 s C S c y : ℝ) : ℝ :=
    (2 * (-1 + (2 * (-(k - h ^ 2) / (h * h))) + (-((1 / ((h ^ 3))) * K2))) * ((-((1 / h) * (h * (1 - C) / k))) + (2
    * ((S ^ 2)))) * ((h ^ 3))) / 3 - (k * ((-((1 / h) * (h * (1 - C) / k))) + (2 * ((S ^ 2)))) * h) / 3 + h * C - h
    * ((-k * S) * S + C * C)

/-- A term of the second order map. -/
def g216 (h k W K2 s C S c y : ℝ) : ℝ :=
    -(((-k * S) * (h * (1 - C) / k) + C * (h * S)) * h) - (2 * k * (h * (1 - C) / k) * h * S) / 3 + (((h ^ 2)) * (2
    + (-(-(k - h ^ 2) / (h * h)))) * (C * s + S)) / 2 + 2 * (-1 + (2 * (-(k - h ^ 2) / (h * h))) + (-((1 / ((h ^
    3))) * K2))) * ((h ^ 4)) * (1 / k) * ((C * s) / 2 + S / 6 - (2 * C * S) / 3)

/-- A term of the second order map. -/
def g222 (h k W K2 s C S c y : ℝ) : ℝ :=
    ((2 * (-1 + (2 * (-(k - h ^ 2) / (h * h))) + (-((1 / ((h ^ 3))) * K2))) * ((h ^ 2)) * (h * (1 - C) / k) * S) /
    3) + ((1 + (2 * C)) * h * S) / 6 - h * S * C

/-- A term of the second order map. -/
def g226 (h k W K2 s C S c y : ℝ) : ℝ :=
    ((((h ^ 2)) * (2 + (-(-(k - h ^ 2) / (h * h)))) * s * S) / 2) + (((h ^ 2)) * ((-((1 / h) * (h * (1 - C) / k))) +
    (2 * ((S ^ 2))))) / 3 + 2 * (-1 + (2 * (-(k - h ^ 2) / (h * h))) + (-((1 / ((h ^ 3))) * K2))) * ((h ^ 4)) * (1 /
    k) * (((s * S) / 2) - (2 * ((S ^ 2))) / 3 + ((1 / h) * (h * (1 - C) / k)) / 3) - h * ((h * S) * S + (h * (1 - C)
    / k) * C)

/-- A term of the second order map. -/
def g266 (h k W K2 s C S c y : ℝ) : ℝ :=
    ((2 + (-(-(k - h ^ 2) / (h * h)))) * (1 / k) * ((-(C * s)) + S) * ((h ^ 3))) / 2 - (h * (1 - C) / k) * (h * S) *
    h + (((h ^ 2)) * (h * (1 - C) / k) * S) / 3 - h * S + (-1 + (2 * (-(k - h ^ 2) / (h * h))) + (-((1 / ((h ^ 3)))
    * K2))) * ((h ^ 5)) * (1 / (k * k)) * ((-(C * s)) + S / 3 + (2 * C * S) / 3)

/-- A term of the second order map. -/
def g233 (h k W K2 s C S c y : ℝ) : ℝ :=
    -((-(k - h ^ 2)) * h * S) / 2 + K2 * (-2 * (-(k - h ^ 2)) * (1 / W) * ((-S) + (c * y)) + S)

/-- A term of the second order map. -/
def g234 (h k W K2 s C S c y : ℝ) : ℝ :=
    2 * (1 / W) * (-2 * (-(k - h ^ 2)) * ((y ^ 2)) + k * (1 / h) * (h * (1 - C) / k)) * K2

/-- A term of the second order map. -/
def g244 (h k W K2 s C S c y : ℝ) : ℝ :=
    (2 * (1 / W) * ((-S) + (c * y)) * K2) - (h * S) / 2

/-- A term of the second order map. -/
def g313 (h k W K2 s C S c y : ℝ) : ℝ :=
    2 * (1 / W) * ((-(-(k - h ^ 2) / (h * h))) + ((1 / ((h ^ 3))) * K2)) * (((1 + (-C)) * c) + (-2 * (-(k - h ^ 2))
    * S * y)) * ((h ^ 3)) + k * (-(k - h ^ 2)) * (1 / W) * ((2 * (1 / h) * c * (h * (1 - C) / k)) + (-(S * y))) * h

/-- A term of the second order map. -/
def g314 (h k W K2 s C S c y : ℝ) : ℝ :=
    2 * (1 / W) * ((-(-(k - h ^ 2) / (h * h))) + ((1 / ((h ^ 3))) * K2)) * ((2 * c * S) + (-((1 + C) * y))) * ((h ^
    3)) - k * (((1 / k) * y) + ((1 / W) * ((-(c * S)) + (2 * (1 / k) * (-(k - h ^ 2)) * (1 + C) * y)))) * h + h * y

/-- A term of the second order map. -/
def g323 (h k W K2 s C S c y : ℝ) : ℝ :=
    2 * ((-(-(k - h ^ 2) / (h * h))) + ((1 / ((h ^ 3))) * K2)) * (((1 / k) * y) + ((1 / W) * ((-(c * S)) + (2 * (1 /
    k) * (-(k - h ^ 2)) * (1 + C) * y)))) * ((h ^ 3)) - (-(k - h ^ 2)) * (1 / W) * ((2 * c * S) + (-((1 + C) * y)))
    * h

/-- A term of the second order map. -/
def g324 (h k W K2 s C S c y : ℝ) : ℝ :=
    2 * (1 / W) * ((2 * (1 / h) * c * (h * (1 - C) / k)) + (-(S * y))) * ((-(-(k - h ^ 2) / (h * h))) + ((1 / ((h ^
    3))) * K2)) * ((h ^ 3)) + (1 / W) * (((1 + (-C)) * c) + (-2 * (-(k - h ^ 2)) * S * y)) * h

/-- A term of the second order map. -/
def g336 (h k W K2 s C S c y : ℝ) : ℝ :=
    -(((h ^ 2)) * (-(k - h ^ 2)) * (1 / W) * ((2 * (1 / h) * c * (h * (1 - C) / k)) + (-(S * y)))) + (((-(k - h ^
    2)) * s * y) / 2) + 2 * ((h ^ 4)) * (1 / k) * ((-(-(k - h ^ 2) / (h * h))) + ((1 / ((h ^ 3))) * K2)) * (-((1 /
    W) * (((1 + (-C)) * c) + (-2 * (-(k - h ^ 2)) * S * y))) + ((s * y) / 2))

/-- A term of the second order map. -/
def g346 (h k W K2 s C S c y : ℝ) : ℝ :=
    ((h ^ 2)) * (((1 / k) * y) + ((1 / W) * ((-(c * S)) + (2 * (1 / k) * (-(k - h ^ 2)) * (1 + C) * y)))) + ((-(c *
    s)) + y) / 2 + 2 * ((h ^ 4)) * (1 / k) * ((-(-(k - h ^ 2) / (h * h))) + ((1 / ((h ^ 3))) * K2)) * (-((1 / W) *
    ((2 * c * S) + (-((1 + C) * y)))) + ((-(c * s)) + y) / (2 * (-(k - h ^ 2))))

/-- A term of the second order map. -/
def g413 (h k W K2 s C S c y : ℝ) : ℝ :=
    2 * (1 / W) * ((-(-(k - h ^ 2) / (h * h))) + ((1 / ((h ^ 3))) * K2)) * ((h ^ 3)) * (((k + (-2 * (-(k - h ^ 2))))
    * c * S) + (-((-(k - h ^ 2)) * (1 + C) * y))) + k * (-(k - h ^ 2)) * (1 / W) * ((c * S) + (-(C * y)) + (-2 * (1
    / h) * (-(k - h ^ 2)) * (h * (1 - C) / k) * y)) * h - C * ((k - h ^ 2) * y) * h

/-- A term of the second order map. -/
def g414 (h k W K2 s C S c y : ℝ) : ℝ :=
    2 * (1 / W) * ((-(-(k - h ^ 2) / (h * h))) + ((1 / ((h ^ 3))) * K2)) * ((h ^ 3)) * ((-((1 + (-C)) * c)) + ((k +
    (-2 * (-(k - h ^ 2)))) * S * y)) - k * (((1 / k) * c) + ((1 / W) * ((-(C * c)) + (2 * (1 / k) * (-(k - h ^ 2)) *
    (1 + C) * c) + (-((-(k - h ^ 2)) * S * y))))) * h + h * c - C * h * c

/-- A term of the second order map. -/
def g423 (h k W K2 s C S c y : ℝ) : ℝ :=
    2 * ((-(-(k - h ^ 2) / (h * h))) + ((1 / ((h ^ 3))) * K2)) * ((h ^ 3)) * (((1 / k) * c) + ((1 / W) * ((-(C * c))
    + (2 * (1 / k) * (-(k - h ^ 2)) * (1 + C) * c) + (-((-(k - h ^ 2)) * S * y))))) - (-(k - h ^ 2)) * (1 / W) *
    ((-((1 + (-C)) * c)) + ((k + (-2 * (-(k - h ^ 2)))) * S * y)) * h - ((k - h ^ 2) * y) * h * S

/-- A term of the second order map. -/
def g424 (h k W K2 s C S c y : ℝ) : ℝ :=
    2 * (1 / W) * ((-(-(k - h ^ 2) / (h * h))) + ((1 / ((h ^ 3))) * K2)) * ((h ^ 3)) * ((c * S) + (-(C * y)) + (-2 *
    (1 / h) * (-(k - h ^ 2)) * (h * (1 - C) / k) * y)) + (1 / W) * (((k + (-2 * (-(k - h ^ 2)))) * c * S) + (-((-(k
    - h ^ 2)) * (1 + C) * y))) * h - h * S * c

/-- A term of the second order map. -/
def g436 (h k W K2 s C S c y : ℝ) : ℝ :=
    -(((h ^ 2)) * (-(k - h ^ 2)) * (1 / W) * ((c * S) + (-(C * y)) + (-2 * (1 / h) * (-(k - h ^ 2)) * (h * (1 - C) /
    k) * y))) - ((k - h ^ 2) * y) * (h * (1 - C) / k) * h + ((-(k - h ^ 2)) * (c * s + y)) / 2 + 2 * ((h ^ 4)) * (1
    / k) * ((-(-(k - h ^ 2) / (h * h))) + ((1 / ((h ^ 3))) * K2)) * ((c * s) / 2 + y / 2 + (1 / W) * (-((k + (-2 *
    (-(k - h ^ 2)))) * c * S) + (-(k - h ^ 2)) * (1 + C) * y))

/-- A term of the second order map. -/
def g446 (h k W K2 s C S c y : ℝ) : ℝ :=
    (((-(k - h ^ 2)) * s * y) / 2) + 2 * ((h ^ 4)) * (1 / k) * ((-(-(k - h ^ 2) / (h * h))) + ((1 / ((h ^ 3))) *
    K2)) * (((s * y) / 2) - (1 / W) * ((-((1 + (-C)) * c)) + ((k + (-2 * (-(k - h ^ 2)))) * S * y))) + ((h ^ 2)) *
    (((1 / k) * c) + ((1 / W) * ((-(C * c)) + (2 * (1 / k) * (-(k - h ^ 2)) * (1 + C) * c) + (-((-(k - h ^ 2)) * S *
    y))))) - (h * (1 - C) / k) * h * c

section

variable {h k W K2 : ℝ} (hh : h ≠ 0) (hk : k ≠ 0) (hW : W = 5 * k - 4 * h ^ 2) (hW0 : W ≠ 0) (hK : k - h ^ 2 ≠ 0)
  {C S c y : ℝ → ℝ} {s : ℝ} (hC : HasDerivAt (fun s => C s) (-k * S s) s) (hS : HasDerivAt (fun s => S s) (C s) s)
  (hc : HasDerivAt (fun s => c s) ((k - h ^ 2) * y s) s) (hy : HasDerivAt (fun s => y s) (c s) s)
  (e1 : C s ^ 2 + k * S s ^ 2 = 1) (e2 : c s ^ 2 + -(k - h ^ 2) * y s ^ 2 = 1)
include hh hk hW hW0 hK hC hS hc hy e1 e2

theorem d111 : HasDerivAt (fun s => g111 h k W K2 s (C s) (S s) (c s) (y s))
    (g211 h k W K2 s (C s) (S s) (c s) (y s) + (h) * ((C s) * (-k * (S s)))) s := by
  simp only [g111, g211]
  refine HasDerivAt.congr_deriv (by ader) ?_
  push_cast
  generalize C s = C at *
  generalize S s = S at *
  generalize c s = c at *
  generalize y s = y at *
  field_simp
  grind

theorem d112 : HasDerivAt (fun s => g112 h k W K2 s (C s) (S s) (c s) (y s))
    (g212 h k W K2 s (C s) (S s) (c s) (y s) + (h) * ((C s) * (C s) + (S s) * (-k * (S s))) - h * C s) s := by
  simp only [g112, g212]
  refine HasDerivAt.congr_deriv (by ader) ?_
  push_cast
  generalize C s = C at *
  generalize S s = S at *
  generalize c s = c at *
  generalize y s = y at *
  field_simp
  grind

theorem d116 : HasDerivAt (fun s => g116 h k W K2 s (C s) (S s) (c s) (y s))
    (g216 h k W K2 s (C s) (S s) (c s) (y s) + (h) * ((C s) * (h * (S s)) + (h * (1 - (C s)) / k) * (-k * (S s)))) s := by
  simp only [g116, g216]
  refine HasDerivAt.congr_deriv (by ader) ?_
  push_cast
  generalize C s = C at *
  generalize S s = S at *
  generalize c s = c at *
  generalize y s = y at *
  field_simp
  grind

theorem d122 : HasDerivAt (fun s => g122 h k W K2 s (C s) (S s) (c s) (y s))
    (g222 h k W K2 s (C s) (S s) (c s) (y s) + (h) * ((S s) * (C s))) s := by
  simp only [g122, g222]
  refine HasDerivAt.congr_deriv (by ader) ?_
  push_cast
  generalize C s = C at *
  generalize S s = S at *
  generalize c s = c at *
  generalize y s = y at *
  field_simp
  grind

theorem d126 : HasDerivAt (fun s => g126 h k W K2 s (C s) (S s) (c s) (y s))
    (g226 h k W K2 s (C s) (S s) (c s) (y s) + (h) * ((S s) * (h * (S s)) + (h * (1 - (C s)) / k) * (C s))) s := by
  simp only [g126, g226]
  refine HasDerivAt.congr_deriv (by ader) ?_
  push_cast
  generalize C s = C at *
  generalize S s = S at *
  generalize c s = c at *
  generalize y s = y at *
  field_simp
  grind

theorem d166 : HasDerivAt (fun s => g166 h k W K2 s (C s) (S s) (c s) (y s))
    (g266 h k W K2 s (C s) (S s) (c s) (y s) + (h) * ((h * (1 - (C s)) / k) * (h * (S s)))) s := by
  simp only [g166, g266]
  refine HasDerivAt.congr_deriv (by ader) ?_
  push_cast
  generalize C s = C at *
  generalize S s = S at *
  generalize c s = c at *
  generalize y s = y at *
  field_simp
  grind

theorem d133 : HasDerivAt (fun s => g133 h k W K2 s (C s) (S s) (c s) (y s))
    (g233 h k W K2 s (C s) (S s) (c s) (y s)) s := by
  simp only [g133, g233]
  refine HasDerivAt.congr_deriv (by ader) ?_
  push_cast
  generalize C s = C at *
  generalize S s = S at *
  generalize c s = c at *
  generalize y s = y at *
  field_simp
  grind

theorem d134 : HasDerivAt (fun s => g134 h k W K2 s (C s) (S s) (c s) (y s))
    (g234 h k W K2 s (C s) (S s) (c s) (y s)) s := by
  simp only [g134, g234]
  refine HasDerivAt.congr_deriv (by ader) ?_
  push_cast
  generalize C s = C at *
  generalize S s = S at *
  generalize c s = c at *
  generalize y s = y at *
  field_simp
  grind

theorem d144 : HasDerivAt (fun s => g144 h k W K2 s (C s) (S s) (c s) (y s))
    (g244 h k W K2 s (C s) (S s) (c s) (y s)) s := by
  simp only [g144, g244]
  refine HasDerivAt.congr_deriv (by ader) ?_
  push_cast
  generalize C s = C at *
  generalize S s = S at *
  generalize c s = c at *
  generalize y s = y at *
  field_simp
  grind

theorem d211 : HasDerivAt (fun s => g211 h k W K2 s (C s) (S s) (c s) (y s))
    (-k * g111 h k W K2 s (C s) (S s) (c s) (y s) + (-h / 2) * ((-k * (S s)) * (-k * (S s))) + (-(K2 + h * (k - h ^
    2))) * ((C s) * (C s))) s := by
  simp only [g211, g111]
  refine HasDerivAt.congr_deriv (by ader) ?_
  push_cast
  generalize C s = C at *
  generalize S s = S at *
  generalize c s = c at *
  generalize y s = y at *
  field_simp
  grind

theorem d212 : HasDerivAt (fun s => g212 h k W K2 s (C s) (S s) (c s) (y s))
    (-k * g112 h k W K2 s (C s) (S s) (c s) (y s) + (-h / 2) * ((-k * (S s)) * (C s) + (C s) * (-k * (S s))) + (-(K2
    + h * (k - h ^ 2))) * ((C s) * (S s) + (S s) * (C s)) - k * (h * S s)) s := by
  simp only [g212, g112]
  refine HasDerivAt.congr_deriv (by ader) ?_
  push_cast
  generalize C s = C at *
  generalize S s = S at *
  generalize c s = c at *
  generalize y s = y at *
  field_simp
  grind

theorem d216 : HasDerivAt (fun s => g216 h k W K2 s (C s) (S s) (c s) (y s))
    (-k * g116 h k W K2 s (C s) (S s) (c s) (y s) + (-h / 2) * ((-k * (S s)) * (h * (S s)) + (h * (S s)) * (-k * (S
    s))) + (-(K2 + h * (k - h ^ 2))) * ((C s) * (h * (1 - (C s)) / k) + (h * (1 - (C s)) / k) * (C s)) + (k) * ((C
    s) * 1)) s := by
  simp only [g216, g116]
  refine HasDerivAt.congr_deriv (by ader) ?_
  push_cast
  generalize C s = C at *
  generalize S s = S at *
  generalize c s = c at *
  generalize y s = y at *
  field_simp
  grind

theorem d222 : HasDerivAt (fun s => g222 h k W K2 s (C s) (S s) (c s) (y s))
    (-k * g122 h k W K2 s (C s) (S s) (c s) (y s) + (-h / 2) * ((C s) * (C s)) + (-(K2 + h * (k - h ^ 2))) * ((S s) *
    (S s))) s := by
  simp only [g222, g122]
  refine HasDerivAt.congr_deriv (by ader) ?_
  push_cast
  generalize C s = C at *
  generalize S s = S at *
  generalize c s = c at *
  generalize y s = y at *
  field_simp
  grind

theorem d226 : HasDerivAt (fun s => g226 h k W K2 s (C s) (S s) (c s) (y s))
    (-k * g126 h k W K2 s (C s) (S s) (c s) (y s) + (-h / 2) * ((C s) * (h * (S s)) + (h * (S s)) * (C s)) + (-(K2 +
    h * (k - h ^ 2))) * ((S s) * (h * (1 - (C s)) / k) + (h * (1 - (C s)) / k) * (S s)) + (k) * ((S s) * 1)) s := by
  simp only [g226, g126]
  refine HasDerivAt.congr_deriv (by ader) ?_
  push_cast
  generalize C s = C at *
  generalize S s = S at *
  generalize c s = c at *
  generalize y s = y at *
  field_simp
  grind

theorem d266 : HasDerivAt (fun s => g266 h k W K2 s (C s) (S s) (c s) (y s))
    (-k * g166 h k W K2 s (C s) (S s) (c s) (y s) + (-h / 2) * ((h * (S s)) * (h * (S s))) + (-(K2 + h * (k - h ^
    2))) * ((h * (1 - (C s)) / k) * (h * (1 - (C s)) / k)) + (k) * ((h * (1 - (C s)) / k) * 1) + (-h) * (1 * 1)) s := by
  simp only [g266, g166]
  refine HasDerivAt.congr_deriv (by ader) ?_
  push_cast
  generalize C s = C at *
  generalize S s = S at *
  generalize c s = c at *
  generalize y s = y at *
  field_simp
  grind

theorem d233 : HasDerivAt (fun s => g233 h k W K2 s (C s) (S s) (c s) (y s))
    (-k * g133 h k W K2 s (C s) (S s) (c s) (y s) + (-h / 2) * (((k - h ^ 2) * (y s)) * ((k - h ^ 2) * (y s))) + ((h
    * (k - h ^ 2) + 2 * K2) / 2) * ((c s) * (c s))) s := by
  simp only [g233, g133]
  refine HasDerivAt.congr_deriv (by ader) ?_
  push_cast
  generalize C s = C at *
  generalize S s = S at *
  generalize c s = c at *
  generalize y s = y at *
  field_simp
  grind

theorem d234 : HasDerivAt (fun s => g234 h k W K2 s (C s) (S s) (c s) (y s))
    (-k * g134 h k W K2 s (C s) (S s) (c s) (y s) + (-h / 2) * (((k - h ^ 2) * (y s)) * (c s) + (c s) * ((k - h ^ 2)
    * (y s))) + ((h * (k - h ^ 2) + 2 * K2) / 2) * ((c s) * (y s) + (y s) * (c s))) s := by
  simp only [g234, g134]
  refine HasDerivAt.congr_deriv (by ader) ?_
  push_cast
  generalize C s = C at *
  generalize S s = S at *
  generalize c s = c at *
  generalize y s = y at *
  field_simp
  grind

theorem d244 : HasDerivAt (fun s => g244 h k W K2 s (C s) (S s) (c s) (y s))
    (-k * g144 h k W K2 s (C s) (S s) (c s) (y s) + (-h / 2) * ((c s) * (c s)) + ((h * (k - h ^ 2) + 2 * K2) / 2) *
    ((y s) * (y s))) s := by
  simp only [g244, g144]
  refine HasDerivAt.congr_deriv (by ader) ?_
  push_cast
  generalize C s = C at *
  generalize S s = S at *
  generalize c s = c at *
  generalize y s = y at *
  field_simp
  grind

theorem d313 : HasDerivAt (fun s => g313 h k W K2 s (C s) (S s) (c s) (y s))
    (g413 h k W K2 s (C s) (S s) (c s) (y s) + (h) * ((C s) * ((k - h ^ 2) * (y s)))) s := by
  simp only [g313, g413]
  refine HasDerivAt.congr_deriv (by ader) ?_
  push_cast
  generalize C s = C at *
  generalize S s = S at *
  generalize c s = c at *
  generalize y s = y at *
  field_simp
  grind

theorem d314 : HasDerivAt (fun s => g314 h k W K2 s (C s) (S s) (c s) (y s))
    (g414 h k W K2 s (C s) (S s) (c s) (y s) + (h) * ((C s) * (c s))) s := by
  simp only [g314, g414]
  refine HasDerivAt.congr_deriv (by ader) ?_
  push_cast
  generalize C s = C at *
  generalize S s = S at *
  generalize c s = c at *
  generalize y s = y at *
  field_simp
  grind

theorem d323 : HasDerivAt (fun s => g323 h k W K2 s (C s) (S s) (c s) (y s))
    (g423 h k W K2 s (C s) (S s) (c s) (y s) + (h) * ((S s) * ((k - h ^ 2) * (y s)))) s := by
  simp only [g323, g423]
  refine HasDerivAt.congr_deriv (by ader) ?_
  push_cast
  generalize C s = C at *
  generalize S s = S at *
  generalize c s = c at *
  generalize y s = y at *
  field_simp
  grind

theorem d324 : HasDerivAt (fun s => g324 h k W K2 s (C s) (S s) (c s) (y s))
    (g424 h k W K2 s (C s) (S s) (c s) (y s) + (h) * ((S s) * (c s))) s := by
  simp only [g324, g424]
  refine HasDerivAt.congr_deriv (by ader) ?_
  push_cast
  generalize C s = C at *
  generalize S s = S at *
  generalize c s = c at *
  generalize y s = y at *
  field_simp
  grind

theorem d336 : HasDerivAt (fun s => g336 h k W K2 s (C s) (S s) (c s) (y s))
    (g436 h k W K2 s (C s) (S s) (c s) (y s) + (h) * ((h * (1 - (C s)) / k) * ((k - h ^ 2) * (y s)))) s := by
  simp only [g336, g436]
  refine HasDerivAt.congr_deriv (by ader) ?_
  push_cast
  generalize C s = C at *
  generalize S s = S at *
  generalize c s = c at *
  generalize y s = y at *
  field_simp
  grind

theorem d346 : HasDerivAt (fun s => g346 h k W K2 s (C s) (S s) (c s) (y s))
    (g446 h k W K2 s (C s) (S s) (c s) (y s) + (h) * ((h * (1 - (C s)) / k) * (c s))) s := by
  simp only [g346, g446]
  refine HasDerivAt.congr_deriv (by ader) ?_
  push_cast
  generalize C s = C at *
  generalize S s = S at *
  generalize c s = c at *
  generalize y s = y at *
  field_simp
  grind

theorem d413 : HasDerivAt (fun s => g413 h k W K2 s (C s) (S s) (c s) (y s))
    ((k - h ^ 2) * g313 h k W K2 s (C s) (S s) (c s) (y s) + (2 * K2 + h * (k - h ^ 2)) * ((C s) * (c s))) s := by
  simp only [g413, g313]
  refine HasDerivAt.congr_deriv (by ader) ?_
  push_cast
  generalize C s = C at *
  generalize S s = S at *
  generalize c s = c at *
  generalize y s = y at *
  field_simp
  grind

theorem d414 : HasDerivAt (fun s => g414 h k W K2 s (C s) (S s) (c s) (y s))
    ((k - h ^ 2) * g314 h k W K2 s (C s) (S s) (c s) (y s) + (2 * K2 + h * (k - h ^ 2)) * ((C s) * (y s))) s := by
  simp only [g414, g314]
  refine HasDerivAt.congr_deriv (by ader) ?_
  push_cast
  generalize C s = C at *
  generalize S s = S at *
  generalize c s = c at *
  generalize y s = y at *
  field_simp
  grind

theorem d423 : HasDerivAt (fun s => g423 h k W K2 s (C s) (S s) (c s) (y s))
    ((k - h ^ 2) * g323 h k W K2 s (C s) (S s) (c s) (y s) + (2 * K2 + h * (k - h ^ 2)) * ((S s) * (c s))) s := by
  simp only [g423, g323]
  refine HasDerivAt.congr_deriv (by ader) ?_
  push_cast
  generalize C s = C at *
  generalize S s = S at *
  generalize c s = c at *
  generalize y s = y at *
  field_simp
  grind

theorem d424 : HasDerivAt (fun s => g424 h k W K2 s (C s) (S s) (c s) (y s))
    ((k - h ^ 2) * g324 h k W K2 s (C s) (S s) (c s) (y s) + (2 * K2 + h * (k - h ^ 2)) * ((S s) * (y s))) s := by
  simp only [g424, g324]
  refine HasDerivAt.congr_deriv (by ader) ?_
  push_cast
  generalize C s = C at *
  generalize S s = S at *
  generalize c s = c at *
  generalize y s = y at *
  field_simp
  grind

theorem d436 : HasDerivAt (fun s => g436 h k W K2 s (C s) (S s) (c s) (y s))
    ((k - h ^ 2) * g336 h k W K2 s (C s) (S s) (c s) (y s) + (2 * K2 + h * (k - h ^ 2)) * ((h * (1 - (C s)) / k) * (c
    s)) + (-(k - h ^ 2)) * ((c s) * 1)) s := by
  simp only [g436, g336]
  refine HasDerivAt.congr_deriv (by ader) ?_
  push_cast
  generalize C s = C at *
  generalize S s = S at *
  generalize c s = c at *
  generalize y s = y at *
  field_simp
  grind

theorem d446 : HasDerivAt (fun s => g446 h k W K2 s (C s) (S s) (c s) (y s))
    ((k - h ^ 2) * g346 h k W K2 s (C s) (S s) (c s) (y s) + (2 * K2 + h * (k - h ^ 2)) * ((h * (1 - (C s)) / k) * (y
    s)) + (-(k - h ^ 2)) * ((y s) * 1)) s := by
  simp only [g446, g346]
  refine HasDerivAt.congr_deriv (by ader) ?_
  push_cast
  generalize C s = C at *
  generalize S s = S at *
  generalize c s = c at *
  generalize y s = y at *
  field_simp
  grind

end

end

end Verif.TransportMaps
