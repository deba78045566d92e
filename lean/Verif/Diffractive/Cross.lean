import Mathlib.Analysis.SpecialFunctions.Pow.Real
import Mathlib.Analysis.SpecialFunctions.Sqrt

/-!
# Model of the differential cross section of single diffraction

`PomeronScatter`, Merlin++/DiffractiveScatter.cpp 346-565.  Doubles are real numbers.  The three ranges of t repeat the same terms, except for that
of three pomerons; the common terms are written once here.
-/

namespace Verif.Diffractive
open Real

/-- `Mmin2` (DiffractiveScatter.cpp 351-353). -/
noncomputable def mmin2 : ℝ := (938272013 / 1000000000 + 1349766 / 10000000) ^ 2

/-- `Mmin2bar` (DiffractiveScatter.cpp 373). -/
noncomputable def mmin2bar : ℝ := (938272013 / 1000000000 - 1349766 / 10000000) ^ 2

/-- `ml01` to `ml04` (DiffractiveScatter.cpp 354-357). -/
noncomputable def ml (l : Nat) : ℝ := match l with | 0 => 144 / 100 | 1 => 152 / 100 | 2 => 168 / 100 | _ => 219 / 100

/-- `GammaL1` to `GammaL4` (DiffractiveScatter.cpp 358-361). -/
noncomputable def gam (l : Nat) : ℝ := match l with | 0 => 325 / 1000 | 1 => 13 / 100 | 2 => 14 / 100 | _ => 45 / 100

/-- `cl01` to `cl04` (DiffractiveScatter.cpp 362-365). -/
noncomputable def cl (l : Nat) : ℝ := match l with | 0 => 307 / 100 | 1 => 4149 / 10000 | 2 => 1108 / 1000 | _ => 9515 / 10000

/-- `Mcut` (DiffractiveScatter.cpp 366-370): compares the member `ss`. -/
noncomputable def mcut (ss s : ℝ) : ℝ := open Classical in if ss > 4000 then 3 + 6 / 10 * log (s / 4000) else 3

/-- `xi_c` (DiffractiveScatter.cpp 371). -/
noncomputable def xiC (ss s : ℝ) : ℝ := mcut ss s ^ 2 / s

/-- `xi_th` (DiffractiveScatter.cpp 372). -/
noncomputable def xiTh (s : ℝ) : ℝ := mmin2 / s

/-- `q` as a function of the square of the mass, and so `ql1` to `ql4` (DiffractiveScatter.cpp 400-404). -/
noncomputable def momentum (m2 : ℝ) : ℝ := √((m2 - mmin2) * (m2 - mmin2bar) / (4 * m2))

/-- `gammaL01` to `gammaL04` (DiffractiveScatter.cpp 406-409). -/
noncomputable def gammaL (l : Nat) (m2 : ℝ) : ℝ :=
  gam l * (momentum m2 / momentum (ml l ^ 2)) ^ (2 * l + 3) * ((1 + 5 * momentum (ml l ^ 2)) / (1 + 5 * momentum m2)) ^ (l + 1)

/-- One resonance at `y` with the width `g` (DiffractiveScatter.cpp 411-414, 417-422). -/
noncomputable def resonance (l : Nat) (s y g : ℝ) : ℝ := (cl l / y) * (ml l * g) / ((y * s - ml l ^ 2) ^ 2 + (ml l * g) ^ 2)

/-- `R` (DiffractiveScatter.cpp 411-415). -/
noncomputable def R (t s x : ℝ) : ℝ :=
  (resonance 0 s x (gammaL 0 (x * s)) + resonance 1 s x (gammaL 1 (x * s)) + resonance 2 s x (gammaL 2 (x * s)) + resonance 3 s x (gammaL 3 (x * s)))
    * exp (135 / 10 * (t + 5 / 100))

/-- `BRMatch` (DiffractiveScatter.cpp 417-422): the widths are those at x. -/
noncomputable def brMatch (t ss s x : ℝ) : ℝ :=
  -(resonance 0 s (xiC ss s) (gammaL 0 (x * s)) + resonance 1 s (xiC ss s) (gammaL 1 (x * s)) + resonance 2 s (xiC ss s) (gammaL 2 (x * s))
    + resonance 3 s (xiC ss s) (gammaL 3 (x * s))) * exp (135 / 10 * (t + 5 / 100)) * (x - xiTh s) / (xiC ss s - xiTh s)

/-- The coefficient of three pomerons in the ranges of t (DiffractiveScatter.cpp 424-428, 460, 470-475, 506, 520-522, 554-555). -/
noncomputable def ppp (t : ℝ) : ℝ :=
  open Classical in
  if t > -(25 / 100) then 4 / 10 + 1 / 2 * t
  else if t > -(115 / 100) then (624529 / 1000000 * exp (25835 / 10000 * t) + 0) * (t / (t - 5 / 100))
  else (624529 / 1000000 * exp (25835 / 10000 * t) + 0) * (t / (t - 5 / 100))
    * (1 + 4597 / 10000 * (|t| - 115 / 100) + 57575 / 10000 * (|t| - 115 / 100) ^ 2)

/-- The other coefficients (DiffractiveScatter.cpp 379-398, 429-431). -/
noncomputable def ppr (t : ℝ) : ℝ := 309088 / 100000 * exp (451487 / 100000 * t) + 186211 / 1000000
noncomputable def rrp (t : ℝ) : ℝ := 4 * exp (303392 / 100000 * t) + 10
noncomputable def rrr (t : ℝ) : ℝ := 177217 / 1000 * exp (586474 / 100000 * t) + 210029 / 10000

/-- The factor of the pion term that does not depend on x (DiffractiveScatter.cpp 432-434). -/
noncomputable def pion (t : ℝ) : ℝ :=
  114591559 / 100000000 * (352142 / 100000 - 279 / 100 * t) ^ 2 * |t| * ((1 - 140845 / 100000 * t) ^ 4)⁻¹ * ((352142 / 100000 - t) ^ 2)⁻¹
    * ((-(182185 / 10000000) + t) ^ 2)⁻¹

/-- The cross section at high mass, and `Axi_c` (DiffractiveScatter.cpp 428-434, 460-466, 474-481, 506-512, 520-528, 554-561). -/
noncomputable def high (t s x : ℝ) : ℝ :=
  ppp t * s ^ (8 / 100 : ℝ) * x ^ (-(108 / 100) - 1 / 2 * t)
    + ppr t * s ^ (-(4525 / 10000) : ℝ) * x ^ (-(16125 / 10000) - 1 / 2 * t)
    + rrp t * s ^ (8 / 100 : ℝ) * x ^ (-(15 / 1000) - 186 / 100 * t)
    + rrr t * s ^ (-(4525 / 10000) : ℝ) * x ^ (-(5475 / 10000) - 186 / 100 * t)
    + pion t * x ^ (1 - 186 / 100 * (-(182185 / 10000000) + t))
      * (3179 / 100 * (s * x) ^ (-(4525 / 10000) : ℝ) + 1363 / 100 * (s * x) ^ (808 / 10000 : ℝ))

/-- `Aprimexi_c` (DiffractiveScatter.cpp 436-448, 483-496, 530-544). -/
noncomputable def slope (t s x : ℝ) : ℝ :=
  ppp t * s ^ (8 / 100 : ℝ) * (-(108 / 100) - 1 / 2 * t) * x ^ (-(208 / 100) - 1 / 2 * t)
    + ppr t * s ^ (-(4525 / 10000) : ℝ) * (-(16125 / 10000) - 1 / 2 * t) * x ^ (-(26125 / 10000) - 1 / 2 * t)
    + rrp t * s ^ (8 / 100 : ℝ) * (-(15 / 1000) - 186 / 100 * t) * x ^ (-(1015 / 1000) - 186 / 100 * t)
    + rrr t * s ^ (-(4525 / 10000) : ℝ) * (-(5475 / 10000) - 186 / 100 * t) * x ^ (-(15475 / 10000) - 186 / 100 * t)
    + pion t
      * ((1 - 186 / 100 * (-(182185 / 10000000) + t)) * x ^ (-(186 / 100) * (-(182185 / 10000000) + t))
          * (3179 / 100 * (s * x) ^ (-(4525 / 10000) : ℝ) + 1363 / 100 * (s * x) ^ (808 / 10000 : ℝ))
        + x ^ (1 - 186 / 100 * (-(182185 / 10000000) + t))
          * (3179 / 100 * (-(4525 / 10000)) * (s * x) ^ (-(14525 / 10000) : ℝ) + 1363 / 100 * (808 / 10000) * (s * x) ^ (808 / 10000 - 1 : ℝ)))

/-- `d`, `e` and `B` (DiffractiveScatter.cpp 450-453, 498-501, 546-549). -/
noncomputable def background (t ss s x : ℝ) : ℝ :=
  let w := xiC ss s - xiTh s
  let d := (w * slope t s (xiC ss s) - high t s (xiC ss s)) / w ^ 2
  let e := slope t s (xiC ss s) - 2 * (w * slope t s (xiC ss s) - high t s (xiC ss s)) / w
  d * (x - xiTh s) ^ 2 + e * (x - xiTh s)

/-- `PomeronScatter` (DiffractiveScatter.cpp 346-565). -/
noncomputable def cross (ss tt x s : ℝ) : ℝ :=
  open Classical in
  let t := -tt
  if x ≤ xiTh s then 0
  else if x > xiTh s ∧ x ≤ xiC ss s then background t ss s x + R t s x + brMatch t ss s x
  else high t s x

end Verif.Diffractive
