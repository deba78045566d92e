import Verif.Photon.Model
import Mathlib.RingTheory.Polynomial.Chebyshev

/-! Specification: Chebyshev series, and the approximations of the spectrum. -/

namespace Verif.Photon.Spec
open Verif.Photon Real

/-- A Chebyshev series; the first coefficient belongs to the constant. -/
noncomputable def series (cs : List ℝ) (t : ℝ) : ℝ :=
  (cs.zipIdx.map fun c => c.1 * (Polynomial.Chebyshev.T ℝ (c.2 : ℤ)).eval t).sum

/-- The coefficients of the first function for low energies. -/
def pCoeffs : List ℝ :=
  [414.56543648832546975110, 644.86979658236221700714, 308.15919413131586030542, 92.95232665922707542088,
   18.65250896865416256398, 2.61902183794862213818, 0.26880346058164526514, 0.02091216799114667278,
   0.00127066381953661690, 0.00006181256113829740, 0.00000245751373955212, 0.00000008125130371644,
   0.00000000226722011790, 0.00000000005407460944, 0.00000000000111455474, 0.00000000000002004426,
   0.00000000000000031738, 0.00000000000000000460, 0.00000000000000000012]

/-- The coefficients of the second function for low energies. -/
def qCoeffs : List ℝ :=
  [28.41787374362784178164, 41.83903486779678800040, 17.05540785795221885751, 4.26780261265492264837,
   0.71031361199218887514, 0.08357935463720537773, 0.00728456195503504923, 0.00048768692916240683,
   0.00002581451439721298, 0.00000110599584794379, 0.00000003910314748244, 0.00000000115951672806,
   0.00000000002923635681, 0.00000000000063427729, 0.00000000000001196168, 0.00000000000000019786,
   0.00000000000000000289, 0.00000000000000000004]

/-- The coefficients for high energies. -/
def hCoeffs : List ℝ :=
  [1.06552390798340693166, 0.06239591359332750793, -0.00287636803664026799, 0.00022505317277986004,
   -0.00002321251614543524, 0.00000287536465397527, -0.00000040756144386809, 0.00000006418902302372,
   -0.00000001101482369622, 0.00000000203088939238, -0.00000000039817923621, 0.00000000008235329314,
   -0.00000000001785432348, 0.00000000000403683207, -0.00000000000094784973, 0.00000000000023030657,
   -0.00000000000005773537, 0.00000000000001489474, -0.00000000000000394564, 0.00000000000000107116,
   -0.00000000000000029752, 0.00000000000000008441, -0.00000000000000002443, 0.00000000000000000721,
   -0.00000000000000000216, 0.00000000000000000066, -0.00000000000000000020, 0.00000000000000000006,
   -0.00000000000000000002, 0.00000000000000000001]

/-- The approximation of the spectrum: a power below energy one, an exponential above. -/
noncomputable def approx (a1 a2 x : ℝ) : ℝ := if x ≤ 1 then a1 * x ^ (-2 / 3 : ℝ) else a2 * exp (-x)

end Verif.Photon.Spec
