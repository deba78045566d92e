import Mathlib.Analysis.SpecialFunctions.Complex.Log
import Mathlib.Analysis.SpecialFunctions.Pow.Real
import Mathlib.Analysis.SpecialFunctions.Trigonometric.Basic

/-!
# Model of the amplitudes of elastic scattering

Merlin++/ElasticScatter.cpp 27-35, 141-152 and 325-611.  Doubles are real numbers.  The global parameters have the values set by
`GenerateDsigDt` and, for the slopes `apr0` and `apr1`, by `PomeronScatter`.  The exchanges are numbered: 0 hard pomeron, 1 pomeron, 2 and 3 the
trajectories of even and odd charge.
-/

namespace Verif.Elastic
open Real

/-- `Q` (ElasticScatter.cpp 27). -/
noncomputable def Q (i : Nat) : ℝ := match i with | 0 => 26 / 100 | 1 => 56 / 100 | _ => 18 / 100

/-- `q` (ElasticScatter.cpp 28). -/
noncomputable def q (i : Nat) : ℝ := match i with | 0 => 838 / 100 | 1 => 378 / 100 | _ => 136 / 100

/-- `eps0` to `eps3` (ElasticScatter.cpp 141-144). -/
noncomputable def eps (u : Nat) : ℝ := match u with | 0 => 106231 / 1000000 | 1 => 972043 / 10000000 | 2 => -(510662 / 1000000) | _ => -(302082 / 1000000)

/-- `X0` to `X3` (ElasticScatter.cpp 145-148). -/
noncomputable def X (u : Nat) : ℝ := match u with | 0 => 228359 / 1000 | 1 => 193811 / 1000 | 2 => 518686 / 1000 | _ => 107843 / 10000

/-- `apr0` to `apr3` (ElasticScatter.cpp 33, 151-152, 327-328). -/
noncomputable def apr (u : Nat) : ℝ := match u with | 0 => 278037 / 1000000 | 1 => 449029 / 10000000 | 2 => 821595 / 1000000 | _ => 904556 / 1000000

/-- `lambda` (ElasticScatter.cpp 149). -/
noncomputable def lam : ℝ := 521223 / 1000000

/-- `t0 for ggg` (ElasticScatter.cpp 150). -/
noncomputable def t0 : ℝ := 502965 / 100000

/-- `F1` (ElasticScatter.cpp 379-387). -/
noncomputable def F1 (tt : ℝ) : ℝ := (List.range 3).foldl (fun S i => S + Q i * exp (-q i * tt)) 0

/-- `a0` to `a3` (ElasticScatter.cpp 392-419). -/
noncomputable def traj (u : Nat) (tt : ℝ) : ℝ := 1 + eps u - apr u * tt

/-- `hardpomre`, `pomre` and `plusre` (ElasticScatter.cpp 421-444). -/
noncomputable def evenRe (u : Nat) (tnu tt : ℝ) : ℝ := -X u * F1 tt * cos (1 / 2 * π * traj u tt) * (tnu * apr u) ^ traj u tt

/-- `hardpomim`, `pomim` and `plusim` (ElasticScatter.cpp 426-449). -/
noncomputable def evenIm (u : Nat) (tnu tt : ℝ) : ℝ := X u * F1 tt * sin (1 / 2 * π * traj u tt) * (tnu * apr u) ^ traj u tt

/-- `minusre` (ElasticScatter.cpp 451-454). -/
noncomputable def minusRe (tnu tt : ℝ) : ℝ := -X 3 * F1 tt * sin (1 / 2 * π * traj 3 tt) * (tnu * apr 3) ^ traj 3 tt

/-- `minusim` (ElasticScatter.cpp 456-459). -/
noncomputable def minusIm (tnu tt : ℝ) : ℝ := -X 3 * F1 tt * cos (1 / 2 * π * traj 3 tt) * (tnu * apr 3) ^ traj 3 tt

/-- `L[u]` (ElasticScatter.cpp 474). -/
noncomputable def L (tnu : ℝ) (u : Nat) : ℂ := ⟨apr u * log (apr u * tnu), -(1 / 2) * apr u * π⟩

/-- `LL[u]` (ElasticScatter.cpp 475). -/
noncomputable def LL (tnu : ℝ) (u : Nat) : ℂ := (((1 + eps u) / apr u : ℝ) : ℂ) * L tnu u

/-- `D[u][i]` (ElasticScatter.cpp 476-479). -/
noncomputable def D (tnu : ℝ) (u i : Nat) : ℂ := ((q i : ℝ) : ℂ) + L tnu u

/-- The body of the loops with the couplings `x` (ElasticScatter.cpp 489-509). -/
noncomputable def term (x : Nat → ℝ) (tnu tt : ℝ) (u v i j : Nat) : ℂ :=
  let U := D tnu u i * D tnu v j
  let V := D tnu u i + D tnu v j
  let W := Complex.exp (U / V * ((-tt : ℝ) : ℂ))
  let Z := ((Q i * Q j : ℝ) : ℂ) / V * W
  let T := x u * x v / (16 * π * tnu)
  let Z := Z * (T : ℂ) * Complex.exp (LL tnu u + LL tnu v)
  let Z := if u = 3 then Z * Complex.I else Z
  if v = 3 then Z * Complex.I else Z

/-- The four loops around an assignment `S = f S Z`. -/
noncomputable def loops (f : ℂ → ℂ → ℂ) (z : Nat → Nat → Nat → Nat → ℂ) : ℂ :=
  (List.range 4).foldl (fun S u => (List.range 4).foldl (fun S v => (List.range 3).foldl (fun S i => (List.range 3).foldl (fun S j => f S (z u v i j)) S) S) S) 0

/-- `twopom` (ElasticScatter.cpp 461-517). -/
noncomputable def twopom (tnu tt : ℝ) : ℂ := loops (· + ·) (term X tnu tt) * Complex.I

/-- The couplings of `twopombar` (ElasticScatter.cpp 523). -/
noncomputable def Xbar (u : Nat) : ℝ := if u = 3 then -X 3 else X u

/-- `twopombar` (ElasticScatter.cpp 519-575): the sum is multiplied (568). -/
noncomputable def twopombar (tnu tt : ℝ) : ℂ := loops (· * ·) (term Xbar tnu tt) * Complex.I

/-- `ggg` (ElasticScatter.cpp 600-611). -/
noncomputable def ggg (tt : ℝ) : ℝ :=
  open Classical in
  let CCC := √(9 / 100 * 16 * π / (389 / 1000))
  if tt > t0 then CCC / tt ^ 4 else CCC * exp (4 - 4 * tt / t0) / t0 ^ 4

/-- `tnu` (ElasticScatter.cpp 329-333). -/
noncomputable def tnuOf (tt sqrts : ℝ) : ℝ := sqrts * sqrts - (93827203 / 100000000) * (93827203 / 100000000) - (93827203 / 100000000) * (93827203 / 100000000) - 1 / 2 * tt

/-- `real` before the factor (ElasticScatter.cpp 354-355). -/
noncomputable def re0 (tnu tt : ℝ) : ℝ :=
  (evenRe 0 tnu tt + evenRe 1 tnu tt + evenRe 2 tnu tt + minusRe tnu tt + lam * (twopom tnu tt).re) / tnu + ggg tt

/-- `imag` before the factor (ElasticScatter.cpp 356-357). -/
noncomputable def im0 (tnu tt : ℝ) : ℝ :=
  (evenIm 0 tnu tt + evenIm 1 tnu tt + evenIm 2 tnu tt + minusIm tnu tt + lam * (twopom tnu tt).im) / tnu

/-- `alpha` (ElasticScatter.cpp 341-345). -/
noncomputable def alphaOf (em : Bool) : ℝ := if em then 72973525376 / 10000000000000 else 0

/-- `bslope` (ElasticScatter.cpp 335-338, 349). -/
noncomputable def bslope (sqrts : ℝ) : ℝ := 85 / 10 + 1086 / 1000 * log sqrts

/-- `phi` (ElasticScatter.cpp 347-353). -/
noncomputable def phase (tt sqrts : ℝ) : ℝ :=
  -(577215664901532861 / 1000000000000000000 + log (tt * bslope sqrts / 2) + log (1 + 8 / (bslope sqrts * (71 / 100)))
    + ((4 * tt / (71 / 100)) * log ((4 * tt) / (71 / 100))) + (2 * tt / (71 / 100)))

/-- `PomeronScatter` (ElasticScatter.cpp 325-368).  A quotient by zero, for t zero or a vanishing imaginary part, is excluded in the theorems. -/
noncomputable def pomeron (em : Bool) (tt sqrts : ℝ) : ℝ :=
  let tnu := tnuOf tt sqrts
  let ac := -alphaOf em * F1 tt / tt
  let real := re0 tnu tt * √(1 / 4 * (389 / 1000))
  let imag := im0 tnu tt * √(1 / 4 * (389 / 1000))
  let rho := real / imag
  (4 * π ^ 2 * ac ^ 2 + real ^ 2 + imag ^ 2 + 2 * (rho + alphaOf em * phase tt sqrts) * 2 * π * ac * imag) / (4 * π) / 1000

end Verif.Elastic
