import Mathlib.Analysis.SpecialFunctions.Pow.Real
import Mathlib.Analysis.SpecialFunctions.Trigonometric.Basic
import Verif.Common.Outcome

/-!
# Model of scattering in a block of material

Source: `Merlin++/ScatterParticle.cpp` (and the same function in `CoulombScatter.h`), `Gamma.cpp`, `utils.h`.

Doubles are real numbers, decimal numbers of the source are exact.  Random numbers are arguments: `u` uniform in [0, 1], `z1` to `z4` standard normal.
Division by zero, the logarithm or root of a number for which there is none, and powers that follow from them are undefined here (the code goes on with
infinities or NaN).
-/

namespace Verif.Absorber

open Verif

/-- `p` and `sum` of `LogGamma` (Gamma.cpp 18-24). -/
noncomputable def lanczos (x : ℝ) : ℝ :=
  let z := x - 1
  0.99999999999980993 + 676.5203681218851 / (z + 1) + -1259.1392167224028 / (z + 2) + 771.32342877765313 / (z + 3) + -176.61502916214059 / (z + 4)
    + 12.507343278686905 / (z + 5) + -0.13857109526572012 / (z + 6) + 9.9843695780195716E-06 / (z + 7) + 1.5056327351493116E-7 / (z + 8)

/-- `LogGamma` (Gamma.cpp 11-28); `N` is 8. -/
noncomputable def logGamma (x : ℝ) : Outcome Empty ℝ :=
  let z := x - 1
  if (∃ i : Nat, i < 8 ∧ z + i + 1 = 0) ∨ z + 15 / 2 ≤ 0 ∨ lanczos x ≤ 0 then .ub
  else .ok (Real.log (√(2 * Real.pi)) + (z + 1 / 2) * Real.log (z + 15 / 2) - (z + 15 / 2) + Real.log (lanczos x))

/-- `Gamma` (utils.h 37-40). -/
noncomputable def gamma (x : ℝ) : Outcome Empty ℝ := (logGamma x).bind fun l => .ok (Real.exp l)

/-- `CoulombScatter` (ScatterParticle.cpp 25-36; CoulombScatter.h 18-34): displacement and angle. -/
noncomputable def coulomb (x theta0 z1 z2 : ℝ) : ℝ × ℝ :=
  let theta := z2 * theta0
  (z1 * x * theta0 / √12 + x * theta / 2, theta)

/-- The coordinates that are changed. -/
structure Part where
  x : ℝ
  xp : ℝ
  y : ℝ
  yp : ℝ
  dp : ℝ

/-- `MAXDP` (ScatterParticle.cpp 50). -/
noncomputable def maxdp : ℝ := 1 - 1 / 10000000

/-- The relative energy loss before the limit (ScatterParticle.cpp 55-63), `t1` the length and `g` the value of Gamma. -/
noncomputable def rawLoss (t1 g u : ℝ) : ℝ :=
  let t2 := 1 / 2 * ((t1 - 1) / (t1 + 1))
  let ga := (t1 * g) ^ (-1 / t1)
  let gn := u ^ (1 / t1) / ga
  gn - t2 * gn * gn + ga * (ga * (ga - 1) + t2) * gn * gn * gn

/-- The limit (ScatterParticle.cpp 64-67). -/
noncomputable def loss (t1 g u : ℝ) : ℝ := if rawLoss t1 g u > maxdp then maxdp else rawLoss t1 g u

/-- `theta0` (ScatterParticle.cpp 82). -/
noncomputable def angle (t Eav : ℝ) : ℝ := 136 / 10000 * √t * (1 + 38 / 1000 * Real.log t) / Eav

/-- `ScatterParticle` (ScatterParticle.cpp 48-91), with the function Gamma as an argument. -/
noncomputable def scatter (G : ℝ → Outcome Empty ℝ) (X0 x E0 u z1 z2 z3 z4 : ℝ) (p : Part) : Outcome Empty Part :=
  let t := x / X0
  let t1 := t / Real.log 2
  if X0 = 0 ∨ t ≤ 0 then .ub
  else (G t1).bind fun g =>
    let E1 := E0 * (1 + p.dp)
    let dp := p.dp - loss t1 g u * (1 + p.dp)
    let E2 := E0 * (1 + dp)
    let Eav := (E1 + E2) / 2
    if Eav = 0 then .ub
    else
      let theta0 := angle t Eav
      let s := coulomb x theta0 z1 z2
      let s' := coulomb x theta0 z3 z4
      .ok ⟨p.x + s.1, p.xp + s.2, p.y + s'.1, p.yp + s'.2, dp⟩

end Verif.Absorber
