import Verif.Common.Outcome
import Mathlib.Analysis.SpecialFunctions.Pow.Real
import Mathlib.Analysis.SpecialFunctions.Sqrt

/-!
# Photon energies

Model of Merlin++/PhotonSpectrumGen.cpp: the generators of photon energies in units of the critical energy.

Doubles are real numbers; infinity is a value of its own (`none`), and a comparison with "not a number" is false as in C++.
The random numbers of `Ran1` are given as a list, one draw after the other; when it is used up the loop is still running.
-/

namespace Verif.Photon

noncomputable section

open Real

/-- `p` for energies below six (PhotonSpectrumGen.cpp 140-160). -/
def pLow (z : ℝ) : ℝ :=
  let b : ℝ := 0.00000000000000000012
  let a : ℝ := z * b + 0.00000000000000000460
  let b : ℝ := z * a - b + 0.00000000000000031738
  let a : ℝ := z * b - a + 0.00000000000002004426
  let b : ℝ := z * a - b + 0.00000000000111455474
  let a : ℝ := z * b - a + 0.00000000005407460944
  let b : ℝ := z * a - b + 0.00000000226722011790
  let a : ℝ := z * b - a + 0.00000008125130371644
  let b : ℝ := z * a - b + 0.00000245751373955212
  let a : ℝ := z * b - a + 0.00006181256113829740
  let b : ℝ := z * a - b + 0.00127066381953661690
  let a : ℝ := z * b - a + 0.02091216799114667278
  let b : ℝ := z * a - b + 0.26880346058164526514
  let a : ℝ := z * b - a + 2.61902183794862213818
  let b : ℝ := z * a - b + 18.65250896865416256398
  let a : ℝ := z * b - a + 92.95232665922707542088
  let b : ℝ := z * a - b + 308.15919413131586030542
  let a : ℝ := z * b - a + 644.86979658236221700714
  0.5 * z * a - b + 414.56543648832546975110

/-- `q` for energies below six (PhotonSpectrumGen.cpp 161-179). -/
def qLow (z : ℝ) : ℝ :=
  let a : ℝ := 0.00000000000000000004
  let b : ℝ := z * a + 0.00000000000000000289
  let a : ℝ := z * b - a + 0.00000000000000019786
  let b : ℝ := z * a - b + 0.00000000000001196168
  let a : ℝ := z * b - a + 0.00000000000063427729
  let b : ℝ := z * a - b + 0.00000000002923635681
  let a : ℝ := z * b - a + 0.00000000115951672806
  let b : ℝ := z * a - b + 0.00000003910314748244
  let a : ℝ := z * b - a + 0.00000110599584794379
  let b : ℝ := z * a - b + 0.00002581451439721298
  let a : ℝ := z * b - a + 0.00048768692916240683
  let b : ℝ := z * a - b + 0.00728456195503504923
  let a : ℝ := z * b - a + 0.08357935463720537773
  let b : ℝ := z * a - b + 0.71031361199218887514
  let a : ℝ := z * b - a + 4.26780261265492264837
  let b : ℝ := z * a - b + 17.05540785795221885751
  let a : ℝ := z * b - a + 41.83903486779678800040
  0.5 * z * a - b + 28.41787374362784178164

/-- `p` for energies from six on (PhotonSpectrumGen.cpp 188-219). -/
def pHigh (z : ℝ) : ℝ :=
  let a : ℝ := 0.00000000000000000001
  let b : ℝ := z * a - 0.00000000000000000002
  let a : ℝ := z * b - a + 0.00000000000000000006
  let b : ℝ := z * a - b - 0.00000000000000000020
  let a : ℝ := z * b - a + 0.00000000000000000066
  let b : ℝ := z * a - b - 0.00000000000000000216
  let a : ℝ := z * b - a + 0.00000000000000000721
  let b : ℝ := z * a - b - 0.00000000000000002443
  let a : ℝ := z * b - a + 0.00000000000000008441
  let b : ℝ := z * a - b - 0.00000000000000029752
  let a : ℝ := z * b - a + 0.00000000000000107116
  let b : ℝ := z * a - b - 0.00000000000000394564
  let a : ℝ := z * b - a + 0.00000000000001489474
  let b : ℝ := z * a - b - 0.00000000000005773537
  let a : ℝ := z * b - a + 0.00000000000023030657
  let b : ℝ := z * a - b - 0.00000000000094784973
  let a : ℝ := z * b - a + 0.00000000000403683207
  let b : ℝ := z * a - b - 0.00000000001785432348
  let a : ℝ := z * b - a + 0.00000000008235329314
  let b : ℝ := z * a - b - 0.00000000039817923621
  let a : ℝ := z * b - a + 0.00000000203088939238
  let b : ℝ := z * a - b - 0.00000001101482369622
  let a : ℝ := z * b - a + 0.00000006418902302372
  let b : ℝ := z * a - b - 0.00000040756144386809
  let a : ℝ := z * b - a + 0.00000287536465397527
  let b : ℝ := z * a - b - 0.00002321251614543524
  let a : ℝ := z * b - a + 0.00022505317277986004
  let b : ℝ := z * a - b - 0.00287636803664026799
  let a : ℝ := z * b - a + 0.06239591359332750793
  0.5 * z * a - b + 1.06552390798340693166

/-- `SynRadC` (PhotonSpectrumGen.cpp 132-226): the spectrum. -/
def synRad (x : ℝ) : ℝ :=
  if 0 < x ∧ x < 800 then
    if x < 6 then
      let z := x * x / 16 - 2
      let y := x ^ (2 / 3 : ℝ)
      (pLow z / y - qLow z * y - 1) * 1.81379936423421784215530788143
    else pHigh (20 / x - 2) * √(π / 2 / x) / exp x
  else 0

/-- The constants of `SynGenC` (PhotonSpectrumGen.cpp 63). -/
structure Consts where
  a1 : ℝ
  a2 : ℝ
  c1 : ℝ
  xlow : ℝ
  ratio : ℝ

/-- The constants for a lower limit (PhotonSpectrumGen.cpp 69-97). -/
def consts (xmin : ℝ) : Consts :=
  let xlow := if xmin > 1 then xmin else 1
  let a1 := synRad 1e-38 / (1e-38 : ℝ) ^ (-2 / 3 : ℝ)
  let a2 := synRad xlow / exp (-xlow)
  let c1 := xmin ^ (1 / 3 : ℝ)
  let ratio := if xmin < 1 then
      let sum1ap := 3 * a1 * (1 - xmin ^ (1 / 3 : ℝ))
      let sum2ap := a2 * exp (-1)
      sum1ap / (sum1ap + sum2ap)
    else 0
  ⟨a1, a2, c1, xlow, ratio⟩

/-- The static variables of `SynGenC` (PhotonSpectrumGen.cpp 62-63); `none` before the first call. -/
abbrev Static := Option (ℝ × Consts)

/-- The static variables once they are made ready for a lower limit (PhotonSpectrumGen.cpp 65-97). -/
def prepare (xmin : ℝ) : Static → ℝ × Consts
  | some (last, k) => if xmin ≠ last then (xmin, consts xmin) else (last, k)
  | none => (xmin, consts xmin)

/-- An energy from the approximation at low energies, with `exact < appr * u` (PhotonSpectrumGen.cpp 104-107, 115).  At energy
zero the approximation is infinite; times zero it is not a number. -/
def low (k : Consts) (v u : ℝ) : ℝ × Bool :=
  let r := k.c1 + (1 - k.c1) * v
  let result := r * (r * r)
  (result, if result = 0 then decide (0 < u) else decide (synRad result < k.a1 * result ^ (-2 / 3 : ℝ) * u))

/-- An energy from the approximation at high energies, with `exact < appr * u` (PhotonSpectrumGen.cpp 111-113, 115); infinite
for the random number zero, where both spectra vanish. -/
def high (k : Consts) (v u : ℝ) : Option ℝ × Bool :=
  if v = 0 then (none, decide ((0 : ℝ) < 0 * u))
  else
    let result := k.xlow - log v
    (some result, decide (synRad result < k.a2 * exp (-result) * u))

/-- One round of the loop: an energy and whether it is rejected (PhotonSpectrumGen.cpp 100-115). -/
def round (k : Consts) (w v u : ℝ) : Option ℝ × Bool :=
  if w < k.ratio then (some (low k v u).1, (low k v u).2) else high k v u

/-- The loop (PhotonSpectrumGen.cpp 99-116): the energy and the random numbers that are left. -/
def loop (k : Consts) : List ℝ → Option (Option ℝ × List ℝ)
  | w :: v :: u :: rest => if (round k w v u).2 then loop k rest else some ((round k w v u).1, rest)
  | _ => none

/-- `SynGenC` (PhotonSpectrumGen.cpp 60-117). -/
def synGen (xmin : ℝ) (s : Static) (draws : List ℝ) : Static × Option (Option ℝ × List ℝ) :=
  let s := prepare xmin s
  (some s, loop s.2 draws)

/-- `HBSpectrumGen` (PhotonSpectrumGen.cpp 23-26). -/
def hbGen (uc : ℝ) (s : Static) (draws : List ℝ) : Static × Option (Option ℝ × List ℝ) :=
  let r := synGen 0 s draws
  (r.1, r.2.map fun e => (e.1.map (uc * ·), e.2))

/-- `AWSpectrumGen` (PhotonSpectrumGen.cpp 28-33) with its random number; infinite for zero. -/
def awGen (uc u1 : ℝ) : Option ℝ := if u1 = 0 then none else some (0.57 * uc * u1 ^ (-1 / 3 : ℝ) * (1 - u1) ^ π)

end

end Verif.Photon
