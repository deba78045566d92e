import Mathlib.Analysis.SpecialFunctions.Trigonometric.Deriv
import Mathlib.Analysis.SpecialFunctions.Log.Basic
import Mathlib.Analysis.SpecialFunctions.Sqrt
import Verif.LinMap.Model

/-!
# Model of the transport matrices

Merlin++/TransportMatrix.cpp (dense matrices) and Merlin++/TransportRMaps.cpp (sparse maps of
`Verif.LinMap.Model` and 2×2 maps).  Doubles are real numbers and the functions of `cmath` are those of the
real numbers; a division by zero gives zero.  A matrix is a function of its indices from zero, together with
its number of rows `n`; the dimensions of the arguments are taken to suffice.
-/

noncomputable section

namespace Verif.Transport
open Verif Real

/-- `RealMatrix`. -/
abbrev Mat := Nat → Nat → ℝ

/-- Assignment to `R(i, j)`. -/
def set (R : Mat) (i j : Nat) (v : ℝ) : Mat := fun a b => if a = i ∧ b = j then v else R a b

/-- `InitR` (TransportMatrix.cpp 20-24), `IdentityMatrix`. -/
def initR : Mat := fun a b => if a = b then 1 else 0

/-- `std::numeric_limits<double>::epsilon()`. -/
def eps : ℝ := 1 / 2 ^ 52

/-- `fequal` (utils.h 16-19). -/
def Fequal (x y : ℝ) : Prop := |x - y| ≤ eps

instance (x y : ℝ) : Decidable (Fequal x y) := Classical.propDecidable _

/-- `SROT` (TransportMatrix.cpp 30-36). -/
def srotBody (c s : ℝ) (R : Mat) : Mat :=
  let R := set (set (set (set R 3 3 c) 2 2 c) 1 1 c) 0 0 c
  let R := set (set R 1 3 (-s)) 0 2 (-s)
  set (set R 3 1 s) 2 0 s

/-- The horizontal plane of `SBR` (TransportMatrix.cpp 51-78); `Kx` is the focusing strength including the
curvature. -/
def sbrX (l Kx : ℝ) (R : Mat) : Mat :=
  if Kx = 0 then set R 0 1 l
  else if 0 < Kx then
    let k := √Kx
    let phi := k * l
    set (set (set (set R 1 1 (cos phi)) 0 0 (cos phi)) 0 1 (sin phi / k)) 1 0 (-k * sin phi)
  else
    let k := √(-Kx)
    let phi := k * l
    set (set (set (set R 1 1 (cosh phi)) 0 0 (cosh phi)) 0 1 (sinh phi / k)) 1 0 (k * sinh phi)

/-- The vertical plane of `SBR` (TransportMatrix.cpp 80-107). -/
def sbrY (l Ky : ℝ) (R : Mat) : Mat :=
  if Ky = 0 then set R 2 3 l
  else if 0 < Ky then
    let k := √Ky
    let phi := k * l
    set (set (set (set R 3 3 (cos phi)) 2 2 (cos phi)) 2 3 (sin phi / k)) 3 2 (-k * sin phi)
  else
    let k := √(-Ky)
    let phi := k * l
    set (set (set (set R 3 3 (cosh phi)) 2 2 (cosh phi)) 2 3 (sinh phi / k)) 3 2 (k * sinh phi)

/-- The dispersion terms of `SBR` (TransportMatrix.cpp 109-142). -/
def sbrD (n : Nat) (l h Kx : ℝ) (R : Mat) : Mat :=
  if n = 6 then
    if h ≠ 0 ∧ Kx ≠ 0 then
      if 0 < Kx then
        let k := √Kx
        let phi := k * l
        let R := set R 0 5 (h * (1 - cos phi) / Kx)
        let R := set R 1 5 (h * sin phi / k)
        let R := set R 4 5 (-h * h * (phi - sin phi) / (Kx * k))
        let R := set R 4 0 (-h * sin phi / k)
        set R 4 1 (-h * (1 - cos phi) / Kx)
      else
        let k := √(-Kx)
        let phi := k * l
        let R := set R 0 5 (h * (1 - cosh phi) / Kx)
        let R := set R 1 5 (h * sinh phi / k)
        let R := set R 4 5 (-h * h * (phi - sinh phi) / (Kx * k))
        let R := set R 4 0 (-h * sinh phi / k)
        set R 4 1 (-h * (1 - cosh phi) / Kx)
    else R
  else R

/-- `SBR` (TransportMatrix.cpp 38-142). -/
def sbr (n : Nat) (l h Kx : ℝ) (R : Mat) : Mat :=
  if l = 0 then R
  else
    let Ky := -Kx
    let Kx := Kx + h * h
    sbrD n l h Kx (sbrY l Ky (sbrX l Kx R))

/-- `SolR` (TransportMatrix.cpp 148-194). -/
def solBody (l ks : ℝ) (R : Mat) : Mat :=
  let theta := ks / 2 * l
  let c := cos theta
  let s := sin theta
  let c2 := c * c
  let sc := s * c
  let s2 := s * s
  let R := set (set (set (set R 0 0 c2) 1 1 c2) 2 2 c2) 3 3 c2
  let R := if Fequal theta 0 then set (set R 0 1 0) 2 3 0
    else set (set R 0 1 (2 * sc / ks)) 2 3 (2 * sc / ks)
  let R := set (set (set (set R 0 2 sc) 1 3 sc) 2 0 (-sc)) 3 1 (-sc)
  let R := if Fequal theta 0 then set (set R 0 3 0) 2 1 0
    else set (set R 0 3 (2 * s2 / ks)) 2 1 (-2 * s2 / ks)
  let R := set (set R 1 0 (-ks * sc / 2)) 3 2 (-ks * sc / 2)
  set (set R 1 2 (-ks * s2 / 2)) 3 0 (ks * s2 / 2)

/-- `TransportMatrix::Drift` (TransportMatrix.cpp 198-207). -/
def drift (n : Nat) (l : ℝ) : Mat :=
  let R := set initR 0 1 l
  if 2 < n then set R 2 3 l else R

/-- `TransportMatrix::SectorBend` (TransportMatrix.cpp 209-213). -/
def sectorBend (n : Nat) (l h K1 : ℝ) : Mat := sbr n l h K1 initR

/-- `TransportMatrix::QuadrupoleR` (TransportMatrix.cpp 315-319). -/
def quadrupoleR (n : Nat) (l K1 : ℝ) : Mat := sbr n l 0 K1 initR

/-- `std::swap(T(i, j), T(a, b))`. -/
def swapEntries (T : Mat) (i j a b : Nat) : Mat := set (set T i j (T a b)) a b (T i j)

/-- `TransportMatrix::QuadrupoleT` (TransportMatrix.cpp 321-354). -/
def quadrupoleT (l Kx : ℝ) : Mat :=
  if l = 0 ∨ Kx = 0 then initR
  else
    let k := if 0 < Kx then √Kx else √(-Kx)
    let phi := l * k
    let T := set (set initR 1 1 (phi * sin phi / 2)) 0 0 (phi * sin phi / 2)
    let T := set T 0 1 ((sin phi / k - l * cos phi) / 2)
    let T := set T 1 0 (k * (phi * cos phi + sin phi) / 2)
    let T := set (set T 3 3 (-phi * sinh phi / 2)) 2 2 (-phi * sinh phi / 2)
    let T := set T 2 3 ((sinh phi / k - l * cosh phi) / 2)
    let T := set T 3 2 (-k * (phi * cosh phi + sinh phi) / 2)
    if Kx < 0 then
      swapEntries (swapEntries (swapEntries (swapEntries T 0 0 2 2) 0 1 2 3) 1 0 3 2) 1 1 3 3
    else T

/-- The horizontal plane of `TransportMatrix::SectorBendT` (TransportMatrix.cpp 225-260); in the defocusing
branch the variables named `coshphix` and `sinhphix` are the cosine and the sine. -/
def sectorBendTX (l h K1 : ℝ) (T : Mat) : Mat :=
  let h2 := h * h
  let Kx := h2 + K1
  let hk := 2 * h2 + K1
  let kx := if 0 < Kx then √Kx else √(-Kx)
  if Kx = 0 then
    let l2 := l * l
    let l3 := l * l2
    let T := set T 0 0 (hk * l2 / 2)
    let T := set T 0 1 (hk * l3 / 6)
    let T := set T 1 0 (hk * l)
    set T 1 1 (T 0 0)
  else if 0 < Kx then
    let phix := l * kx
    let T := set (set T 1 1 (hk * l * sin phix / kx / 2)) 0 0 (hk * l * sin phix / kx / 2)
    let T := set T 0 1 (-hk * (phix * cos phix - sin phix) / (2 * kx * kx * kx))
    set T 1 0 (hk * (phix * cos phix + sin phix) / kx / 2)
  else
    let phix := l * kx
    let coshphix := cos phix
    let sinhphix := sin phix
    let T := set (set T 1 1 (hk * l * sinhphix / kx / 2)) 0 0 (hk * l * sinhphix / kx / 2)
    let T := set T 0 1 (hk * (phix * coshphix - sinhphix) / (2 * kx * kx * kx))
    set T 1 0 (hk * (phix * coshphix + sinhphix) / kx / 2)

/-- The vertical plane of `TransportMatrix::SectorBendT` (TransportMatrix.cpp 262-280). -/
def sectorBendTY (l K1 : ℝ) (T : Mat) : Mat :=
  let Ky := -K1
  let ky := if 0 < Ky then √Ky else √(-Ky)
  if 0 < Ky then
    let phiy := l * ky
    let T := set (set T 3 3 (phiy * sin phiy / 2)) 2 2 (phiy * sin phiy / 2)
    let T := set T 2 3 ((sin phiy / ky - l * cos phiy) / 2)
    set T 3 2 (ky * (phiy * cos phiy + sin phiy) / 2)
  else if Ky < 0 then
    let phiy := l * ky
    let T := set (set T 3 3 (-phiy * sinh phiy / 2)) 2 2 (-phiy * sinh phiy / 2)
    let T := set T 2 3 ((sinh phiy / ky - l * cosh phiy) / 2)
    set T 3 2 (-ky * (phiy * cosh phiy + sinh phiy) / 2)
  else T

/-- The dispersion and time terms of `TransportMatrix::SectorBendT` (TransportMatrix.cpp 282-310). -/
def sectorBendTD (l h K1 : ℝ) (T : Mat) : Mat :=
  let h2 := h * h
  let Kx := h2 + K1
  let hk := 2 * h2 + K1
  let kx := if 0 < Kx then √Kx else √(-Kx)
  if Kx = 0 then
    let phi := h * l
    let phi2 := phi * phi
    let T := set T 0 5 (phi * l * (phi2 - 12) / 24)
    let T := set T 1 5 (phi * (phi2 / 6 - 1))
    set T 4 5 (-phi2 * phi * (phi2 - 40) / 120)
  else if 0 < Kx then
    let phi := l * kx
    let Kx2 := Kx * Kx
    let T := set T 0 5 (-h * (2 * h2 * (cos phi - 1) + hk * phi * sin phi) / (2 * Kx2))
    let T := set T 1 5 (-h * (hk * phi * cos phi + K1 * sin phi) / (2 * kx ^ 3))
    set T 4 5 (h2 * (2 * K1 * phi - hk * phi * cos phi + (2 * h2 - K1) * sin phi) / (2 * kx ^ 5))
  else
    let phi := l * kx
    let Kx2 := Kx * Kx
    let T := set T 0 5 (h * (2 * h2 * (1 - cosh phi) + hk * phi * sinh phi) / (2 * Kx2))
    let T := set T 1 5 (h * (hk * phi * cosh phi + K1 * sinh phi) / (2 * kx ^ 3))
    set T 4 5 (h2 * (2 * K1 * phi - hk * phi * cosh phi + (2 * h2 - K1) * sinh phi) / (2 * kx ^ 5))

/-- `TransportMatrix::SectorBendT` (TransportMatrix.cpp 215-313). -/
def sectorBendT (l h K1 : ℝ) : Mat :=
  if l = 0 ∨ (K1 = 0 ∧ h = 0) then initR else sectorBendTD l h K1 (sectorBendTY l K1 (sectorBendTX l h K1 initR))

/-- `TransportMatrix::Srot` and `SrotR4` (TransportMatrix.cpp 356-368) of cosine and sine. -/
def srot (c s : ℝ) : Mat := srotBody c s initR

/-- `TransportMatrix::Srot` and `SrotR4` of an angle (TransportMatrix.h 81-89) on the matrix `R` given. -/
def srotAngle (phi : ℝ) (R : Mat) : Mat := if Fequal phi 0 then R else srot (cos phi) (sin phi)

/-- `TransportMatrix::PoleFaceRot` (TransportMatrix.cpp 370-378). -/
def poleFaceRot (h theta fint hgap : ℝ) : Mat :=
  let phi := 2 * fint * hgap * h * (1 + sin theta * sin theta) / cos theta
  set (set initR 1 0 (h * tan theta)) 3 2 (-h * tan (theta - phi))

/-- `TransportMatrix::Solenoid` (TransportMatrix.cpp 380-386), which does not use `K1` and the flags. -/
def solenoid (l K0 _K1 : ℝ) (_entr _exit : Bool) : Mat := solBody l K0 initR

/-- Copies the horizontal to the vertical block. -/
def copyBlock (R : Mat) : Mat :=
  let R := set R 2 2 (R 0 0)
  let R := set R 2 3 (R 0 1)
  let R := set R 3 2 (R 1 0)
  set R 3 3 (R 1 1)

/-- `twoPi` and `SpeedOfLight` (PhysicalConstants.h) only occur as `twoPi * f / SpeedOfLight`, which is `k`.
`TransportMatrix::TWRFCavity` (TransportMatrix.cpp 388-440). -/
def twrf (n : Nat) (l g k phi E0 : ℝ) (incEnd : Bool) : Mat :=
  let dE := l * g
  let dEc := dE * cos phi
  let E1 := E0 + dEc
  let Er := E1 / E0
  let logEr := log Er
  let R := if |dEc| < 1 / 10 ^ 16 then set initR 0 1 l
    else if !incEnd then
      let R := set initR 0 0 (1 - 1 / 2 * logEr)
      let R := set R 0 1 (E0 * l * logEr / dEc)
      let R := set R 1 0 (-dEc * logEr / (4 * E1 * l))
      set R 1 1 ((1 + 1 / 2 * logEr) / Er)
    else
      let R := set initR 0 1 (l * E0 * logEr / dEc)
      set R 1 1 Er
  let R := if 2 < n then copyBlock R else R
  if n = 6 then
    let R := set R 5 4 (k * dE * sin phi / E1)
    set R 5 5 (1 / Er)
  else R

/-- `TransportMatrix::SWRFCavity` (TransportMatrix.cpp 442-475); `halfWave` is `SpeedOfLight / f / 2`. -/
def swrf (n : Nat) (ncells : Int) (g halfWave phi E0 : ℝ) : Mat :=
  let root2 := √2
  let root8 := √8
  let l := ncells * halfWave
  let cosPhi := cos phi
  let E1 := E0 + g * l * cosPhi
  let alpha := log (E1 / E0) / cosPhi / root8
  let R := set initR 0 0 (cos alpha - root2 * cosPhi * sin alpha)
  let R := set R 0 1 (root8 * E0 * sin alpha / g)
  let R := set R 1 0 (-g * (2 + cos (2 * phi)) * sin alpha / E1 / root8)
  let R := set R 1 1 (E0 * (cos alpha + root2 * cosPhi * sin alpha) / E1)
  if n = 4 then copyBlock R else R

/-! ## Sparse maps

The maps are the terms in the order in which they are added; indices are from one as in the code, and `term`
changes them.  None of the functions adds 36 terms to an empty map. -/

/-- `RMap::AddTerm(i, j, v)` and `RMap::AddTerm(i, j) = v` (RMap.h 179-187). -/
def term (i j : Nat) (v : ℝ) : LinMap.Rij ℝ := ⟨i - 1, j - 1, v⟩

/-- `MakeIdentity` (RMap.cpp 100-106) of an empty map with the three degrees of freedom by default (RMap.h), see
`Verif.LinMap.makeIdentity`. -/
def idMap : LinMap.Map ℝ := [term 1 1 1, term 2 2 1, term 3 3 1, term 4 4 1, term 5 5 1, term 6 6 1]

/-- `SROT` and `Srot` (TransportRMaps.cpp 22-32, 184-187). -/
def srotMap (c s : ℝ) : LinMap.Map ℝ :=
  [term 1 1 c, term 2 2 c, term 3 3 c, term 4 4 c, term 1 3 (-s), term 2 4 (-s), term 3 1 s, term 4 2 s]

/-- `QR2` (TransportRMaps.cpp 34-66). -/
def qr2 (l K1 : ℝ) (o : Nat) : LinMap.Map ℝ :=
  if K1 = 0 then [term (o + 1) (o + 1) 1, term (o + 1) (o + 2) l, term (o + 2) (o + 2) 1]
  else if 0 < K1 then
    let k := √K1
    let phi := k * l
    [term (o + 1) (o + 1) (cos phi), term (o + 2) (o + 2) (cos phi), term (o + 1) (o + 2) (sin phi / k),
      term (o + 2) (o + 1) (-k * sin phi)]
  else
    let k := √(-K1)
    let phi := k * l
    [term (o + 1) (o + 1) (cosh phi), term (o + 2) (o + 2) (cosh phi), term (o + 1) (o + 2) (sinh phi / k),
      term (o + 2) (o + 1) (k * sinh phi)]

/-- The dispersion terms of `SBR` (TransportRMaps.cpp 86-113). -/
def sbrDMap (l h Kx : ℝ) : LinMap.Map ℝ :=
  if h ≠ 0 ∧ Kx ≠ 0 then
    if 0 < Kx then
      let k := √Kx
      let phi := k * l
      [term 1 6 (h * (1 - cos phi) / Kx), term 2 6 (h * sin phi / k), term 5 6 (-h * h * (phi - sin phi) / (Kx * k)),
        term 5 1 (-h * sin phi / k), term 5 2 (-h * (1 - cos phi) / Kx)]
    else
      let k := √(-Kx)
      let phi := k * l
      [term 1 6 (h * (1 - cosh phi) / Kx), term 2 6 (h * sinh phi / k),
        term 5 6 (-h * h * (phi - sinh phi) / (Kx * k)), term 5 1 (-h * sinh phi / k),
        term 5 2 (-h * (1 - cosh phi) / Kx)]
  else []

/-- `SBR` and `SectorBend` (TransportRMaps.cpp 68-117, 173-176). -/
def bendMap (l h Kx : ℝ) : LinMap.Map ℝ :=
  if l = 0 then idMap
  else
    let Ky := -Kx
    let Kx := Kx + h * h
    qr2 l Kx 0 ++ qr2 l Ky 2 ++ sbrDMap l h Kx ++ [term 5 5 1, term 6 6 1]

/-- `SolR` and `Solenoid` (TransportRMaps.cpp 123-157, 199-202). -/
def solMap (l ks : ℝ) : LinMap.Map ℝ :=
  let theta := ks / 2 * l
  let c := cos theta
  let s := sin theta
  let c2 := c * c
  let sc := s * c
  let s2 := s * s
  [term 1 1 c2, term 2 2 c2, term 3 3 c2, term 4 4 c2] ++
  (if ¬ Fequal theta 0 then [term 1 2 (2 * sc / ks), term 3 4 (2 * sc / ks)] else []) ++
  [term 1 3 sc, term 2 4 sc, term 3 1 (-sc), term 4 2 (-sc)] ++
  (if ¬ Fequal theta 0 then [term 1 4 (2 * s2 / ks), term 4 2 (-2 * s2 / ks)] else []) ++
  [term 2 1 (-ks * sc / 2), term 4 3 (-ks * sc / 2), term 2 3 (-ks * s2 / 2), term 4 1 (ks * s2 / 2)]

/-- `Drift` (TransportRMaps.cpp 163-171). -/
def driftMap (l : ℝ) : LinMap.Map ℝ := idMap ++ (if l ≠ 0 then [term 1 2 l, term 3 4 l] else [])

/-- `Quadrupole` (TransportRMaps.cpp 178-182). -/
def quadMap (l Kx : ℝ) : LinMap.Map ℝ := qr2 l Kx 0 ++ qr2 l (-Kx) 2

/-- `PoleFaceRot` (TransportRMaps.cpp 189-197). -/
def poleMap (h theta fint hgap : ℝ) : LinMap.Map ℝ :=
  let phi := 2 * fint * hgap * h * (1 + sin theta * sin theta) / cos theta
  idMap ++ [term 2 1 (h * tan theta), term 4 3 (-h * tan (theta - phi))]

/-- `LogOnePlusX` (TransportRMaps.cpp 17-20). -/
def logOnePlusX (x : ℝ) : ℝ := x * (1 - 1 / 2 * x)

/-- `TWRFCavity` of an `RMap` (TransportRMaps.cpp 204-251). -/
def twrfMap (l g phi E0 : ℝ) (entr exit : Bool) : LinMap.Map ℝ :=
  let dEc := l * g * cos phi
  let E1 := E0 + dEc
  let Er := E0 / E1
  let L := logOnePlusX (dEc / E0)
  let c := cos phi
  if dEc = 0 then idMap ++ [term 3 4 l, term 1 2 l]
  else
    let both (i j : Nat) (v : ℝ) := [term (i + 2) (j + 2) v, term i j v]
    if entr && !exit then
      both 1 1 (1 - 1 / 2 * L / c) ++ both 1 2 (E0 * L / g / c) ++ both 2 1 (-(1 / 2) * g / E1) ++ both 2 2 Er
    else if !entr && exit then
      both 1 1 1 ++ both 1 2 (E0 * L / g / c) ++ both 2 1 (1 / 2 * g * c / E1) ++ both 2 2 (Er * (1 + 1 / 2 * L / c))
    else if entr && exit then
      both 1 1 (1 - 1 / 2 * L / c) ++ both 1 2 (E0 * L / g / c) ++ both 2 1 (-(1 / 4) * g * L / E1 / c) ++
        both 2 2 (Er * (1 + 1 / 2 * L / c))
    else both 1 1 1 ++ both 1 2 (E0 * L / g / c) ++ both 2 2 Er

/-! ## 2×2 maps -/

/-- `Drift` of an `R2Map` (TransportRMaps.cpp 278-283). -/
def drift2 (l : ℝ) : LinMap.R2 ℝ := ⟨1, l, 0, 1⟩

/-- `Quadrupole` of an `R2Map` (TransportRMaps.cpp 285-313). -/
def quad2 (l K1 : ℝ) : LinMap.R2 ℝ :=
  if K1 = 0 then drift2 l
  else if 0 < K1 then
    let k := √K1
    let phi := k * l
    { r11 := cos phi, r22 := cos phi, r12 := sin phi / k, r21 := -k * sin phi }
  else
    let k := √(-K1)
    let phi := k * l
    { r11 := cosh phi, r22 := cosh phi, r12 := sinh phi / k, r21 := k * sinh phi }

/-- `TWRFCavity` of an `R2Map` (TransportRMaps.cpp 315-359). -/
def twrf2 (l g phi E0 : ℝ) (entr exit : Bool) : LinMap.R2 ℝ :=
  let dEc := l * g * cos phi
  let E1 := E0 + dEc
  let Er := E0 / E1
  let L := logOnePlusX (dEc / E0)
  let c := cos phi
  if dEc = 0 then drift2 l
  else if entr && !exit then { r11 := 1 - 1 / 2 * L, r12 := E0 * L / g / c, r21 := -(1 / 2) * g * c / E1, r22 := Er }
  else if !entr && exit then
    { r11 := 1, r12 := E0 * L / g / c, r21 := 1 / 2 * g * c / E1, r22 := Er * (1 + 1 / 2 * L) }
  else if entr && exit then
    { r11 := 1 - 1 / 2 * L, r12 := E0 * L / g / c, r21 := -(1 / 4) * g * L * c / E1, r22 := Er * (1 + 1 / 2 * L) }
  else { r11 := 1, r12 := E0 * L / g / c, r21 := 0, r22 := Er }

end Verif.Transport
