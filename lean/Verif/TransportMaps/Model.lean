import Verif.Symplectic.Model
import Verif.Transport.Model

/-!
# Model of the second order maps

Merlin++/BasicTransportMaps.cpp and the bend, the drift and the pole faces of Merlin++/TransportIntegrators.cpp.
Doubles are real numbers.  `RTMap` has its linear terms `(i, j)` and its second order terms `(i, j, k)`, the value
of which multiplies the product of two coordinates.  A map with a term that is infinite or not a number is outcome
`ub`.  `for_each` treats the particles of a bunch one by one, so that every step is modelled for one particle.
-/

set_option linter.unusedVariables false

namespace Verif.TransportMaps
open Verif Verif.Multipole Verif.Symplectic Real

noncomputable section

/-- `RTMap` (RTMap.h 20-93). -/
structure RT where
  r : LinMap.Map ℝ
  t : List (LinMap.Tijk ℝ)

/-- The linear term `rtMap(i, j) = v` (RTMap.h 70-73). -/
def r2 (i j : Nat) (v : ℝ) : LinMap.Rij ℝ := ⟨i - 1, j - 1, v⟩

/-- The second order term `rtMap(i, j, k) = v` (RTMap.h 65-69). -/
def t3 (i j k : Nat) (v : ℝ) : LinMap.Tijk ℝ := ⟨i - 1, j - 1, k - 1, v⟩

/-- The coordinates of a particle as an array (PSvector.h 72-114). -/
def toVec (v : PS) : Nat → ℝ
  | 0 => v.x
  | 1 => v.px
  | 2 => v.y
  | 3 => v.py
  | 4 => v.ct
  | 5 => v.dp
  | _ => 0

/-- The particle with given coordinates. -/
def ofVec (y : Nat → ℝ) : PS := ⟨y 0, y 1, y 2, y 3, y 4, y 5⟩

/-- `ApplyMap::operator()` (TransportIntegrators.cpp 81-93): `RTMap::Apply` of LinMap on one particle. -/
def applyMap (m : RT) (v : PS) : Outcome Unit PS :=
  (LinMap.applyRT m.r m.t (toVec v, 0)).bind fun y => .ok (ofVec y.1)

/-- `ApplyMap1::operator()` (TransportIntegrators.cpp 96-113). -/
def applyMap1 (m : RT) (er : ℝ) (v : PS) : Outcome Unit PS :=
  (applyMap m { v with dp := er * (1 + v.dp) - 1 }).bind fun w => .ok { w with dp := v.dp }

/-- `DriftTM` (BasicTransportMaps.cpp 205-223). -/
def driftTM (s : ℝ) : RT where
  r := [r2 1 1 1, r2 1 2 s, r2 2 2 1, r2 3 3 1, r2 3 4 s, r2 4 4 1, r2 5 5 1, r2 6 6 1]
  t := [t3 5 2 2 (-s / 2), t3 5 4 4 (-s / 2)]

open Classical in
/-- `QuadrupoleTM` (BasicTransportMaps.cpp 91-149): with `K1` zero there is a quotient by zero. -/
def quadrupoleTM (s K1 : ℝ) : Outcome Unit RT :=
  if K1 = 0 then .ub
  else
    let ksgn : ℝ := if K1 < 0 then -1 else 1
    let kq := √|K1|
    let a1 := kq * s
    let a3 := 1 / kq
    let a2 := if K1 > 0 then cos a1 else cosh a1
    let a4 := if K1 > 0 then sin a1 else sinh a1
    let a5 := if K1 < 0 then cos a1 else cosh a1
    let a6 := if K1 < 0 then sin a1 else sinh a1
    let a7 := ksgn * a4 * kq * s / 2
    let a8 := -(ksgn * a6 * kq * s) / 2
    let a9 := 2 * kq * s
    let a10 := if K1 > 0 then sin a9 else sinh a9
    let a11 := ksgn * a4 ^ 2
    let a12 := a11 / 2
    let a13 := if K1 < 0 then sin a9 else sinh a9
    let a14 := a6 ^ 2
    let a15 := -a14 / 2
    .ok {
      r := [r2 1 1 a2, r2 1 2 (a3 * a4), r2 2 1 (-ksgn * a4 * kq), r2 2 2 a2, r2 3 3 a5, r2 3 4 (a3 * a6),
        r2 4 3 (ksgn * a6 * kq), r2 4 4 a5, r2 5 5 1, r2 6 6 1]
      t := [t3 1 1 6 a7, t3 1 2 6 (a3 * (a4 - a2 * kq * s) / 2), t3 2 1 6 (ksgn * kq * (a4 + a2 * kq * s) / 2),
        t3 2 2 6 a7, t3 3 3 6 a8, t3 3 4 6 (a3 * (a6 - a5 * kq * s) / 2),
        t3 4 3 6 (-(ksgn * kq * (a6 + a5 * kq * s)) / 2), t3 4 4 6 a8, t3 5 1 1 (-((-a10 + a9) * kq * ksgn) / 8),
        t3 5 1 2 a12, t3 5 2 2 (-(a3 * (a10 + a9)) / 8), t3 5 3 3 (ksgn * ((-a13 + a9) * kq) / 8),
        t3 5 3 4 (ksgn * a15), t3 5 4 4 (-(a3 * (a13 + a9)) / 8)] }

/-- `SextupoleTM` (BasicTransportMaps.cpp 151-203). -/
def sextupoleTM (s K : ℝ) : RT :=
  let K2 := K * (1 / 2)
  let a1 := s ^ 2
  let a2 := s ^ 3
  let a3 := -(a2 * K2) / 3
  let a4 := s ^ 4
  let a5 := a2 * K2 / 3
  let a6 := a1 * K2
  let a7 := -s / 2
  { r := [r2 1 1 1, r2 1 2 s, r2 2 2 1, r2 3 3 1, r2 3 4 s, r2 4 4 1, r2 5 5 1, r2 6 6 1]
    t := [t3 1 1 1 (-(a1 * K2) / 2), t3 1 1 2 a3, t3 1 2 2 (-(a4 * K2) / 12), t3 1 3 3 (a1 * K2 / 2), t3 1 3 4 a5,
      t3 1 4 4 (a4 * K2 / 12), t3 2 1 1 (-(K2 * s)), t3 2 1 2 (-(a1 * K2)), t3 2 2 2 a3, t3 2 3 3 (K2 * s),
      t3 2 3 4 a6, t3 2 4 4 a5, t3 3 1 3 a6, t3 3 1 4 a5, t3 3 2 3 a5, t3 3 2 4 (a4 * K2 / 6),
      t3 4 1 3 (2 * K2 * s), t3 4 1 4 a6, t3 4 2 3 a6, t3 4 2 4 (2 * a2 * K2 / 3), t3 5 2 2 a7, t3 5 4 4 a7] }

/-- The terms of `SectorBendTM` (BasicTransportMaps.cpp 22-87), `beta` being the velocity and `g2` the quantity
`1 / gamma / gamma`. -/
def sectorTerms (s h beta g2 : ℝ) : RT :=
  let a1 := h * s
  let a2 := cos a1
  let a3 := 1 / h
  let a4 := sin a1
  let a5 := a3 * a4
  let a6 := -a2
  let a7 := 1 + a6
  let a8 := a3 * a7
  let a9 := -a4
  let a10 := -1 + a2
  let a11 := a10 * a3
  let a12 := a4 ^ 2
  let a13 := h * s / 2
  let a14 := sin a13
  let a15 := -a4 / 2
  let a16 := -(a3 * a4) / 2
  let KL := h * s
  let cx := cos KL
  let sx := sin KL / h
  let dx := (1 - cx) / (h * h)
  let J1 := (s - sx) / (h * h)
  let sy := s
  let cy := 1
  { r := [r2 1 1 a2, r2 1 2 a5, r2 1 6 a8, r2 2 1 (-(a4 * h)), r2 2 2 a2, r2 2 6 a4, r2 3 3 1, r2 3 4 s, r2 4 4 1,
      r2 5 1 a9, r2 5 2 a11, r2 5 5 1, r2 5 6 (a5 - s), r2 6 6 1]
    t := [t3 1 1 1 (-(a12 * h) / 2), t3 1 1 2 (h * sx * cx), t3 1 1 6 a12, t3 1 2 2 (a2 * a3 * a14 ^ 2),
      t3 1 2 6 ((h * h / (4 * beta) * (sx * dx + cx * J1) - 1 / (4 * beta) * (sx + s * cx)) * 2),
      t3 1 6 6 (-(a12 * a3) / 2), t3 1 4 4 (a10 * a3 / 2), t3 2 2 2 a15, t3 2 4 4 a15,
      t3 2 6 6 (-h * sx / (2 * beta * beta) * g2), t3 3 1 4 a4, t3 3 2 4 a8,
      t3 3 4 6 ((h * h * J1 * cy / (2 * beta) - (sy + s * cy) / (4 * beta)) * 2), t3 5 2 2 a16,
      t3 5 1 6 (h * sx / (2 * beta * beta) * g2 * 2), t3 5 2 6 (h * dx / (2 * beta * beta) * g2 * 2),
      t3 5 6 6 (3 * (h * h * J1 - s) / (2 * beta * beta * beta) * g2), t3 5 4 4 a16] }

open Classical in
/-- `SectorBendTM` (BasicTransportMaps.cpp 14-89).  The energy is `none` if `gamma` is infinite, as for bunches
whose particles have no mass (ParticleBunch.cpp 418-421): the quotients by `gamma` are then zero and `beta` is
one.  With `gamma` one there is a quotient by zero, below one a root of a negative number. -/
def sectorBendTM (s h : ℝ) (gamma : Option ℝ) : Outcome Unit RT :=
  if h = 0 then .ub
  else match gamma with
    | none => .ok (sectorTerms s h 1 0)
    | some g => if g ≤ 1 then .ub else .ok (sectorTerms s h √(1 - 1 / g / g) (1 / g / g))

/-- The linear terms of `GenSectorBendTM` (BasicTransportMaps.cpp 230-247) from the matrix of Transport. -/
def genR (R : Transport.Mat) : LinMap.Map ℝ :=
  [r2 1 1 (R 0 0), r2 1 2 (R 0 1), r2 1 6 (R 0 5), r2 2 1 (R 1 0), r2 2 2 (R 1 1), r2 2 6 (R 1 5), r2 3 3 (R 2 2),
    r2 3 4 (R 2 3), r2 4 3 (R 3 2), r2 4 4 (R 3 3), r2 5 1 (R 4 0), r2 5 2 (R 4 1), r2 5 5 1, r2 5 6 (R 4 5), r2 6 6 1]

open Classical in
/-- The second order terms of `GenSectorBendTM` (BasicTransportMaps.cpp 249-453). -/
def genT (s h K1 K2 cx sx dx cxp sxp dxp cy sy cyp syp : ℝ) : List (LinMap.Tijk ℝ) :=
  let n : ℝ := -K1 / (h * h)
  let a1 : ℝ := K1 + h * h
  let a2 : ℝ := 1 / h
  let a3 : ℝ := 2 * a2 * dx
  let a4 : ℝ := (sx ^ 2)
  let a5 : ℝ := -a4
  let a6 : ℝ := a3 + a5
  let a7 : ℝ := (h ^ 3)
  let a8 : ℝ := 1 / a7
  let a9 : ℝ := -(a8 * K2)
  let a10 : ℝ := 2 * n
  let a11 : ℝ := -1 + a10 + a9
  let a12 : ℝ := a2 * dx
  let a13 : ℝ := a12 + a4
  let a14 : ℝ := (h ^ 2)
  let a15 : ℝ := (2 * a11 * a14 * dx * sx) / 3
  let a16 : ℝ := -n
  let a17 : ℝ := 2 + a16
  let a18 : ℝ := (a14 * a17 * s * sx) / 2
  let a19 : ℝ := (h ^ 4)
  let a20 : ℝ := 1 / a1
  let a21 : ℝ := (s * sx) / 2
  let a22 : ℝ := -(a2 * dx)
  let a23 : ℝ := -(cx * s)
  let a24 : ℝ := a23 + sx
  let a25 : ℝ := (h ^ 5)
  let a26 : ℝ := a1 * a1
  let a27 : ℝ := 1 / a26
  let a28 : ℝ := -K1
  let a29 : ℝ := -4 * a28
  let a30 : ℝ := a1 + a29
  let a31 : ℝ := 1 / a30
  let a32 : ℝ := -2 * a2 * dx
  let a33 : ℝ := (sy ^ 2)
  let a34 : ℝ := a32 + a33
  let a35 : ℝ := -sx
  let a36 : ℝ := cy * sy
  let a37 : ℝ := a35 + a36
  let a38 : ℝ := 2 * a31 * a37 * K2
  let a39 : ℝ := 2 * cx
  let a40 : ℝ := 1 + a39
  let a41 : ℝ := 2 * a4
  let a42 : ℝ := a22 + a41
  let a43 : ℝ := 2 * a2 * cy * dx
  let a44 : ℝ := -(sx * sy)
  let a45 : ℝ := a43 + a44
  let a46 : ℝ := a8 * K2
  let a47 : ℝ := a16 + a46
  let a48 : ℝ := -cx
  let a49 : ℝ := 1 + a48
  let a50 : ℝ := a49 * cy
  let a51 : ℝ := -2 * a28 * sx * sy
  let a52 : ℝ := a50 + a51
  let a53 : ℝ := 2 * cy * sx
  let a54 : ℝ := 1 + cx
  let a55 : ℝ := -(a54 * sy)
  let a56 : ℝ := a53 + a55
  let a57 : ℝ := a20 * sy
  let a58 : ℝ := -(cy * sx)
  let a59 : ℝ := 2 * a20 * a28 * a54 * sy
  let a60 : ℝ := a58 + a59
  let a61 : ℝ := a31 * a60
  let a62 : ℝ := a57 + a61
  let a63 : ℝ := (a28 * s * sy) / 2
  let a64 : ℝ := (s * sy) / 2
  let a65 : ℝ := -(cy * s)
  let a66 : ℝ := a65 + sy
  let a67 : ℝ := -2 * a28
  let a68 : ℝ := a1 + a67
  let a69 : ℝ := a68 * cy * sx
  let a70 : ℝ := -(a28 * a54 * sy)
  let a71 : ℝ := a69 + a70
  let a72 : ℝ := cy * sx
  let a73 : ℝ := -(cx * sy)
  let a74 : ℝ := -2 * a2 * a28 * dx * sy
  let a75 : ℝ := a72 + a73 + a74
  let a76 : ℝ := -(a49 * cy)
  let a77 : ℝ := a68 * sx * sy
  let a78 : ℝ := a76 + a77
  let a79 : ℝ := a20 * cy
  let a80 : ℝ := -(cx * cy)
  let a81 : ℝ := 2 * a20 * a28 * a54 * cy
  let a82 : ℝ := -(a28 * sx * sy)
  let a83 : ℝ := a80 + a81 + a82
  let a84 : ℝ := a31 * a83
  let a85 : ℝ := a79 + a84
  let a86 : ℝ := -(a1 * h)
  let a87 : ℝ := -2 * n
  let a88 : ℝ := 1 + a87
  let a89 : ℝ := a7 * a88
  let a90 : ℝ := a86 + a89 + K2
  let a91 : ℝ := -2 * K2
  let a92 : ℝ := 4 * n
  let a93 : ℝ := -2 + a92
  let a94 : ℝ := a7 * a93
  let a95 : ℝ := a86 + a91 + a94
  let a96 : ℝ := -2 + n
  let a97 : ℝ := -(a1 * a96 * h)
  let a98 : ℝ := a91 + a94 + a97
  let a99 : ℝ := a1 * h
  let a100 : ℝ := 8 * n
  let a101 : ℝ := -4 + a100
  let a102 : ℝ := 2 * K2
  let a103 : ℝ := -4 * n
  let a104 : ℝ := 2 + a103
  let a105 : ℝ := a104 * a7
  let a106 : ℝ := a102 + a105 + a99
  let a107 : ℝ := a1 * a96 * h
  let a108 : ℝ := a102 + a105 + a107
  let a109 : ℝ := (h ^ 6)
  let kx2 : ℝ := h * h + K1
  let kx : ℝ := √|kx2|
  let ky2 : ℝ := -K1
  let ky : ℝ := √|ky2|
  let sngx : ℝ := if kx2 < 0 then -1 else 1
  let b1 : ℝ := (kx ^ 2)
  let b2 : ℝ := 1 / b1
  let b3 : ℝ := kx * s
  let b4 : ℝ := if kx2 < 0 then cosh (b3) else cos (b3)
  let b5 : ℝ := if kx2 < 0 then sinh (b3) else sin (b3)
  let b6 : ℝ := (kx ^ 3)
  let b7 : ℝ := 1 / b6
  let b8 : ℝ := if kx2 < 0 then sinh (2 * b3) else sin (2 * b3)
  let b9 : ℝ := if kx2 < 0 then sinh (b3 / 2) else sin (b3 / 2)
  let b10 : ℝ := if ky2 < 0 then cosh (ky * s) else cos (ky * s)
  let b11 : ℝ := if ky2 < 0 then sinh (ky * s) else sin (ky * s)
  let b12 : ℝ := if ky2 < 0 then sinh (2 * ky * s) else sin (2 * ky * s)
  let P1 : ℝ := b2 * (sngx * (b4 - 1) + b5 * kx * s)
  let P2 : ℝ := sngx * (b3 - b5) * b7 * h
  let P3 : ℝ := sngx * b2 * (1 - b4)
  let P4 : ℝ := sngx * b7 * (b5 - b4 * kx * s)
  let P5 : ℝ := 2 * h * (1 / kx ^ 4) * (b9 ^ 4)
  let P6 : ℝ := -sngx * (b7 * (-2 * kx * s + b8)) / 4
  let P7 : ℝ := ((1 / ky ^ 2) * (b11 ^ 2)) / 2
  let P8 : ℝ := -((1 / ky ^ 3) * (-2 * ky * s + b8)) / 4
  [
    t3 1 1 1 ((a11 * a13 * a7) / 3 + (a1 * a6 * h) / 6),
    t3 1 1 2 (a15 - (a1 * dx * sx) / 3),
    t3 1 1 6 (a18 + 2 * a11 * a19 * a20 * (a21 + (a22 + a5) / 3) - (a14 * a6) / 3),
    t3 1 2 2 ((a11 * a20 * a6 * a7) / 3 + (a13 * h) / 6),
    t3 1 2 6 ((a14 * a17 * a20 * a24) / 2 + (dx * h * sx) / 3 + 2 * a11 * a19 * a20 * ((a20 * a24) / 2 - (a2 * dx *
      sx) / 3)),
    t3 1 6 6 ((a20 * a6 * a7) / 6 - dx + a11 * a25 * a27 * (a4 / 3 + (4 * a2 * dx) / 3 - s * sx) + a17 * a20 * a7 *
      (a12 - (s * sx) / 2)),
    t3 1 3 3 (-(a28 * dx) / 2 + (a12 - a28 * a31 * a34) * K2),
    t3 1 3 4 (a38),
    t3 1 4 4 (-dx / 2 + a31 * a34 * K2),
    t3 2 1 1 (-(cx * cxp * h) + (a11 * a40 * a7 * sx) / 3 + (a26 * dx * sx) / 3),
    t3 2 1 2 ((2 * a11 * a42 * a7) / 3 - (a1 * a42 * h) / 3 + h * sxp - h * (cxp * sx + cx * sxp)),
    t3 2 1 6 (-((cxp * dx + cx * dxp) * h) - (2 * a1 * dx * h * sx) / 3 + (a14 * a17 * (cx * s + sx)) / 2 + 2 * a11 *
      a19 * a20 * ((cx * s) / 2 + sx / 6 - (2 * cx * sx) / 3)),
    t3 2 2 2 (a15 + (a40 * h * sx) / 6 - h * sx * sxp),
    t3 2 2 6 (a18 + (a14 * a42) / 3 + 2 * a11 * a19 * a20 * (a21 - (2 * a4) / 3 + (a2 * dx) / 3) - h * (dxp * sx + dx
      * sxp)),
    t3 2 6 6 ((a17 * a20 * a24 * a7) / 2 - dx * dxp * h + (a14 * dx * sx) / 3 - h * sx + a11 * a25 * a27 * (a23 + sx
      / 3 + (2 * cx * sx) / 3)),
    t3 2 3 3 (-(a28 * h * sx) / 2 + K2 * (-2 * a28 * a31 * a37 + sx)),
    t3 2 3 4 (2 * a31 * (-2 * a28 * a33 + a1 * a2 * dx) * K2),
    t3 2 4 4 (a38 - (h * sx) / 2),
    t3 3 1 3 (2 * a31 * a47 * a52 * a7 + a1 * a28 * a31 * a45 * h),
    t3 3 1 4 (2 * a31 * a47 * a56 * a7 - a1 * a62 * h + h * sy),
    t3 3 2 3 (2 * a47 * a62 * a7 - a28 * a31 * a56 * h),
    t3 3 2 4 (2 * a31 * a45 * a47 * a7 + a31 * a52 * h),
    t3 3 3 6 (-(a14 * a28 * a31 * a45) + a63 + 2 * a19 * a20 * a47 * (-(a31 * a52) + a64)),
    t3 3 4 6 (a14 * a62 + a66 / 2 + 2 * a19 * a20 * a47 * (-(a31 * a56) + a66 / (2 * a28))),
    t3 4 1 3 (2 * a31 * a47 * a7 * a71 + a1 * a28 * a31 * a75 * h - cx * cyp * h),
    t3 4 1 4 (2 * a31 * a47 * a7 * a78 - a1 * a85 * h + h * syp - cx * h * syp),
    t3 4 2 3 (2 * a47 * a7 * a85 - a28 * a31 * a78 * h - cyp * h * sx),
    t3 4 2 4 (2 * a31 * a47 * a7 * a75 + a31 * a71 * h - h * sx * syp),
    t3 4 3 6 (-(a14 * a28 * a31 * a75) - cyp * dx * h + (a28 * (cy * s + sy)) / 2 + 2 * a19 * a20 * a47 * ((cy * s) /
      2 + sy / 2 + a31 * (-(a68 * cy * sx) + a28 * a54 * sy))),
    t3 4 4 6 (a63 + 2 * a19 * a20 * a47 * (a64 - a31 * a78) + a14 * a85 - dx * h * syp),
    t3 5 1 1 ((-2 * a90 * P2 + a95 * h * P6 + 3 * s * (cxp ^ 2)) / 6),
    t3 5 1 2 ((a95 * P5 + 3 * cxp * s * sxp) / 3),
    t3 5 1 6 ((a20 * (6 * a1 * cxp * dxp * s + 4 * a90 * h * P2 + 3 * a14 * a98 * P4 + 4 * a25 * P6 + 2 * a1 * a7 *
      P6 + 4 * a14 * K2 * P6 - 8 * a25 * n * P6)) / 6),
    t3 5 2 2 ((a20 * ((a101 * a7 + a99 - 4 * K2) * P2 + a106 * h * P6 + 3 * a1 * s * (sxp ^ 2))) / 6),
    t3 5 2 6 ((a27 * (3 * a108 * a14 * P1 + 3 * a14 * a98 * P3 + 2 * a1 * (a106 * h * P5 + 3 * a1 * dxp * s * sxp)))
      / 6),
    t3 5 3 3 ((2 * a28 * h * K2 * P8 + P2 * (a1 * a28 * h - 2 * a1 * K2 + 4 * a28 * K2 - 4 * h * K1 * K1) - a30 * s *
      ((cyp + syp) ^ 2)) / (-2 * a1 + 8 * a28)),
    t3 5 3 4 (2 * a31 * h * K2 * (-P3 + P6)),
    t3 5 4 4 ((a31 * (-((a30 * h + 4 * K2) * P2) + 2 * h * K2 * P8)) / 2),
    t3 5 6 6 ((a27 * (2 * h * (a101 * a19 - 3 * a26 - 4 * h * K2 + a1 * a14 * (7 - 3 * n)) * P2 + 3 * a108 * a7 * P4
      - 2 * a109 * P6 - a1 * a19 * P6 - 2 * a7 * K2 * P6 + 4 * a109 * n * P6 + 3 * a26 * s * (dxp ^ 2))) / 6)]

open Classical in
/-- `GenSectorBendTM` (BasicTransportMaps.cpp 225-454): there are quotients by the curvature, by the gradient and by
two combinations of them. -/
def genSectorBendTM (s h K1 K2 : ℝ) : Outcome Unit RT :=
  if h = 0 ∨ K1 = 0 ∨ K1 + h * h = 0 ∨ K1 + h * h + 4 * K1 = 0 then .ub
  else
    let R := Transport.sectorBend 6 s h K1
    .ok ⟨genR R, genT s h K1 K2 (R 0 0) (R 0 1) (R 0 5) (R 1 0) (R 1 1) (R 1 5) (R 2 2) (R 2 3) (R 3 2) (R 3 3)⟩

/-- The terms of `PoleFaceTM` (BasicTransportMaps.cpp 468-529) after the correction for the gap: `t` the tangent of
the rotation, `t'` of the corrected one, `a6` the secant. -/
def poleFaceTerms (h K1 t t' a6 c : ℝ) (entrance : Bool) : RT :=
  let a1 := t
  let a2 := a1 * h
  let a7 := a6 ^ 2
  let a8 := a6 ^ 3
  let sig : ℝ := if entrance then 1 else -1
  let hh := sig * (1 / 2) * h
  { r := [r2 2 1 a2, r2 4 3 (-(h * t')), r2 1 1 1, r2 2 2 1, r2 3 3 1, r2 4 4 1, r2 5 5 1, r2 6 6 1]
    t := [t3 1 1 1 (-hh * a1 ^ 2), t3 1 3 3 (hh * a7), t3 2 1 2 (hh * a1 ^ 2 * 2), t3 2 3 4 (-hh * a1 ^ 2 * 2),
      t3 3 1 3 (hh * a1 ^ 2 * 2), t3 4 1 4 (-hh * a1 ^ 2 * 2), t3 4 2 3 (-(hh * a7) * 2)] ++
      (if entrance then
        [t3 2 1 1 (h / 2 * c * a8 + K1 * a1),
          t3 2 3 3 (hh * h * a1 ^ 3 - h / 2 * c * a8 + K1 * a1 + (h * a6) ^ 2 * a1 * (1 / 2)),
          t3 4 1 3 (-(h / 2 * c * a8 + K1 * a1))]
      else
        [t3 2 1 1 (h / 2 * c * a8 + K1 * a1 - (h * a1) ^ 2 * a1 * (1 / 2)),
          t3 2 3 3 (hh * h * a1 ^ 3 - h / 2 * c * a8 + K1 * a1),
          t3 4 1 3 (-(h / 2 * c * a8 + K1 * a1) + (h * a6) ^ 2 * a1)]) }

open Classical in
/-- `PoleFaceTM` (BasicTransportMaps.cpp 456-531). -/
def poleFaceTM (h K1 beta c fint hgap : ℝ) (entrance : Bool) : Outcome Unit RT :=
  let phi := 2 * fint * hgap * h * (1 + sin beta * sin beta) / cos beta
  if cos beta = 0 ∨ cos (-phi + beta) = 0 then .ub
  else .ok (poleFaceTerms h K1 (tan beta) (tan (-phi + beta)) (1 / cos beta) c entrance)

/-- `DriftCI::TrackStep` (TransportIntegrators.cpp 203-210). -/
def trackDrift (ds : ℝ) (v : PS) : Outcome Unit PS := if ds = 0 then .ok v else applyMap (driftTM ds) v

/-- `SectorBend::PoleFace` (SectorBend.h 38-67): the fields used here. -/
structure Face where
  rot : ℝ
  fint : ℝ
  hgap : ℝ
  type : ℝ

/-- `PoleFaceInfo` (SectorBend.h 72-150): the faces, none for a null pointer. -/
structure FaceInfo where
  entrance : Option Face
  exit : Option Face

/-- `PoleFaceInfo::SetInfo(PoleFace*, PoleFace*)` (SectorBend.h 97-104) of two objects. -/
def setInfo2 (e1 e2 : Face) : FaceInfo := ⟨some { e1 with type := 1 }, some { e2 with type := 0 }⟩

/-- `PoleFaceInfo::SetInfo(PoleFace*)` (SectorBend.h 106-112): one object for both faces, so that the second
assignment to its type also holds for the entrance. -/
def setInfo1 (e : Face) : FaceInfo :=
  let e := { e with type := 1 }
  let e := { e with type := 0 }
  ⟨some e, some e⟩

/-- The bunch as far as the steps use it: reference momentum, sign of the charge and mass. -/
structure Bunch where
  p0 : ℝ
  q : ℝ
  mass : ℝ

/-- A sector bend. -/
structure Bend where
  h : ℝ
  tilt : ℝ
  field : MField ℝ
  faces : FaceInfo

open Classical in
/-- `SectorBendCI::ApplyPoleFaceRotation` (TransportIntegrators.cpp 312-331): without a face all values are zero,
also the type.  `ec` is the product of `eV` and `SpeedOfLight`. -/
def applyFace (ec : ℝ) (c : Bend) (b : Bunch) (pf : Option Face) (v : PS) : Outcome Unit PS :=
  (getKn c.field 1 (b.p0 / ec)).bind fun K =>
  let f := pf.getD ⟨0, 0, 0, 0⟩
  (poleFaceTM c.h K.re f.rot 0 f.fint f.hgap (decide (f.type ≠ 0))).bind fun M => applyMap M v

open Classical in
/-- `RotateBunchAboutZ` (TransportIntegrators.cpp 186-191): below the tolerance of `fequal` nothing is written to
the matrix with four rows (TransportMatrix.h 81-84), whose elements are zero. -/
def rotateZ (eps t : ℝ) (v : PS) : PS :=
  if |t - 0| ≤ eps then ⟨0, 0, 0, 0, v.ct, v.dp⟩
  else ⟨cos t * v.x + -sin t * v.y, cos t * v.px + -sin t * v.py, sin t * v.x + cos t * v.y,
    sin t * v.px + cos t * v.py, v.ct, v.dp⟩

open Classical in
/-- `SectorBendCI::TrackEntrance` (TransportIntegrators.cpp 290-299). -/
def trackEntrance (eps ec : ℝ) (c : Bend) (b : Bunch) (v : PS) : Outcome Unit PS :=
  applyFace ec c b c.faces.entrance (if c.tilt ≠ 0 then rotateZ eps (-c.tilt) v else v)

open Classical in
/-- `SectorBendCI::TrackExit` (TransportIntegrators.cpp 301-310). -/
def trackExit (eps ec : ℝ) (c : Bend) (b : Bunch) (v : PS) : Outcome Unit PS :=
  (applyFace ec c b c.faces.exit v).bind fun w => .ok (if c.tilt ≠ 0 then rotateZ eps c.tilt w else w)

/-- `MultipoleKick` (TransportIntegrators.cpp 57-78): constructor and operator. -/
def kick (eps ec : ℝ) (m : MField ℝ) (ds : ℝ) (b : Bunch) (phi : ℝ) (v : PS) : Outcome Unit PS :=
  if b.p0 = 0 ∨ 1 + v.dp = 0 then .ub
  else
    let scale : Cx ℝ := Cx.smul (b.q * ds * ec / b.p0) ⟨cos phi, sin phi⟩
    (getField2D eps m v.x v.y (-1)).bind fun B =>
      let F := scale * B
      .ok { v with px := v.px + -(F.re / (1 + v.dp)), py := v.py + F.im / (1 + v.dp) }

/-- `SectorBend::GetMatchedMomentum` (SectorBend.cpp 86-93), `cl` being `1.0e-09 * SpeedOfLight`. -/
def matchedMomentum (cl h q by' : ℝ) : ℝ := cl * by' / h / q

open Classical in
/-- `gamma` of a step (TransportIntegrators.cpp 233-234). -/
def gammaOf (b : Bunch) : Option ℝ := if b.mass = 0 then none else some √(1 + (b.p0 / b.mass) ^ 2)

open Classical in
/-- Application of the map with or without scaling of the momentum (TransportIntegrators.cpp 249-256, 272-279);
`tol` is the tolerance `REL_ENGY_TOL`. -/
def applyBend (tol : ℝ) (M : RT) (p0 pref : ℝ) (v : PS) : Outcome Unit PS :=
  if |p0 - pref| ≤ tol then applyMap M v else applyMap1 M (p0 / pref) v

open Classical in
/-- `SectorBendCI::TrackStep` (TransportIntegrators.cpp 212-288) with the field after the step.  A curvature of zero,
for which the matched momentum or the map is undefined, is outcome `ub`.  `GetCoefficient` and `SetCoefficient`
enlarge the expansion of the field. -/
def trackBend (eps tol ec cl : ℝ) (c : Bend) (b : Bunch) (ds : ℝ) (v : PS) : Outcome Unit (PS × MField ℝ) :=
  if ds = 0 then .ok (v, c.field)
  else
  let g0 := getCoefficient c.field 0 1
  let m := g0.2
  let b0 := g0.1
  if c.h = 0 ∨ b.q = 0 then .ub
  else
  let pref := matchedMomentum cl c.h b.q (b0.re * m.b0)
  if ¬ 0 < pref then .ub
  else
    (if highest m > 0 then (getKn m 1 (b.p0 / ec)).bind fun k => .ok (Cx.smul b.q k) else .ok 0).bind fun K1 =>
    let split := b0.im ≠ 0 ∨ K1.im ≠ 0 ∨ highest m > 1
    let len := if split then ds / 2 else ds
    (if K1 = 0 then sectorBendTM len c.h (gammaOf b) else genSectorBendTM len c.h K1.re 0).bind fun M =>
    (applyBend tol M b.p0 pref v).bind fun v1 =>
    if split then
      let g1 := getCoefficient m 1 1
      let b1 := g1.1
      let m1 := setCoefficient g1.2 0 ⟨0, b0.im⟩ 1
      let m2 := setCoefficient m1 1 ⟨0, b1.im⟩ 1
      (kick eps ec m2 ds b 0 v1).bind fun v2 =>
      (applyBend tol M b.p0 pref v2).bind fun v3 =>
      .ok (v3, setCoefficient (setCoefficient m2 0 b0 1) 1 b1 1)
    else .ok (v1, m)

/-- The passage of a bend in one step: entrance, step, exit (ComponentIntegrator.h 169-186 and
TransportIntegrators.cpp 212-310; the field after the step is not shown). -/
def trackThrough (eps tol ec cl : ℝ) (c : Bend) (b : Bunch) (ds : ℝ) (v : PS) : Outcome Unit PS :=
  (trackEntrance eps ec c b v).bind fun v1 =>
  (trackBend eps tol ec cl c b ds v1).bind fun r => trackExit eps ec { c with field := r.2 } b r.1

end

end Verif.TransportMaps
