import Verif.LinMap.Spec
import Verif.Transport.Model

/-!
# Specification of transport matrices
-/

namespace Verif.Transport.Spec
open Verif Verif.LinMap.Spec

/-- Product of two matrices. -/
noncomputable def mul (n : Nat) (A B : Nat → Nat → ℝ) (i j : Nat) : ℝ := sumTo n (fun k => A i k * B k j)

/-- Identity matrix. -/
def one (i j : Nat) : ℝ := if i = j then 1 else 0

/-- Two matrices of dimension `n` are equal. -/
def Same (n : Nat) (A B : Nat → Nat → ℝ) : Prop := ∀ i j, i < n → j < n → A i j = B i j

/-- The symplectic form on pairs of a coordinate and its momentum. -/
def form (i j : Nat) : ℝ := if i % 2 = 0 ∧ j = i + 1 then 1 else if j % 2 = 0 ∧ i = j + 1 then -1 else 0

/-- `Rᵀ J R = J`, where the sum over the pairs is written out. -/
def Symplectic (n : Nat) (R : Nat → Nat → ℝ) : Prop :=
  ∀ i j, i < n → j < n →
    sumTo (n / 2) (fun k => R (2 * k) i * R (2 * k + 1) j - R (2 * k + 1) i * R (2 * k) j) = form i j

/-- `R l` is the matrix after a length `l` of the linear motion `dX/ds = A X`. -/
def Flow (n : Nat) (A : Nat → Nat → ℝ) (R : ℝ → Nat → Nat → ℝ) : Prop :=
  Same n (R 0) one ∧ ∀ l i j, i < n → j < n → HasDerivAt (fun l => R l i j) (mul n A (R l) i j) l

/-- The linear motion in a magnet with curvature `h` and focusing strengths `Kx` and `Ky`:
`x'' = -Kx x + h δ`, `y'' = -Ky y`, `ct' = -h x`. -/
def magnet (h Kx Ky : ℝ) (i j : Nat) : ℝ :=
  match i, j with
  | 0, 1 => 1 | 1, 0 => -Kx | 1, 5 => h
  | 2, 3 => 1 | 3, 2 => -Ky | 4, 0 => -h
  | _, _ => 0

/-- The linear motion in a solenoid of strength `ks = B/(Bρ)` in canonical momenta: focusing with `(ks/2)²` in the
frame which rotates with `ks/2`. -/
noncomputable def solenoidMotion (ks : ℝ) (i j : Nat) : ℝ :=
  match i, j with
  | 0, 1 => 1 | 2, 3 => 1 | 1, 0 => -(ks / 2) ^ 2 | 3, 2 => -(ks / 2) ^ 2
  | 0, 2 => ks / 2 | 1, 3 => ks / 2 | 2, 0 => -(ks / 2) | 3, 1 => -(ks / 2)
  | _, _ => 0

/-- The orbit of a particle that differs by its momentum only (the last column of the matrix) in a bend: where
`K1 + h² = 0` the solution of the motion, and otherwise that of `SectorBend`, which there is the motion. -/
noncomputable def momentumOrbit (l h K1 : ℝ) (i : Nat) : ℝ :=
  if K1 + h * h = 0 then
    match i with
    | 0 => h * l ^ 2 / 2 | 1 => h * l | 4 => -(h * h * l ^ 3 / 6) | 5 => 1
    | _ => 0
  else Transport.sectorBend 6 l h K1 i 5

/-- Determinant of the block of the plane which begins at `o`. -/
def det2 (R : Nat → Nat → ℝ) (o : Nat) : ℝ := R o o * R (o + 1) (o + 1) - R o (o + 1) * R (o + 1) o

end Verif.Transport.Spec
