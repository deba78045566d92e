import Mathlib.Analysis.SpecialFunctions.Complex.Arg
import Mathlib.Data.Matrix.Mul

/-!
# Specification: lattice functions and phase advance
-/

namespace Verif.Twiss.Spec

abbrev PS := Fin 6 → ℝ

/-- The particle behind some components. -/
def behind (fs : List (PS → PS)) (p : PS) : PS := fs.foldl (fun x f => f x) p

/-- The quotients of differences of a map at `p` in the first `n` coordinates. -/
noncomputable def gradient {n : Nat} (hn : n ≤ 6) (g : PS → PS) (delta : ℝ) (p : PS) : Matrix (Fin n) (Fin n) ℝ := fun r c =>
  (g (fun i => if i.val = c.val then p i + delta else p i) (Fin.castLE hn r) - g p (Fin.castLE hn r)) / delta

/-- The lattice function of the coordinates `i` and `j` from the two columns `a` and `b` of a plane. -/
def twiss {n : Nat} (m : Matrix (Fin n) (Fin n) ℝ) (i j a b : Fin n) : ℝ := m i a * m j a + m i b * m j b

/-- The point (x, y) lies at the angle `v` (in turns), seen from the origin. -/
def Angle (x y v : ℝ) : Prop :=
  x = Real.sqrt (x ^ 2 + y ^ 2) * Real.cos (2 * Real.pi * v) ∧ y = Real.sqrt (x ^ 2 + y ^ 2) * Real.sin (2 * Real.pi * v)

/-- A function of two coordinates carried along by a matrix. -/
def carried {n : Nat} (g : Matrix (Fin n) (Fin n) ℝ) (b : Fin n → Fin n → ℝ) (i j : Fin n) : ℝ :=
  ∑ x, ∑ y, g i x * g j y * b x y

end Verif.Twiss.Spec
