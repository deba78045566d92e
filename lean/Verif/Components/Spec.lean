import Mathlib.MeasureTheory.Integral.IntervalIntegral.Basic
import Verif.Components.Model

/-!
# What components should do

Written without the functions of the model other than its data types.
-/

namespace Verif.Components
open Verif

noncomputable section

/-- The energy per charge which a longitudinal field `E z t` gives to a particle that enters at time `late` and runs
along `len` with speed `cl`. -/
def work (cl : ℝ) (E : ℝ → ℝ → ℝ) (len late : ℝ) : ℝ := ∫ z in (0 : ℝ)..len, E z (z / cl + late)

/-- The Lorentz force `q (E + v × B)`. -/
def lorentz (q : ℝ) (E B v : V3) : V3 :=
  ⟨q * E.x + q * (v.y * B.z - v.z * B.y), q * E.y + q * (v.z * B.x - v.x * B.z), q * E.z + q * (v.x * B.y - v.y * B.x)⟩

/-- A point or vector turned by 180 degrees about the vertical axis. -/
def turned (v : V3) : V3 := ⟨-v.x, v.y, -v.z⟩

/-- `F'` is the vector field `F` turned by 180 degrees about the vertical axis. -/
def TurnedField (F F' : V3 → V3) : Prop := ∀ p, F' (turned p) = turned (F p)

/-- The mirror image of a particle in the vertical plane of the reference orbit. -/
def mirror (v : Symplectic.PS) : Symplectic.PS := { v with x := -v.x, px := -v.px }

/-- The pole face at an address. -/
def At (h : Heap) (a : Nat) (f : Face) : Prop := h[a]? = some (some f)

/-- The addresses of the faces of a bend. -/
def faces (i : Info) : List Nat := i.entrance.toList ++ i.exit.toList

/-- All faces of the bend are alive. -/
def Alive (h : Heap) (i : Info) : Prop := ∀ a ∈ faces i, ∃ f, At h a f

/-- Two bends share no face. -/
def Apart (i j : Info) : Prop := ∀ a ∈ faces i, a ∉ faces j

/-- The pointer leads to the same values as another one in its memory. -/
def SameFace (h : Heap) (p : Option Nat) (h' : Heap) (p' : Option Nat) : Prop :=
  match p, p' with
  | none, none => True
  | some a, some b => ∃ f, At h a f ∧ At h' b f
  | _, _ => False

end

end Verif.Components
