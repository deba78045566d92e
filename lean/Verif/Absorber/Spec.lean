import Verif.Absorber.Model
import Mathlib.MeasureTheory.Integral.Bochner.Basic

/-! # What is claimed about scattering in a block -/

namespace Verif.Absorber.Spec

open MeasureTheory

/-- Two uncorrelated random variables of variance one and mean zero. -/
structure Standard {Ω : Type} [MeasurableSpace Ω] (μ : Measure Ω) (Z1 Z2 : Ω → ℝ) : Prop where
  i1 : Integrable (fun w => Z1 w * Z1 w) μ
  i2 : Integrable (fun w => Z2 w * Z2 w) μ
  i12 : Integrable (fun w => Z1 w * Z2 w) μ
  e1 : ∫ w, Z1 w * Z1 w ∂μ = 1
  e2 : ∫ w, Z2 w * Z2 w ∂μ = 1
  e12 : ∫ w, Z1 w * Z2 w ∂μ = 0

/-- Second moments of a displacement and an angle: ⟨yy⟩, ⟨yθ⟩, ⟨θθ⟩. -/
noncomputable def moments {Ω : Type} [MeasurableSpace Ω] (μ : Measure Ω) (s : Ω → ℝ × ℝ) : ℝ × ℝ × ℝ :=
  (∫ w, (s w).1 * (s w).1 ∂μ, ∫ w, (s w).1 * (s w).2 ∂μ, ∫ w, (s w).2 * (s w).2 ∂μ)

/-- Second moments after a straight flight of length `l`. -/
def drift (l : ℝ) (m : ℝ × ℝ × ℝ) : ℝ × ℝ × ℝ := (m.1 + 2 * l * m.2.1 + l ^ 2 * m.2.2, m.2.1 + l * m.2.2, m.2.2)

end Verif.Absorber.Spec
