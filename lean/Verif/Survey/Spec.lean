import Verif.Survey.Model

/-!
# Specification of the survey
-/

namespace Verif.Survey.Spec
open Verif.Survey

variable {K : Type} [Field K] [LinearOrder K]

/-- `r` is the distance from the axis to the edge in direction `d`: inside below, outside above. -/
def Edge (ap : Ap K) (s : K) (d : K × K) (r : K) : Prop :=
  ∀ a, 0 ≤ a → (a < r → ap (d.1 * a) (d.2 * a) s = true) ∧ (r < a → ap (d.1 * a) (d.2 * a) s = false)

/-- The lengths before an element. -/
def starts : K → List (Elem K) → List (K × Elem K)
  | _, [] => []
  | s, e :: l => (s, e) :: starts (s + e.len) l

/-- Every element is where the lengths before it put it. -/
def InPlace (l : List (Elem K)) : Prop := ∀ se ∈ starts 0 l, se.2.pos = se.1

/-- A row tells of an element which starts at `se.1`: its name, its end and length, and the limits of its aperture at the
place of the row, one metre each if it has no aperture. -/
def RowOf [IsStrictOrderedRing K] [FloorRing K] (se : K × Elem K) (w : Row K) : Prop :=
  w.name = se.2.name ∧ w.len = se.2.len ∧ w.sEnd = se.2.pos + se.2.len ∧
  w.lims = (match se.2.ap with
    | none => [1, 1, 1, 1]
    | some ap => [(1, 0), (-1, 0), (0, 1), (0, -1)].map (limit ap (w.s - se.1)))

end Verif.Survey.Spec
