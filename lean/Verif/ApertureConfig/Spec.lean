import Verif.ApertureConfig.Model
import Verif.Aperture.Spec

/-!
# Specification of the configuration of apertures
-/

namespace Verif.ApertureConfig.Spec
open Verif Verif.Aperture Verif.ApertureConfig

variable {K : Type} [Field K] [LinearOrder K]

/-- Elements one behind the other, none of negative length. -/
def Ordered (l : List (Source K)) : Prop :=
  (∀ r ∈ l, 0 ≤ r.len) ∧ l.Pairwise (fun a b => a.row.s ≤ b.row.s - b.len)

/-- Some dimension is given. -/
def HasAperture (r : Source K) : Prop := r.row.ap1 ≠ 0 ∨ r.row.ap2 ≠ 0 ∨ r.row.ap3 ≠ 0 ∨ r.row.ap4 ≠ 0

/-- Rows of the table in sequence, the first not behind the position and the last behind the end. -/
def Covers (l seg : List (Entry K)) (pos len : K) : Prop :=
  (∃ p q, l = p ++ seg ++ q) ∧ (∃ a, seg.head? = some a ∧ a.s ≤ pos) ∧
    ∃ b, seg.getLast? = some b ∧ pos + len < b.s

end Verif.ApertureConfig.Spec
