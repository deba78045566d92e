import Verif.Support.Model

/-!
# Specification of support structures
-/

namespace Verif.Support.Spec
open Verif Verif.Rotation Verif.Transform Verif.Support

variable {K : Type} [Field K] [LinearOrder K]

/-- The offsets after an operation. -/
def offsets (o : V3 K × V3 K) : Op K → V3 K × V3 K
  | .set1 v => (v, o.2)
  | .set2 v => (o.1, v)
  | .inc1 v => (vadd o.1 v, o.2)
  | .inc2 v => (o.1, vadd o.2 v)
  | .reset1 => (⟨0, 0, 0⟩, o.2)
  | .reset2 => (o.1, ⟨0, 0, 0⟩)
  | .look => o

/-- What should be seen: a function of the offsets at the time. -/
def seen (want : V3 K → V3 K → T3 K) : V3 K × V3 K → List (Op K) → List (T3 K)
  | _, [] => []
  | o, .look :: l => want o.1 o.2 :: seen want o l
  | o, op :: l => seen want (offsets o op) l

/-- Does an operation move the first or the second support. -/
def touches : Op K → Bool × Bool
  | .set1 _ => (true, false) | .inc1 _ => (true, false) | .reset1 => (true, false)
  | .set2 _ => (false, true) | .inc2 _ => (false, true) | .reset2 => (false, true)
  | .look => (false, false)

/-- Before each look both supports were moved since the last one, or none of them. -/
def Together : Bool × Bool → List (Op K) → Prop
  | _, [] => True
  | m, .look :: l => m.1 = m.2 ∧ Together (false, false) l
  | m, op :: l => Together (m.1 || (touches op).1, m.2 || (touches op).2) l

end Verif.Support.Spec
