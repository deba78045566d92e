import Verif.Multipole.Model

/-!
# Specification of multipole fields
-/

namespace Verif.Multipole.Spec
open Verif Verif.Multipole

variable {K : Type} [Field K]

/-- A real number as complex number. -/
def ofReal (k : K) : Cx K := ⟨k, 0⟩

/-- The n-th coefficient, zero beyond the end. -/
def coeff (l : List (Cx K)) (n : Nat) : Cx K := l[n]?.getD 0

/-- The sum of the terms with index above `k`. -/
def series (l : List (Cx K)) (k : Int) (z : Cx K) : Cx K :=
  ((List.range l.length).map (fun n : Nat => if k < (n : Int) then coeff l n * z ^ n else 0)).sum

/-- Formal derivative of a power series. -/
def deriv : List (Cx K) → List (Cx K)
  | [] => []
  | _ :: l => l.mapIdx (fun i c => ofReal ((i + 1 : Nat) : K) * c)

/-- Complex conjugate. -/
def conj (z : Cx K) : Cx K := ⟨z.re, -z.im⟩

/-- Vector product. -/
def cross (a b : Vec K) : Vec K := ⟨a.y * b.z - a.z * b.y, a.z * b.x - a.x * b.z, a.x * b.y - a.y * b.x⟩

/-- A vector field in the plane turned by 180 degrees about the vertical axis: the value at a point is the
turned value at the point turned back. -/
def turned (f : K → K → K × K) (x y : K) : K × K := (-(f (-x) y).1, (f (-x) y).2)

end Verif.Multipole.Spec
