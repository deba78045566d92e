import Verif.ATL.Model
import Verif.MultiNormal.Spec

/-!
# Specification of the ATL law
-/

namespace Verif.ATL.Spec
open Verif.ATL

variable {K : Type} [Field K] [LinearOrder K]

/-- A random number of mean zero and the given variance: `d` lists the streams of numbers with their weights. -/
def Moments (d : List (K × (Nat → K))) (f : (Nat → K) → K) (v : K) : Prop :=
  MultiNormal.Spec.average d f = 0 ∧ MultiNormal.Spec.average d (fun x => f x * f x) = v

/-- The ground motion at a support. -/
def motion (s : Simple K) (i : Nat) : K := s.gm.getD i 0

/-- The vertical offset of a support in a list. -/
def height (l : List (Sup K)) (i : Nat) : K := ((l[i]?).map fun s => s.off.2.1).getD 0

/-- The vertical offset of a support. -/
def offset (s : Simple K) (i : Nat) : K := height s.sup i

/-- The arc position of a support. -/
def arc (s : Simple K) (i : Nat) : K := ((s.sup[i]?).map fun s => s.arc).getD 0

end Verif.ATL.Spec
