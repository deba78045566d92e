import Verif.Frame.Model

/-!
# Specification for geometries
-/

namespace Verif.Frame.Spec
open Verif

variable {K G : Type} [Field K] [LinearOrder K] [Group G]

/-- A geometry described by a moving frame `φ`: `φ s` takes coordinates of some fixed frame to
those of the local frame at `s`.  Transforms lead from one local frame to another; positions are
taken in the order of the beam. -/
structure Lawful (g : Geo K G) (φ : K → G) : Prop where
  nonneg : 0 ≤ g.len
  extent : g.second - g.first = g.len
  forward : ∀ a b, g.first ≤ a → a ≤ b → b ≤ g.second → g.transform a b = .ok (φ b * (φ a)⁻¹)
  total : g.total = φ g.second * (φ g.first)⁻¹

/-- The sum of the lengths. -/
def sumLen : List (Geo K G) → K
  | [] => 0
  | f :: fs => f.len + sumLen fs

/-- The transforms of all frames, in the order of the beam: the last one acts last. -/
def prodTotal : List (Geo K G) → G
  | [] => 1
  | f :: fs => prodTotal fs * f.total

/-- `f` sits in the list `fs` whose first frame begins at `s0`, with its origin at `p`. -/
def SitsAt (s0 : K) (fs : List (Geo K G)) (f : Geo K G) (p : K) : Prop :=
  ∃ pre post, fs = pre ++ f :: post ∧ p + f.first = s0 + sumLen pre

/-- A list of (frame, position of its origin) that fills the interval from `a` to `b` end to end. -/
def Tiles : List (Geo K G × K) → K → K → Prop
  | [], a, b => a = b
  | (f, p) :: l, a, b => p + f.first = a ∧ Tiles l (p + f.second) b

end Verif.Frame.Spec
