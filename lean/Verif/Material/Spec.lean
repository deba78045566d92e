import Verif.Material.Model

/-!
# Specification of mixtures

A mixture is given by its parts: amount (number of atoms in any unit) and material.
-/

namespace Verif.Material.Spec
open Verif.Material

section
variable {K : Type} [Field K]

/-- A sum over the parts. -/
def total (f : K → Props K → K) (l : List (K × Mat K)) : K := (l.map fun x => f x.1 x.2.p).sum

/-- Atoms of each part in a unit of volume, times 1e-28 (barn): Avogadro's number times the density of the whole over the mass
of a mole of the whole, by the share of the part. -/
def perVolume (l : List (K × Mat K)) (density amount : K) : K :=
  6022 / 100000000 * density * 1000 * amount / total (fun q p => q * p.A) l

/-- The mass of a part in a unit of volume. -/
def partDensity (l : List (K × Mat K)) (density amount a : K) : K := density * (amount * a) / total (fun q p => q * p.A) l

/-- The rate of interactions in a unit of length. -/
def rate (l : List (K × Mat K)) (density : K) : K :=
  total (fun q p => perVolume l density q * (p.sT + p.sR)) l

end

/-- The part that a random number selects, if part `i` has probability `v i`: the one with `v 0 + .. + v (i-1) < r` and
`r ≤ v 0 + .. + v i`. -/
def Selected {K : Type} [Field K] [LinearOrder K] (v : List K) (r : K) (i : Nat) : Prop :=
  i < v.length ∧ (v.take i).sum < r ∧ r ≤ (v.take (i + 1)).sum

end Verif.Material.Spec
