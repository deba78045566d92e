import Verif.SliceWake.Model

/-!
# Specification of the wake of a bunch of slices
-/

namespace Verif.SliceWake.Spec
open Verif Verif.LinMap Verif.Slices Verif.SliceWake

variable {K : Type} [Field K] [LinearOrder K]

/-- The charge of some macro-particles. -/
def charge (l : List (Slice K)) : K := (l.map (·.q)).sum

/-- The sum of a coordinate weighted with the charge. -/
def weighted (l : List (Slice K)) (i : Nat) : K := (l.map fun p => p.q * p.x i).sum

/-- What `z` and `q` of a slice ought to be: the mean of `ct` and the charge of its macro-particles. -/
def Honest (b : Bin K) : Prop := b.q = charge b.mem ∧ b.z * charge b.mem = weighted b.mem 4

/-- The momentum of a macro-particle for the reference momentum `p`. -/
def momentum (p : K) (s : Slice K) : K := p * (1 + s.x 5)

/-- The longitudinal wake on slice `b` if `ahead` are the slices ahead of it: half its own charge counts. -/
def wakeOn (wlong : K → K) (b : Bin K) (ahead : List (Bin K)) : K :=
  wlong 0 * b.q / 2 + (ahead.map fun a => wlong (a.z - b.z) * a.q).sum

/-- The transverse wake on slice `b`: every macro-particle ahead counts with its charge and its offset. -/
def wakeAcross (wtrans : K → K) (b : Bin K) (ahead : List (Bin K)) (i : Nat) : K :=
  (ahead.map fun a => wtrans (a.z - b.z) * weighted a.mem i).sum

/-- What a kick has to do with a macro-particle: `k` are the changes of the three momenta, `p0` and `p1` the reference
momenta before and after. -/
structure Kicked (p0 p1 kx ky kz : K) (s s' : Slice K) : Prop where
  along : momentum p1 s' = momentum p0 s + kz
  across_x : momentum p1 s' * s'.x 1 = momentum p0 s * s.x 1 + kx
  across_y : momentum p1 s' * s'.x 3 = momentum p0 s * s.x 3 + ky
  place : ∀ i, i ≠ 1 → i ≠ 3 → i ≠ 5 → s'.x i = s.x i
  charge : s'.q = s.q

/-- The matrix of second moments after the slopes have been divided by the ratio of the momenta. -/
def Scaled (r : K) (c c' : Cov K) (i j : Nat) : Prop :=
  sig 4 c' i j = (if i = 1 ∨ i = 3 then r else 1) * (if j = 1 ∨ j = 3 then r else 1) * sig 4 c i j

end Verif.SliceWake.Spec
