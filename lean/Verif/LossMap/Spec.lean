import Verif.LossMap.Model

/-!
# Specification of loss maps
-/

namespace Verif.LossMap.Spec
open Verif Verif.LossMap

variable {K : Type} [Field K] [LinearOrder K]

/-- Components that follow each other in a line, with a name for each and a length above zero. -/
def Line (cs : List (Comp K)) : Prop :=
  (∀ c ∈ cs, 0 < c.len) ∧
  ∀ c ∈ cs, ∀ d ∈ cs, (c.qname = d.qname → c = d) ∧
    (c.qname ≠ d.qname → c.s + c.len ≤ d.s ∨ d.s + d.len ≤ c.s)

/-- Number of losses in the named component between `a` and `b`. -/
def lostIn (ls : List (Comp K × K × Int)) (n : String) (a b : K) : Nat :=
  (ls.filter fun l => decide (l.1.qname = n ∧ a ≤ l.2.1 ∧ l.2.1 < b)).length

/-- Number of losses in the named component. -/
def lostAt (ls : List (Comp K × K × Int)) (n : String) : Nat := (ls.filter fun l => decide (l.1.qname = n)).length

/-- Number of losses at a position along the lattice. -/
def lostThere (ls : List (Comp K × K × Int)) (x : K) : Nat := (ls.filter fun l => decide (l.1.s + l.2.1 = x)).length

/-- An order in which `sort` can leave the records. -/
def SortedFrom (dead sorted : List (LossData K)) : Prop :=
  sorted.Perm dead ∧ sorted.Pairwise fun a b => compare b a = false

end Verif.LossMap.Spec
