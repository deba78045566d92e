import Mathlib.Algebra.BigOperators.Group.List.Basic
import Verif.LinMap.Model

/-!
# Specification of covariance matrices and linear maps
-/

namespace Verif.LinMap.Spec
open Verif Verif.LinMap

variable {K : Type} [Field K]

/-- Sum over the numbers below `n`. -/
def sumTo (n : Nat) (f : Nat → K) : K := ((List.range n).map f).sum

/-- The matrix of a list of terms: equal indices add up. -/
def mat (m : Map K) (i j : Nat) : K := ((m.filter (fun t => decide (t.i = i ∧ t.j = j))).map (·.val)).sum

/-- The coefficients of a list of second order terms. -/
def mat3 (m : List (Tijk K)) (i j k : Nat) : K :=
  ((m.filter (fun t => decide (t.i = i ∧ t.j = j ∧ t.k = k))).map (·.val)).sum

/-- Matrix times vector. -/
def mulVec (n : Nat) (r : Nat → Nat → K) (x : Nat → K) (i : Nat) : K := sumTo n (fun j => r i j * x j)

/-- `R S Rᵀ`. -/
def conjugate (n : Nat) (r : Nat → Nat → K) (s : Nat → Nat → K) (i j : Nat) : K :=
  sumTo n (fun k => sumTo n (fun l => r i k * r j l * s k l))

/-- No two terms of the map have the same indices. -/
def Distinct (m : Map K) : Prop := (m.map (fun t => (t.i, t.j))).Nodup

/-- All terms are within a matrix. -/
def Within (n : Nat) (m : Map K) : Prop := ∀ t ∈ m, t.i < n ∧ t.j < n

/-- The matrix of a drift. -/
def driftMat (z : K) (i j : Nat) : K :=
  if i = j then 1 else if (i = 0 ∧ j = 1) ∨ (i = 2 ∧ j = 3) then z else 0

/-- Two planes. -/
def blocks (rx ry : R2 K) (i j : Nat) : K :=
  match i, j with
  | 0, 0 => rx.r11 | 0, 1 => rx.r12 | 1, 0 => rx.r21 | 1, 1 => rx.r22
  | 2, 2 => ry.r11 | 2, 3 => ry.r12 | 3, 2 => ry.r21 | 3, 3 => ry.r22
  | _, _ => 0

end Verif.LinMap.Spec
