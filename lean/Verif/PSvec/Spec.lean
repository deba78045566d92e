import Mathlib.Algebra.Ring.Int.Defs
import Mathlib.Tactic.NormNum

/-! # What a double is worth (IEEE 754, binary64) -/

namespace Verif.PSvec.Spec

/-- No number, an infinity with its sign, or a number in units of `2 ^ -1074`. -/
inductive Val
  | nan
  | inf (neg : Bool)
  | fin (z : ℤ)
  deriving DecidableEq

def neg (x : BitVec 64) : Bool := decide (2 ^ 63 ≤ x.toNat)

/-- The biased exponent, eleven bits. -/
def expo (x : BitVec 64) : ℕ := x.toNat / 2 ^ 52 % 2 ^ 11

/-- The fraction, 52 bits. -/
def frac (x : BitVec 64) : ℕ := x.toNat % 2 ^ 52

/-- The absolute value of a number: exponents zero and one have the same unit, and above zero there is a leading bit. -/
def size (x : BitVec 64) : ℕ := if expo x = 0 then frac x else (2 ^ 52 + frac x) * 2 ^ (expo x - 1)

def val (x : BitVec 64) : Val :=
  if expo x = 2047 then (if frac x = 0 then .inf (neg x) else .nan)
  else .fin (if neg x then -(size x : ℤ) else size x)

/-- Equality of doubles: nothing is equal to what is no number. -/
def Equal (x y : BitVec 64) : Prop := val x = val y ∧ val x ≠ .nan

/-- The bits of one and of the two zeros. -/
def one : BitVec 64 := 0x3FF0000000000000#64
def zero : BitVec 64 := 0#64
def negZero : BitVec 64 := 0x8000000000000000#64

end Verif.PSvec.Spec
