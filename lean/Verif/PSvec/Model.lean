import Mathlib.Data.Fin.Basic

/-!
# Comparison of phase space vectors (Merlin++/PSvector.h)

Here a double is its 64 bits, since the comparison looks at them.  The bytes of a double are taken from the least on; another
order of the bytes in memory gives the same result.
-/

namespace Verif.PSvec

/-- `PSvector` (PSvector.h 217-218). -/
structure PS where
  v : Fin 6 → BitVec 64
  pid : Int

/-- Byte `k` of a double in memory. -/
def byte (x : BitVec 64) (k : ℕ) : ℕ := x.toNat / 256 ^ k % 256

/-- `memcmp(p, q, n) == 0`, all of the first `n` bytes being equal; byte `k` of the six doubles is byte `k % 8` of double `k / 8`. -/
def memEq (p q : Fin 6 → BitVec 64) : ℕ → Bool
  | 0 => true
  | n + 1 => memEq p q n && decide (byte (p (Fin.ofNat 6 (n / 8))) (n % 8) = byte (q (Fin.ofNat 6 (n / 8))) (n % 8))

/-- `operator==` (PSvector.h 128-131): `PS_LENGTH * sizeof(double)` bytes. -/
def eq (p q : PS) : Bool := memEq p.v q.v (6 * 8)

/-- `operator!=` (PSvector.h 133-136). -/
def ne (p q : PS) : Bool := !memEq p.v q.v (6 * 8)

end Verif.PSvec
