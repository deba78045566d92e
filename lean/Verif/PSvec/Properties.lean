import Mathlib.Tactic.Linarith
import Mathlib.Tactic.Ring
import Verif.PSvec.Model
import Verif.PSvec.Spec

/-! # Properties of the comparison of phase space vectors -/

namespace Verif.PSvec
open Verif.PSvec.Spec

theorem byte_ext {x y : BitVec 64} (h : ∀ k < 8, byte x k = byte y k) : x = y := by
  apply BitVec.eq_of_toNat_eq
  have hx := x.isLt
  have hy := y.isLt
  have h0 := h 0 (by omega)
  have h1 := h 1 (by omega)
  have h2 := h 2 (by omega)
  have h3 := h 3 (by omega)
  have h4 := h 4 (by omega)
  have h5 := h 5 (by omega)
  have h6 := h 6 (by omega)
  have h7 := h 7 (by omega)
  simp only [byte] at h0 h1 h2 h3 h4 h5 h6 h7
  omega

theorem memEq_iff (p q : Fin 6 → BitVec 64) (n : ℕ) : memEq p q n = true ↔
    ∀ k < n, byte (p (Fin.ofNat 6 (k / 8))) (k % 8) = byte (q (Fin.ofNat 6 (k / 8))) (k % 8) := by
  induction n with
  | zero => simp [memEq]
  | succ n ih =>
    rw [memEq, Bool.and_eq_true, ih, decide_eq_true_iff]
    constructor
    · rintro ⟨h1, h2⟩ k hk
      rcases Nat.lt_succ_iff_lt_or_eq.1 hk with h | rfl
      · exact h1 k h
      · exact h2
    · intro h
      exact ⟨fun k hk => h k (by omega), h n (by omega)⟩

/-- The vectors are equal just if all bits of all six coordinates are; the identities do not matter. -/
theorem eq_bits (p q : PS) : (eq p q = true ↔ ∀ i, p.v i = q.v i) ∧ ne p q = !eq p q := by
  refine ⟨?_, rfl⟩
  rw [eq, memEq_iff]
  constructor
  · intro h i
    apply byte_ext
    intro k hk
    have := h (i.val * 8 + k) (by omega)
    rw [show (i.val * 8 + k) / 8 = i.val by omega, show (i.val * 8 + k) % 8 = k by omega] at this
    rwa [show Fin.ofNat 6 i.val = i from Fin.ext (Nat.mod_eq_of_lt i.isLt)] at this
  · intro h k _
    rw [h]

theorem size_inj {x y : BitVec 64} (h : size x = size y) : expo x = expo y ∧ frac x = frac y := by
  have fx : frac x < 2 ^ 52 := Nat.mod_lt _ (by norm_num)
  have fy : frac y < 2 ^ 52 := Nat.mod_lt _ (by norm_num)
  have key : ∀ (a b : ℕ) (f g : ℕ), f < 2 ^ 52 → a < b → (2 ^ 52 + f) * 2 ^ a ≠ (2 ^ 52 + g) * 2 ^ b := by
    intro a b f g hf hab he
    obtain ⟨d, rfl⟩ := Nat.exists_eq_add_of_lt hab
    rw [show a + d + 1 = (d + 1) + a by omega, pow_add, ← mul_assoc] at he
    have h1 := Nat.eq_of_mul_eq_mul_right (Nat.pow_pos (by norm_num)) he
    have h2 : 2 ≤ 2 ^ (d + 1) := by
      have := Nat.one_le_two_pow (n := d)
      rw [pow_succ]; omega
    have h3 : (2 ^ 52 + g) * 2 ≤ (2 ^ 52 + g) * 2 ^ (d + 1) := Nat.mul_le_mul_left _ h2
    omega
  have low : ∀ (f g b : ℕ), f < 2 ^ 52 → f ≠ (2 ^ 52 + g) * 2 ^ b := by
    intro f g b hf he
    have h2 : (2 ^ 52 + g) * 1 ≤ (2 ^ 52 + g) * 2 ^ b := Nat.mul_le_mul_left _ Nat.one_le_two_pow
    omega
  unfold size at h
  split at h <;> split at h
  next h1 h2 => exact ⟨by omega, h⟩
  next h1 h2 => exact absurd h (low _ _ _ fx)
  next h1 h2 => exact absurd h.symm (low _ _ _ fy)
  next h1 h2 =>
    rcases Nat.lt_trichotomy (expo x - 1) (expo y - 1) with h3 | h3 | h3
    · exact absurd h (key _ _ _ _ fx h3)
    · rw [h3] at h
      have := Nat.eq_of_mul_eq_mul_right (Nat.pow_pos (by norm_num)) h
      exact ⟨by omega, by omega⟩
    · exact absurd h.symm (key _ _ _ _ fy h3)

theorem bits_ext {x y : BitVec 64} (h1 : neg x = neg y) (h2 : expo x = expo y) (h3 : frac x = frac y) : x = y := by
  apply BitVec.eq_of_toNat_eq
  have hx := x.isLt
  have hy := y.isLt
  unfold expo at h2
  unfold frac at h3
  unfold neg at h1
  have h1 := decide_eq_decide.1 h1
  omega

theorem size_zero {x : BitVec 64} (h : size x = 0) : x = zero ∨ x = negZero := by
  have hz : size zero = 0 := by decide
  have := size_inj (h.trans hz.symm)
  have h0 : expo zero = 0 ∧ frac zero = 0 := by decide
  have h1 : expo negZero = 0 ∧ frac negZero = 0 := by decide
  by_cases hn : neg x = true
  · exact .inr (bits_ext (hn.trans (by decide)) (by omega) (by omega))
  · exact .inl (bits_ext ((Bool.eq_false_iff.2 hn).trans (by decide)) (by omega) (by omega))

/-- Doubles are equal just if all bits are and they are numbers or infinite, or if both are zero. -/
theorem equal_iff (x y : BitVec 64) : Equal x y ↔ (x = y ∧ val x ≠ .nan) ∨ (x = zero ∨ x = negZero) ∧ (y = zero ∨ y = negZero) := by
  constructor
  · rintro ⟨h, hn⟩
    by_cases hx : expo x = 2047
    · left
      refine ⟨?_, hn⟩
      by_cases hf : frac x = 0
      · have e : val x = .inf (neg x) := by rw [val, if_pos hx, if_pos hf]
        rw [e] at h
        unfold val at h
        split at h
        next hy =>
          split at h
          next hg => exact bits_ext (Val.inf.inj h) (hx.trans hy.symm) (hf.trans hg.symm)
          next => cases h
        next => cases h
      · exact absurd (by rw [val, if_pos hx, if_neg hf]) hn
    · have e : val x = .fin (if neg x then -(size x : ℤ) else size x) := by rw [val, if_neg hx]
      rw [e] at h
      generalize hw : (if neg x then -(size x : ℤ) else size x) = w at h
      unfold val at h
      split at h
      next =>
        split at h
        · cases h
        · cases h
      next hy =>
        have hv := hw.trans (Val.fin.inj h)
        by_cases hs : neg x = neg y
        · left
          refine ⟨?_, hn⟩
          have : size x = size y := by
            rw [hs] at hv
            split at hv <;> omega
          exact bits_ext hs (size_inj this).1 (size_inj this).2
        · right
          have : size x = 0 ∧ size y = 0 := by
            cases h1 : neg x <;> cases h2 : neg y <;> simp only [h1, h2, not_true_eq_false, if_true, if_false,
              Bool.false_eq_true] at hs hv <;> omega
          exact ⟨size_zero this.1, size_zero this.2⟩
  · rintro (⟨rfl, h⟩ | ⟨h1, h2⟩)
    · exact ⟨rfl, h⟩
    · unfold Equal
      rcases h1 with rfl | rfl <;> rcases h2 with rfl | rfl <;> decide

/-- For vectors of numbers without negative zeros the comparison is that of the coordinates. -/
theorem eq_numbers {p q : PS} (hp : ∀ i, val (p.v i) ≠ .nan) (hp0 : ∀ i, p.v i ≠ negZero) (hq0 : ∀ i, q.v i ≠ negZero) :
    eq p q = true ↔ ∀ i, Equal (p.v i) (q.v i) := by
  rw [(eq_bits p q).1]
  refine forall_congr' fun i => ?_
  rw [equal_iff]
  constructor
  · exact fun h => .inl ⟨h, hp i⟩
  · rintro (h | ⟨h1 | h1, h2 | h2⟩)
    · exact h.1
    · rw [h1, h2]
    · exact absurd h2 (hq0 i)
    · exact absurd h1 (hp0 i)
    · exact absurd h1 (hp0 i)

example : (∀ i, val ((⟨fun _ => one, 3⟩ : PS).v i) ≠ .nan) ∧ ∀ i, (⟨fun _ => one, 3⟩ : PS).v i ≠ negZero :=
  ⟨fun _ => show val one ≠ .nan by decide, fun _ => show one ≠ negZero by decide⟩

/-- Violated: vectors of which all coordinates are equal are not, if one has a negative zero; and a vector without numbers is
equal to itself. -/
theorem eq_violated : (∃ p q : PS, (∀ i, Equal (p.v i) (q.v i)) ∧ eq p q = false ∧ ne p q = true) ∧
    ∃ p : PS, (∀ i, ¬ Equal (p.v i) (p.v i)) ∧ eq p p = true := by
  refine ⟨⟨⟨fun _ => zero, 0⟩, ⟨fun _ => negZero, 0⟩, fun i => (equal_iff _ _).2 (.inr ⟨.inl rfl, .inr rfl⟩), ?_, ?_⟩,
    ⟨fun _ => 0x7FF8000000000000#64, 0⟩, fun i h => h.2 (show val 0x7FF8000000000000#64 = .nan by decide), ((eq_bits _ _).1).2 fun _ => rfl⟩
  · rw [Bool.eq_false_iff]
    intro h
    exact absurd (((eq_bits _ _).1).1 h 0) (by decide)
  · rw [(eq_bits _ _).2, Bool.not_eq_true', Bool.eq_false_iff]
    intro h
    exact absurd (((eq_bits _ _).1).1 h 0) (by decide)

end Verif.PSvec
