import Mathlib.Tactic.Ring
import Mathlib.Tactic.FieldSimp
import Mathlib.Tactic.Linarith
import Mathlib.Tactic.NormNum
import Verif.Tunes.Model
import Verif.Tunes.Spec

/-!
# Lemmas: reversal of bits, reordering, butterflies
-/

namespace Verif.Tunes

open Verif Spec

/-! ## Reversal of bits -/

theorem rev_lt (b x : Nat) : rev b x < 2 ^ b := by
  induction b generalizing x with
  | zero => simp [rev]
  | succ b ih =>
    have h1 := ih (x / 2)
    have h2 : x % 2 < 2 := Nat.mod_lt _ (by decide)
    rw [rev, pow_succ]
    rcases (by omega : x % 2 = 0 ∨ x % 2 = 1) with h | h <;> rw [h] <;> omega

theorem rev_top (b x : Nat) : rev (b + 1) x = 2 * rev b x + x / 2 ^ b % 2 := by
  induction b generalizing x with
  | zero => simp [rev]
  | succ b ih =>
    rw [rev, ih (x / 2), rev, Nat.div_div_eq_div_mul, pow_succ, Nat.mul_comm 2 (2 ^ b)]
    ring

theorem rev_rev_mod (b x : Nat) : rev b (rev b x) = x % 2 ^ b := by
  induction b generalizing x with
  | zero => simp [rev, Nat.mod_one]
  | succ b ih =>
    rw [rev, rev_top b x]
    have h1 : (2 * rev b x + x / 2 ^ b % 2) % 2 = x / 2 ^ b % 2 := by omega
    have h2 : (2 * rev b x + x / 2 ^ b % 2) / 2 = rev b x := by omega
    rw [h1, h2, ih, Nat.mod_pow_succ]
    ring

theorem rev_rev {b x : Nat} (h : x < 2 ^ b) : rev b (rev b x) = x := by
  rw [rev_rev_mod, Nat.mod_eq_of_lt h]

theorem carry_rev (b x : Nat) (h : x + 1 < 2 ^ b) : carry (2 ^ b) (2 * rev b x + 1) = 2 * rev b (x + 1) + 1 := by
  induction b generalizing x with
  | zero => simp at h
  | succ b ih =>
    have hlt := rev_lt b (x / 2)
    have hp : 1 ≤ 2 ^ b := Nat.one_le_two_pow
    have hs : 2 ^ (b + 1) = 2 * 2 ^ b := by rw [pow_succ]; ring
    rcases (by omega : x % 2 = 0 ∨ x % 2 = 1) with hx | hx
    · have e1 : rev (b + 1) x = rev b (x / 2) := by rw [rev, hx]; ring
      have e2 : rev (b + 1) (x + 1) = 2 ^ b + rev b (x / 2) := by
        rw [rev, show (x + 1) % 2 = 1 by omega, show (x + 1) / 2 = x / 2 by omega]; ring
      rw [e1, e2, carry, if_neg (by omega)]
      omega
    · have e1 : rev (b + 1) x = 2 ^ b + rev b (x / 2) := by rw [rev, hx]; ring
      have e2 : rev (b + 1) (x + 1) = rev b (x / 2 + 1) := by
        rw [rev, show (x + 1) % 2 = 0 by omega, show (x + 1) / 2 = x / 2 + 1 by omega]; ring
      rw [e1, e2, carry, if_pos (by omega), show 2 ^ (b + 1) / 2 = 2 ^ b by omega,
        show 2 * (2 ^ b + rev b (x / 2)) + 1 - 2 ^ (b + 1) = 2 * rev b (x / 2) + 1 by omega]
      exact ih _ (by omega)

/-! ## Reordering -/

theorem complex_swap (d : Data) (r x : Nat) (h : x < r) (k : Nat) :
    complex (swap (swap d (2 * r + 1 - 1) (2 * x + 1 - 1)) (2 * r + 1) (2 * x + 1)) k =
      if k = r then complex d x else if k = x then complex d r else complex d k := by
  have e1 : 2 * r + 1 - 1 = 2 * r := by omega
  have e2 : 2 * x + 1 - 1 = 2 * x := by omega
  rw [e1, e2]
  apply Complex.ext
  · simp only [complex, swap]
    rw [if_neg (by omega), if_neg (by omega)]
    by_cases h1 : k = r
    · rw [if_pos (by omega), if_pos h1]
    · rw [if_neg (by omega), if_neg h1]
      by_cases h2 : k = x
      · rw [if_pos (by omega), if_pos h2]
      · rw [if_neg (by omega), if_neg h2]
  · simp only [complex, swap]
    by_cases h1 : k = r
    · rw [if_pos (by omega), if_pos h1, if_neg (by omega), if_neg (by omega)]
    · rw [if_neg (by omega), if_neg h1]
      by_cases h2 : k = x
      · rw [if_pos (by omega), if_pos h2, if_neg (by omega), if_neg (by omega)]
      · rw [if_neg (by omega), if_neg h2, if_neg (by omega), if_neg (by omega)]

theorem reorder_spec (size b : Nat) (hs : 2 * 2 ^ b ≤ size) (z0 : Nat → ℂ) : ∀ (c x j : Nat) (d : Data), x + c = 2 ^ b →
    (x < 2 ^ b → j = 2 * rev b x + 1) →
    (∀ k < 2 ^ b, complex d k = if k < x ∨ rev b k < x then z0 (rev b k) else z0 k) →
    ∃ d', reorder size (2 ^ b) c (2 * x + 1) j d = .ok d' ∧ ∀ k < 2 ^ b, complex d' k = z0 (rev b k)
  | 0, x, j, d, hx, _, hd => ⟨d, rfl, fun k hk => by rw [hd k hk, if_pos (Or.inl (by omega))]⟩
  | c + 1, x, j, d, hx, hj, hd => by
    have hxlt : x < 2 ^ b := by omega
    have hrlt := rev_lt b x
    have hj' := hj hxlt
    subst hj'
    have next : x + 1 < 2 ^ b → carry (2 ^ b) (2 * rev b x + 1) = 2 * rev b (x + 1) + 1 := carry_rev b x
    have hinv : ∀ k, k < 2 ^ b → rev b k = x → k = rev b x := fun k hk e => by rw [← e, rev_rev hk]
    rw [reorder]
    by_cases hlt : x < rev b x
    · rw [if_pos (by omega), if_pos (by omega)]
      have := reorder_spec size b hs z0 c (x + 1) (carry (2 ^ b) (2 * rev b x + 1))
        (swap (swap d (2 * rev b x + 1 - 1) (2 * x + 1 - 1)) (2 * rev b x + 1) (2 * x + 1)) (by omega) next
        (by
          intro k hk
          rw [complex_swap d _ _ hlt]
          by_cases h1 : k = rev b x
          · subst h1
            rw [if_pos rfl, if_pos (by rw [rev_rev hxlt]; omega), rev_rev hxlt, hd x hxlt, if_neg (by omega)]
          · rw [if_neg h1]
            by_cases h2 : k = x
            · subst h2
              rw [if_pos rfl, if_pos (by omega), hd _ hrlt, if_neg (by rw [rev_rev hxlt]; omega)]
            · rw [if_neg h2, hd k hk]
              have h3 : rev b k ≠ x := fun e => h1 (hinv k hk e)
              by_cases h4 : k < x ∨ rev b k < x
              · rw [if_pos h4, if_pos (by omega)]
              · rw [if_neg h4, if_neg (by omega)])
      exact this
    · rw [if_neg (by omega)]
      have := reorder_spec size b hs z0 c (x + 1) (carry (2 ^ b) (2 * rev b x + 1)) d (by omega) next
        (by
          intro k hk
          rw [hd k hk]
          by_cases h4 : k < x ∨ rev b k < x
          · rw [if_pos h4, if_pos (by omega)]
          · rw [if_neg h4]
            by_cases h5 : k < x + 1 ∨ rev b k < x + 1
            · rw [if_pos h5]
              have : rev b k = k := by
                rcases h5 with h5 | h5
                · have : k = x := by omega
                  subst this
                  omega
                · have e : rev b k = x := by omega
                  have := hinv k hk e
                  omega
              rw [this]
            · rw [if_neg h5])
      exact this

/-! ## Butterflies -/

theorem complex_butterfly (wr wi : ℝ) (i j : Nat) (h : i ≠ j) (d : Data) (k : Nat) :
    complex (butterfly wr wi (2 * i + 1) (2 * j + 1) d) k =
      if k = j then complex d i - ⟨wr, wi⟩ * complex d j else if k = i then complex d i + ⟨wr, wi⟩ * complex d j else complex d k := by
  have e1 : 2 * i + 1 - 1 = 2 * i := by omega
  have e2 : 2 * j + 1 - 1 = 2 * j := by omega
  apply Complex.ext
  · simp only [complex, butterfly, e1, e2]
    by_cases h1 : k = j
    · subst h1
      rw [if_pos rfl, if_pos rfl]
      simp
    · rw [if_neg (by omega), if_neg (by omega), if_neg h1]
      by_cases h2 : k = i
      · subst h2
        rw [if_pos rfl, if_pos rfl]
        simp
      · rw [if_neg (by omega), if_neg (by omega), if_neg h2]
  · simp only [complex, butterfly, e1, e2]
    rw [if_neg (by omega)]
    by_cases h1 : k = j
    · subst h1
      rw [if_pos rfl, if_pos rfl]
      simp
    · rw [if_neg (by omega), if_neg (by omega), if_neg h1]
      by_cases h2 : k = i
      · subst h2
        rw [if_pos rfl, if_pos rfl]
        simp
      · rw [if_neg (by omega), if_neg h2]

/-- What a stage with butterflies of width `l` makes of the numbers `z`. -/
noncomputable def target (l : Nat) (w : ℂ) (z : Nat → ℂ) (k : Nat) : ℂ :=
  if k % (2 * l) < l then z k + w ^ (k % l) * z (k + l) else z (k - l) - w ^ (k % l) * z k

theorem mod_cases (l k : Nat) (hl : 0 < l) : (k % (2 * l) = k % l ∧ k % (2 * l) < l) ∨ (k % (2 * l) = k % l + l ∧ l ≤ k % (2 * l)) := by
  have h1 : k % (2 * l) < 2 * l := Nat.mod_lt _ (by omega)
  have h2 : k % (2 * l) % l = k % l := Nat.mod_mod_of_dvd k (Dvd.intro_left 2 rfl)
  by_cases h : k % (2 * l) < l
  · left
    exact ⟨by rw [← h2, Nat.mod_eq_of_lt h], h⟩
  · right
    refine ⟨?_, by omega⟩
    have h3 : k % (2 * l) % l = k % (2 * l) - l := by
      rw [Nat.mod_eq_sub_mod (by omega), Nat.mod_eq_of_lt (by omega)]
    omega

theorem inner_spec (size nn l m : Nat) (hsize : size / 2 = nn) (hl : 0 < l) (hm : m < l) (hdiv : 2 * l ∣ nn) (wr wi : ℝ) (w : ℂ)
    (hw : (⟨wr, wi⟩ : ℂ) = w ^ m) (z : Nat → ℂ) : ∀ (f b : Nat) (d : Data), nn ≤ m + 2 * l * b + f →
      (∀ k < nn, complex d k = if k % l < m ∨ (k % l = m ∧ k / (2 * l) < b) then target l w z k else z k) →
      ∃ d', inner size (2 * nn) (2 * l) wr wi f (2 * (m + 2 * l * b) + 1) d = .ok d' ∧
        ∀ k < nn, complex d' k = if k % l < m + 1 then target l w z k else z k := by
  have fin : ∀ (b : Nat) (d : Data), nn ≤ m + 2 * l * b →
      (∀ k < nn, complex d k = if k % l < m ∨ (k % l = m ∧ k / (2 * l) < b) then target l w z k else z k) →
      ∀ k < nn, complex d k = if k % l < m + 1 then target l w z k else z k := by
    intro b d hb hd k hk
    rw [hd k hk]
    by_cases h1 : k % l < m + 1
    · rw [if_pos h1]
      by_cases h2 : k % l < m
      · rw [if_pos (Or.inl h2)]
      · have h7 : k / (2 * l) < b := by
          by_contra h3
          have h4 : 2 * l * b ≤ 2 * l * (k / (2 * l)) := Nat.mul_le_mul_left _ (by omega)
          have h5 := Nat.div_add_mod k (2 * l)
          rcases mod_cases l k hl with h6 | h6 <;> omega
        rw [if_pos (Or.inr ⟨by omega, h7⟩)]
    · rw [if_neg h1, if_neg (by omega)]
  intro f
  induction f with
  | zero => exact fun b d hb hd => ⟨d, rfl, fin b d hb hd⟩
  | succ f ih =>
    intro b d hb hd
    rw [inner]
    by_cases hn : 2 * nn < 2 * (m + 2 * l * b) + 1
    · rw [if_pos hn]
      exact ⟨d, rfl, fin b d (by omega) hd⟩
    · rw [if_neg hn]
      obtain ⟨q, rfl⟩ := hdiv
      have hbq : b < q := by
        by_contra h
        have : 2 * l * q ≤ 2 * l * b := Nat.mul_le_mul_left _ (by omega)
        omega
      have hbq' : 2 * l * (b + 1) ≤ 2 * l * q := Nat.mul_le_mul_left _ (by omega)
      have hexp : 2 * l * (b + 1) = 2 * l * b + 2 * l := by ring
      rw [if_pos (by omega)]
      have e : 2 * (m + 2 * l * b) + 1 + 2 * l = 2 * (m + 2 * l * b + l) + 1 := by omega
      have e' : 2 * (m + 2 * l * b) + 1 + 2 * (2 * l) = 2 * (m + 2 * l * (b + 1)) + 1 := by omega
      rw [e, e']
      apply ih (b + 1) _ (by omega)
      intro k hk
      rw [complex_butterfly wr wi _ _ (by omega)]
      have i1 : (m + 2 * l * b) % (2 * l) = m := by rw [Nat.add_mul_mod_self_left, Nat.mod_eq_of_lt (by omega)]
      have i2 : (m + 2 * l * b) / (2 * l) = b := by rw [Nat.add_mul_div_left _ _ (by omega), Nat.div_eq_of_lt (by omega), zero_add]
      have i3 : (m + 2 * l * b) % l = m := by
        rw [show m + 2 * l * b = m + l * (2 * b) by ring, Nat.add_mul_mod_self_left, Nat.mod_eq_of_lt hm]
      have j1 : (m + 2 * l * b + l) % (2 * l) = m + l := by
        rw [show m + 2 * l * b + l = m + l + 2 * l * b by ring, Nat.add_mul_mod_self_left, Nat.mod_eq_of_lt (by omega)]
      have j2 : (m + 2 * l * b + l) / (2 * l) = b := by
        rw [show m + 2 * l * b + l = m + l + 2 * l * b by ring, Nat.add_mul_div_left _ _ (by omega), Nat.div_eq_of_lt (by omega), zero_add]
      have j3 : (m + 2 * l * b + l) % l = m := by rw [Nat.add_mod_right, i3]
      have hI : complex d (m + 2 * l * b) = z (m + 2 * l * b) := by
        rw [hd _ (by omega), if_neg (by rw [i2, i3]; omega)]
      have hJ : complex d (m + 2 * l * b + l) = z (m + 2 * l * b + l) := by
        rw [hd _ (by omega), if_neg (by rw [j2, j3]; omega)]
      by_cases h1 : k = m + 2 * l * b + l
      · subst h1
        rw [if_pos rfl, if_pos (Or.inr ⟨j3, by rw [j2]; omega⟩), hI, hJ, hw, target, if_neg (by rw [j1]; omega), j3,
          Nat.add_sub_cancel]
      · rw [if_neg h1]
        by_cases h2 : k = m + 2 * l * b
        · subst h2
          rw [if_pos rfl, if_pos (Or.inr ⟨i3, by rw [i2]; omega⟩), hI, hJ, hw, target, if_pos (by rw [i1]; omega), i3]
        · rw [if_neg h2, hd k hk]
          by_cases h3 : k % l < m ∨ (k % l = m ∧ k / (2 * l) < b)
          · rw [if_pos h3, if_pos (by omega)]
          · rw [if_neg h3, if_neg]
            rintro (h4 | ⟨h4, h5⟩)
            · exact h3 (Or.inl h4)
            · have h6 : k / (2 * l) = b := by omega
              have h7 := Nat.div_add_mod k (2 * l)
              rw [h6] at h7
              rcases mod_cases l k hl with h8 | h8 <;> omega

theorem middle_spec (size nn l : Nat) (hsize : size / 2 = nn) (hl : 0 < l) (hdiv : 2 * l ∣ nn) (wpr wpi : ℝ) (w : ℂ)
    (hw : w = ⟨wpr + 1, wpi⟩) (z : Nat → ℂ) : ∀ (c m : Nat) (wr wi : ℝ) (d : Data), m + c = l → (⟨wr, wi⟩ : ℂ) = w ^ m →
      (∀ k < nn, complex d k = if k % l < m then target l w z k else z k) →
      ∃ d', middle size (2 * nn) (2 * l) wpr wpi c (2 * m + 1) wr wi d = .ok d' ∧ ∀ k < nn, complex d' k = target l w z k
  | 0, m, wr, wi, d, hm, _, hd => ⟨d, rfl, fun k hk => by
      rw [hd k hk, if_pos]
      have := Nat.mod_lt k hl
      omega⟩
  | c + 1, m, wr, wi, d, hm, hwm, hd => by
    obtain ⟨d1, h1, h2⟩ := inner_spec size nn l m hsize hl (by omega) hdiv wr wi w hwm z (2 * nn + 1) 0 d (by omega)
      (fun k hk => by
        rw [hd k hk]
        by_cases h : k % l < m
        · rw [if_pos h, if_pos (Or.inl h)]
        · rw [if_neg h, if_neg (by rintro (h' | ⟨_, h'⟩); exacts [h h', Nat.not_lt_zero _ h'])])
    rw [middle]
    rw [show 2 * (m + 2 * l * 0) + 1 = 2 * m + 1 by ring] at h1
    rw [h1]
    simp only [Outcome.bind]
    rw [show 2 * m + 1 + 2 = 2 * (m + 1) + 1 by ring]
    apply middle_spec size nn l hsize hl hdiv wpr wpi w hw z c (m + 1) _ _ d1 (by omega) _ h2
    rw [pow_succ, ← hwm, hw]
    apply Complex.ext
    · simp; ring
    · simp; ring

theorem sum_even_odd (f : Nat → ℂ) (m : Nat) :
    ∑ t ∈ Finset.range (2 * m), f t = ∑ t ∈ Finset.range m, f (2 * t) + ∑ t ∈ Finset.range m, f (2 * t + 1) := by
  induction m with
  | zero => simp
  | succ m ih =>
    rw [show 2 * (m + 1) = 2 * m + 1 + 1 by ring, Finset.sum_range_succ, Finset.sum_range_succ, ih, Finset.sum_range_succ, Finset.sum_range_succ]
    ring

/-- The numbers behind `s` stages: transforms of the numbers which lie `2 ^ (b - s)` apart. -/
noncomputable def partials (b s : Nat) (x : Nat → ℂ) (k : Nat) : ℂ :=
  ∑ t ∈ Finset.range (2 ^ s), x (rev (b - s) (k / 2 ^ s) + t * 2 ^ (b - s)) *
    Complex.exp (2 * Real.pi * Complex.I * (((k % 2 ^ s : Nat) : ℂ) * t / ((2 ^ s : Nat) : ℂ)))

theorem partials_step (b s : Nat) (hs : s < b) (x : Nat → ℂ) (k : Nat) :
    target (2 ^ s) (Complex.exp (Real.pi * Complex.I / ((2 ^ s : Nat) : ℂ))) (partials b s x) k = partials b (s + 1) x k := by
  have hl : 0 < 2 ^ s := by positivity
  have hlc : ((2 ^ s : Nat) : ℂ) ≠ 0 := by exact_mod_cast hl.ne'
  have hp : 2 ^ (s + 1) = 2 * 2 ^ s := by rw [pow_succ]; ring
  obtain ⟨e, he⟩ : ∃ e, b - s = e + 1 := ⟨b - s - 1, by omega⟩
  have he' : b - (s + 1) = e := by omega
  have hpe : 2 ^ (e + 1) = 2 * 2 ^ e := by rw [pow_succ]; ring
  have hk := Nat.div_add_mod k (2 * 2 ^ s)
  have hkm : k % (2 * 2 ^ s) < 2 * 2 ^ s := Nat.mod_lt _ (by omega)
  set l := 2 ^ s with hldef
  set B := k / (2 * l) with hB
  set q := k % l with hq
  have hql : q < l := Nat.mod_lt _ hl
  -- both partners
  have div0 : ∀ r, r < l → (r + 2 * l * B) / l = 2 * B := fun r hr => by
    rw [show r + 2 * l * B = r + l * (2 * B) by ring, Nat.add_mul_div_left _ _ hl, Nat.div_eq_of_lt hr, zero_add]
  have div1 : ∀ r, r < l → (r + 2 * l * B + l) / l = 2 * B + 1 := fun r hr => by
    rw [show r + 2 * l * B + l = r + l * (2 * B + 1) by ring, Nat.add_mul_div_left _ _ hl, Nat.div_eq_of_lt hr, zero_add]
  have mod0 : ∀ r, r < l → (r + 2 * l * B) % l = r := fun r hr => by
    rw [show r + 2 * l * B = r + l * (2 * B) by ring, Nat.add_mul_mod_self_left, Nat.mod_eq_of_lt hr]
  have mod1 : ∀ r, r < l → (r + 2 * l * B + l) % l = r := fun r hr => by
    rw [Nat.add_mod_right, mod0 r hr]
  have rev0 : rev (e + 1) (2 * B) = rev e B := by
    rw [rev, show 2 * B % 2 = 0 by omega, show 2 * B / 2 = B by omega]; ring
  have rev1 : rev (e + 1) (2 * B + 1) = 2 ^ e + rev e B := by
    rw [rev, show (2 * B + 1) % 2 = 1 by omega, show (2 * B + 1) / 2 = B by omega]; ring
  have A : ∀ r, r < l → partials b s x (r + 2 * l * B) = ∑ t ∈ Finset.range l, x (rev e B + t * 2 ^ (e + 1)) *
      Complex.exp (2 * Real.pi * Complex.I * ((r : ℂ) * t / (l : ℂ))) := fun r hr => by
    rw [partials, he, ← hldef, div0 r hr, mod0 r hr, rev0]
  have A' : ∀ r, r < l → partials b s x (r + 2 * l * B + l) = ∑ t ∈ Finset.range l, x (2 ^ e + rev e B + t * 2 ^ (e + 1)) *
      Complex.exp (2 * Real.pi * Complex.I * ((r : ℂ) * t / (l : ℂ))) := fun r hr => by
    rw [partials, he, ← hldef, div1 r hr, mod1 r hr, rev1]
  have C : partials b (s + 1) x k =
      ∑ t ∈ Finset.range l, x (rev e B + t * 2 ^ (e + 1)) *
        Complex.exp (2 * Real.pi * Complex.I * (((k % (2 * l) : Nat) : ℂ) * t / (l : ℂ))) +
      Complex.exp (Real.pi * Complex.I * ((k % (2 * l) : Nat) : ℂ) / (l : ℂ)) *
      ∑ t ∈ Finset.range l, x (2 ^ e + rev e B + t * 2 ^ (e + 1)) *
        Complex.exp (2 * Real.pi * Complex.I * (((k % (2 * l) : Nat) : ℂ) * t / (l : ℂ))) := by
    rw [partials, he', hp, sum_even_odd, Finset.mul_sum]
    congr 1
    · refine Finset.sum_congr rfl fun t _ => ?_
      have h1 : rev e (k / (2 * l)) + 2 * t * 2 ^ e = rev e B + t * 2 ^ (e + 1) := by rw [hpe, hB]; ring
      have h2 : (2 * Real.pi * Complex.I * (((k % (2 * l) : Nat) : ℂ) * ((2 * t : Nat) : ℂ) / ((2 * l : Nat) : ℂ)) : ℂ) =
          2 * Real.pi * Complex.I * (((k % (2 * l) : Nat) : ℂ) * t / (l : ℂ)) := by
        push_cast
        field_simp
      rw [h1, h2]
    · refine Finset.sum_congr rfl fun t _ => ?_
      have h1 : rev e (k / (2 * l)) + (2 * t + 1) * 2 ^ e = 2 ^ e + rev e B + t * 2 ^ (e + 1) := by rw [hpe, hB]; ring
      have h2 : (2 * Real.pi * Complex.I * (((k % (2 * l) : Nat) : ℂ) * ((2 * t + 1 : Nat) : ℂ) / ((2 * l : Nat) : ℂ)) : ℂ) =
          Real.pi * Complex.I * ((k % (2 * l) : Nat) : ℂ) / (l : ℂ) + 2 * Real.pi * Complex.I * (((k % (2 * l) : Nat) : ℂ) * t / (l : ℂ)) := by
        push_cast
        field_simp
        ring
      rw [h1, h2, Complex.exp_add]
      ring
  rw [C]
  have hw : ∀ r : Nat, Complex.exp (Real.pi * Complex.I / (l : ℂ)) ^ r = Complex.exp (Real.pi * Complex.I * (r : ℂ) / (l : ℂ)) := fun r => by
    rw [← Complex.exp_nat_mul]
    congr 1
    ring
  rcases mod_cases l k hl with ⟨h1, h2⟩ | ⟨h1, h2⟩
  · have hk0 : k = q + 2 * l * B := by omega
    rw [target, if_pos h2, hw, h1]
    have r0 := A q hql
    have r1 := A' q hql
    rw [← hk0] at r0 r1
    rw [r0, r1, ← hq]
  · have hk1 : k = q + 2 * l * B + l := by omega
    have hk0 : k - l = q + 2 * l * B := by omega
    rw [target, if_neg (by omega), hw, h1]
    have r0 := A q hql
    have r1 := A' q hql
    rw [← hk0] at r0
    rw [← hk1] at r1
    rw [r0, r1, ← hq]
    have hper : ∀ t : Nat, Complex.exp (2 * Real.pi * Complex.I * (((q + l : Nat) : ℂ) * t / (l : ℂ))) =
        Complex.exp (2 * Real.pi * Complex.I * ((q : ℂ) * t / (l : ℂ))) := fun t => by
      have : 2 * Real.pi * Complex.I * (((q + l : Nat) : ℂ) * t / (l : ℂ)) =
          2 * Real.pi * Complex.I * ((q : ℂ) * t / (l : ℂ)) + t * (2 * Real.pi * Complex.I) := by
        push_cast
        field_simp
      rw [this, Complex.exp_add, Complex.exp_nat_mul_two_pi_mul_I, mul_one]
    have hneg : Complex.exp (Real.pi * Complex.I * ((q + l : Nat) : ℂ) / (l : ℂ)) = -Complex.exp (Real.pi * Complex.I * (q : ℂ) / (l : ℂ)) := by
      have : Real.pi * Complex.I * ((q + l : Nat) : ℂ) / (l : ℂ) = Real.pi * Complex.I * (q : ℂ) / (l : ℂ) + Real.pi * Complex.I := by
        push_cast
        field_simp
      rw [this, Complex.exp_add, Complex.exp_pi_mul_I]
      ring
    simp only [hper, hneg]
    ring

theorem stages_spec (size b : Nat) (hsize : size / 2 = 2 ^ b) (x : Nat → ℂ) : ∀ (f s : Nat) (d : Data), s ≤ b → b ≤ s + f →
    (∀ k < 2 ^ b, complex d k = partials b s x k) →
    ∃ d', stages size (2 * 2 ^ b) f (2 * 2 ^ s) d = .ok d' ∧ ∀ k < 2 ^ b, complex d' k = partials b b x k
  | 0, s, d, hs, hf, hd => by
    have : s = b := by omega
    subst this
    exact ⟨d, rfl, hd⟩
  | f + 1, s, d, hs, hf, hd => by
    rw [stages]
    by_cases h : s = b
    · subst h
      rw [if_neg (by omega)]
      exact ⟨d, rfl, hd⟩
    · have hlt : 2 ^ s < 2 ^ b := Nat.pow_lt_pow_right (by decide) (by omega)
      rw [if_pos (by omega)]
      have hl : 0 < 2 ^ s := by positivity
      have hlc : ((2 ^ s : Nat) : ℝ) ≠ 0 := by exact_mod_cast hl.ne'
      set th := 2 * Real.pi / ((2 * 2 ^ s : Nat) : ℝ) with hth
      have hwp : -2 * Real.sin (th / 2) * Real.sin (th / 2) + 1 = Real.cos th := by
        have h1 := Real.cos_two_mul (th / 2)
        have h2 := Real.sin_sq_add_cos_sq (th / 2)
        rw [show 2 * (th / 2) = th by ring] at h1
        nlinarith
      have hth' : th = Real.pi / ((2 ^ s : Nat) : ℝ) := by
        rw [hth]
        push_cast
        field_simp
      have hw : Complex.exp (Real.pi * Complex.I / ((2 ^ s : Nat) : ℂ)) =
          ⟨-2 * Real.sin (th / 2) * Real.sin (th / 2) + 1, Real.sin th⟩ := by
        rw [hwp]
        have : (Real.pi * Complex.I / ((2 ^ s : Nat) : ℂ)) = (th : ℂ) * Complex.I := by
          rw [hth']
          push_cast
          ring
        rw [this]
        apply Complex.ext
        · rw [Complex.exp_ofReal_mul_I_re]
        · rw [Complex.exp_ofReal_mul_I_im]
      obtain ⟨d1, h1, h2⟩ := middle_spec size (2 ^ b) (2 ^ s) hsize hl (by
          rw [show 2 * 2 ^ s = 2 ^ (s + 1) by rw [pow_succ]; ring]
          exact pow_dvd_pow 2 (by omega)) (-2 * Real.sin (th / 2) * Real.sin (th / 2)) (Real.sin th)
        (Complex.exp (Real.pi * Complex.I / ((2 ^ s : Nat) : ℂ))) hw (partials b s x) (2 ^ s) 0 1 0 d (by omega)
        (by rw [pow_zero]; rfl) (fun k hk => by rw [hd k hk, if_neg (by omega)])
      simp only [Nat.mul_zero, zero_add] at h1
      rw [show 2 * 2 ^ s / 2 = 2 ^ s by omega]
      simp only [← hth]
      rw [h1]
      simp only [Outcome.bind]
      rw [show 2 * (2 * 2 ^ s) = 2 * 2 ^ (s + 1) by rw [pow_succ]; ring]
      apply stages_spec size b hsize x f (s + 1) d1 (by omega) (by omega)
      intro k hk
      rw [h2 k hk, partials_step b s (by omega)]

end Verif.Tunes
