import Verif.Plane.Model
import Verif.TFS.NumLemmas

/-! # Properties of transformations of the plane in streams -/

namespace Verif.Plane
open Verif.TFS

/-- The number of runs of digits; `p` says that a digit is before the text. -/
def runs : Bool → List Char → Nat
  | _, [] => 0
  | p, c :: l => (if isDigit c && !p then 1 else 0) + runs (isDigit c) l

theorem runs_digits {l : List Char} (h : ∀ c ∈ l, isDigit c = true) (b : List Char) : runs true (l ++ b) = runs true b := by
  induction l with
  | nil => rfl
  | cons c l ih =>
    have hc := h c (by simp)
    simp only [List.cons_append, runs, hc, Bool.not_true, Bool.and_false, Bool.false_eq_true, if_false, Nat.zero_add]
    exact ih fun d hd => h d (by simp [hd])

theorem runs_nat (p : Bool) (n : Nat) (b : List Char) : runs p (natToStr n ++ b) = (if p then 0 else 1) + runs true b := by
  have h1 := (natToStr_chars n).1
  have h2 := natToStr_isDigit n
  generalize natToStr n = l at h1 h2
  cases l with
  | nil => exact absurd rfl h1
  | cons c l =>
    have hc := h2 c (by simp)
    simp only [List.cons_append, runs, hc]
    rw [runs_digits fun d hd => h2 d (by simp [hd])]
    cases p <;> rfl

theorem runs_int (p : Bool) (z : Int) (b : List Char) : runs p (intToStr z ++ b) = (if p = true ∧ 0 ≤ z then 0 else 1) + runs true b := by
  cases z with
  | ofNat n =>
    rw [intToStr, runs_nat]
    simp
  | negSucc n =>
    rw [intToStr, List.cons_append, runs, runs_nat]
    have h0 : isDigit '-' = false := by decide
    have : ¬ (0 : Int) ≤ Int.negSucc n := by omega
    simp [h0, this]

theorem runs_stop {l : List Char} : ∀ p, runs p (l.dropWhile isDigit) = runs false (l.dropWhile isDigit) := by
  intro p
  induction l with
  | nil => rfl
  | cons c l ih =>
    by_cases h : isDigit c = true
    · simpa [List.dropWhile, h] using ih
    · simp [List.dropWhile, h, runs]

theorem runs_scanNat {s r : List Char} {n : Nat} (h : scanNat s = some (n, r)) : runs false s = 1 + runs false r := by
  unfold scanNat at h
  split at h
  next hd =>
    cases s with
    | nil => simp at hd
    | cons c l =>
      have hc : isDigit c = true := by simpa using hd
      simp only [Option.some.injEq, Prod.mk.injEq] at h
      rw [← h.2]
      simp only [runs, hc, List.dropWhile]
      have : runs true l = runs true (l.dropWhile isDigit) := by
        have := runs_digits (l := l.takeWhile isDigit) (fun c hc => List.all_eq_true.1 List.all_takeWhile c hc) (l.dropWhile isDigit)
        rwa [List.takeWhile_append_dropWhile] at this
      rw [this, runs_stop]
      rfl
  next => cases h

theorem runs_scan {s r : List Char} {z : Int} (h : scan s = some (z, r)) : runs false s = 1 + runs false r := by
  unfold scan at h
  split at h
  next hm =>
    cases s with
    | nil => simp at hm
    | cons c l =>
      simp only [List.head?_cons, Option.some.injEq] at hm
      subst hm
      obtain ⟨p, hp, he⟩ := Option.map_eq_some_iff.1 h
      simp only [Prod.mk.injEq] at he
      rw [← he.2, ← runs_scanNat (n := p.1) (r := p.2) hp, runs]
      have h0 : isDigit '-' = false := by decide
      simp [h0]
  next hm =>
    obtain ⟨p, hp, he⟩ := Option.map_eq_some_iff.1 h
    simp only [Prod.mk.injEq] at he
    rw [← he.2]
    exact runs_scanNat (n := p.1) (r := p.2) hp

theorem scanNat_put (n : Nat) {b : List Char} (hb : (b.head?.map isDigit).getD false = false) : scanNat (natToStr n ++ b) = some (n, b) := by
  have h1 := (natToStr_chars n).1
  have h2 := natToStr_isDigit n
  have h3 := parseDigits_natToStr n
  generalize natToStr n = l at h1 h2 h3
  have hb' : ∀ a, parseDigits a b = a ∧ b.dropWhile isDigit = b := by
    intro a
    cases b with
    | nil => exact ⟨rfl, rfl⟩
    | cons c b =>
      have : isDigit c = false := by simpa using hb
      simp [parseDigits, List.dropWhile, this]
  unfold scanNat
  rw [parseDigits_append _ _ _ h2, h3, (hb' n).1]
  have hd : (l ++ b).dropWhile isDigit = b := by
    rw [List.dropWhile_append_of_pos h2, (hb' 0).2]
  rw [hd]
  cases l with
  | nil => exact absurd rfl h1
  | cons c l => simp [h2 c (by simp)]

theorem scan_put (z : Int) {b : List Char} (hb : (b.head?.map isDigit).getD false = false) : scan (intToStr z ++ b) = some (z, b) := by
  unfold scan
  cases z with
  | ofNat n =>
    have h : (natToStr n ++ b).head? ≠ some '-' := by
      have h1 := (natToStr_chars n).1
      have h2 := natToStr_isDigit n
      generalize natToStr n = l at h1 h2
      cases l with
      | nil => exact absurd rfl h1
      | cons c l =>
        intro h
        simp only [List.cons_append, List.head?_cons, Option.some.injEq] at h
        have := h2 c (by simp)
        rw [h] at this
        exact absurd this (by decide)
    rw [intToStr, if_neg h, scanNat_put n hb]
    rfl
  | negSucc n =>
    rw [intToStr, List.cons_append, if_pos (by rfl), List.tail_cons, scanNat_put (n + 1) hb]
    rfl

theorem neg_head {z : Int} (h : z < 0) (b : List Char) : ((intToStr z ++ b).head?.map isDigit).getD false = false := by
  cases z with
  | ofNat n => exact absurd h (Int.not_lt.2 (Int.natCast_nonneg n))
  | negSucc n =>
    have h0 : isDigit '-' = false := by decide
    simp [intToStr, h0]

/-- What is written can be read at all just if all numbers after the first are negative, and then is what was written. -/
theorem read_write (t : T2) : ((∃ t', read (write t) = some t') ↔ t.y < 0 ∧ t.cosa < 0 ∧ t.sina < 0) ∧
    (read (write t) = some t ↔ t.y < 0 ∧ t.cosa < 0 ∧ t.sina < 0) := by
  have h1 : (∃ t', read (write t) = some t') → t.y < 0 ∧ t.cosa < 0 ∧ t.sina < 0 := by
    rintro ⟨t', h⟩
    unfold read at h
    obtain ⟨x, hx, h⟩ := Option.bind_eq_some_iff.1 h
    obtain ⟨y, hy, h⟩ := Option.bind_eq_some_iff.1 h
    obtain ⟨c, hc, h⟩ := Option.bind_eq_some_iff.1 h
    obtain ⟨d, hd, h⟩ := Option.bind_eq_some_iff.1 h
    have e1 := runs_scan (z := x.1) (r := x.2) hx
    have e2 := runs_scan (z := y.1) (r := y.2) hy
    have e3 := runs_scan (z := c.1) (r := c.2) hc
    have e4 := runs_scan (z := d.1) (r := d.2) hd
    have e : runs false (write t) ≤ 1 + ((if 0 ≤ t.y then 0 else 1) + ((if 0 ≤ t.cosa then 0 else 1) + (if 0 ≤ t.sina then 0 else 1))) := by
      unfold write
      have := runs_int true t.sina []
      rw [List.append_nil] at this
      rw [runs_int, runs_int, runs_int, this]
      simp [runs]
    split at e <;> split at e <;> split at e <;> omega
  have h2 : t.y < 0 ∧ t.cosa < 0 ∧ t.sina < 0 → read (write t) = some t := by
    rintro ⟨hy, hc, hs⟩
    have hs' := neg_head hs []
    have e := scan_put t.sina (b := []) rfl
    rw [List.append_nil] at hs' e
    unfold read write
    rw [scan_put t.x (neg_head hy _), Option.bind_some, scan_put t.y (neg_head hc _), Option.bind_some, scan_put t.cosa hs',
      Option.bind_some, e, Option.bind_some]
  exact ⟨⟨h1, fun h => ⟨t, h2 h⟩⟩, ⟨fun h => h1 ⟨t, h⟩, h2⟩⟩

example : read (write ⟨5, -3, -1, -1⟩) = some ⟨5, -3, -1, -1⟩ := (read_write _).2.2 (by decide)

/-- Violated: no transformation by whole displacements and quarter turns can be read back; the stream fails. -/
theorem read_violated {t : T2} (h : t.cosa * t.cosa + t.sina * t.sina = 1) : read (write t) = none := by
  rcases hr : read (write t) with _ | t'
  · rfl
  · exfalso
    obtain ⟨-, hc, hs⟩ := (read_write t).1.1 ⟨t', hr⟩
    have h1 : 1 ≤ t.cosa * t.cosa := by
      have := Int.mul_pos_of_neg_of_neg hc hc
      omega
    have h2 : 1 ≤ t.sina * t.sina := by
      have := Int.mul_pos_of_neg_of_neg hs hs
      omega
    omega

/-- The identity moved by 3 and 4. -/
example : read (write ⟨3, 4, 1, 0⟩) = none := read_violated (by decide)

/-- Violated: the text does not determine the transformation, whatever reads it. -/
theorem write_violated : ∃ t t' : T2, t.cosa * t.cosa + t.sina * t.sina = 1 ∧ t'.cosa * t'.cosa + t'.sina * t'.sina = 1 ∧ t ≠ t' ∧
    write t = write t' := by
  refine ⟨⟨1, 12, 1, 0⟩, ⟨11, 2, 1, 0⟩, by decide, by decide, by decide, ?_⟩
  have e2 : natToStr 2 = ['2'] := by rw [natToStr]; rfl
  have e1 : natToStr 1 = ['1'] := by rw [natToStr]; rfl
  have e12 : natToStr 12 = ['1', '2'] := by rw [natToStr, if_neg (by decide)]; show natToStr 1 ++ _ = _; rw [e1]; rfl
  have e11 : natToStr 11 = ['1', '1'] := by rw [natToStr, if_neg (by decide)]; show natToStr 1 ++ _ = _; rw [e1]; rfl
  show natToStr 1 ++ (natToStr 12 ++ (natToStr 1 ++ natToStr 0)) = natToStr 11 ++ (natToStr 2 ++ (natToStr 1 ++ natToStr 0))
  rw [e12, e11, e1, e2]
  rfl

end Verif.Plane
