import Mathlib.Tactic.Ring
import Mathlib.Tactic.Linarith
import Mathlib.Tactic.FieldSimp
import Mathlib.Tactic.IntervalCases
import Mathlib.Data.Nat.Digits.Lemmas
import Verif.Format.Spec

namespace Verif.Format

open Spec

theorem digit_facts (d : Nat) (h : d < 10) : (digit d).toNat = 48 + d ∧ digit d ≠ '.' ∧ digit d ≠ ' ' ∧ digit d ≠ '-' ∧ digit d ≠ '\n' := by
  interval_cases d <;> decide

/-- The digits written, the last one first. -/
def padded (n p : Nat) : List Nat := Nat.digits 10 n ++ List.replicate (p + 1 - (Nat.digits 10 n).length) 0

theorem padded_lt (n p d : Nat) (h : d ∈ padded n p) : d < 10 := by
  unfold padded at h
  rcases List.mem_append.mp h with h | h
  · exact Nat.digits_lt_base (by norm_num) h
  · have := List.eq_of_mem_replicate h
    omega

theorem padded_length (n p : Nat) : p + 1 ≤ (padded n p).length := by
  unfold padded
  rw [List.length_append, List.length_replicate]
  omega

theorem readNat_digits : ∀ (D : List Nat), (∀ d ∈ D, d < 10) → readNat ((D.reverse).map digit) = Nat.ofDigits 10 D := by
  intro D h
  unfold readNat
  rw [List.foldl_map, List.foldl_reverse]
  induction D with
  | nil => rfl
  | cons a l ih =>
    rw [List.foldr_cons, ih fun d hd => h d (List.mem_cons_of_mem _ hd), (digit_facts a (h a List.mem_cons_self)).1, Nat.ofDigits_cons]
    omega

theorem ofDigits_padded (n p : Nat) : Nat.ofDigits 10 (padded n p) = n := by
  unfold padded
  rw [Nat.ofDigits_append, Nat.ofDigits_digits, Nat.ofDigits_replicate_zero, Nat.mul_zero, Nat.add_zero]

theorem numeral_mem (n p : Nat) (c : Char) (h : c ∈ numeral n p) : c ≠ ' ' ∧ c ≠ '-' ∧ c ≠ '\n' := by
  have key : ∀ c, c ∈ ((padded n p).reverse).map digit → c ≠ ' ' ∧ c ≠ '-' ∧ c ≠ '\n' := by
    intro c hc
    obtain ⟨d, hd, rfl⟩ := List.mem_map.mp hc
    have := digit_facts d (padded_lt n p d (List.mem_reverse.mp hd))
    exact ⟨this.2.2.1, this.2.2.2⟩
  unfold numeral at h
  simp only at h
  change c ∈ (if p = 0 then ((padded n p).reverse).map digit else _) at h
  split at h
  · exact key c h
  · rcases List.mem_append.mp h with h | h
    · exact key c (List.mem_of_mem_take h)
    · rcases List.mem_cons.mp h with h | h
      · subst h; decide
      · exact key c (List.mem_of_mem_drop h)

theorem numeral_ne (n p : Nat) : numeral n p ≠ [] := by
  unfold numeral
  simp only
  change (if p = 0 then ((padded n p).reverse).map digit else _) ≠ []
  split
  · intro h
    have := congrArg List.length h
    have h2 := padded_length n p
    simp at this
    rw [this] at h2
    simp at h2
  · simp

theorem filter_ne_eq (c : Char) (l : List Char) (h : ∀ x ∈ l, x ≠ c) : l.filter (· ≠ c) = l := by
  rw [List.filter_eq_self]
  intro x hx
  simpa using h x hx

theorem dropWhile_ne_append (c : Char) : ∀ (l r : List Char), (∀ x ∈ l, x ≠ c) → (l ++ c :: r).dropWhile (· ≠ c) = c :: r := by
  intro l r h
  induction l with
  | nil => simp
  | cons a l ih =>
    have := h a List.mem_cons_self
    simp only [List.cons_append]
    rw [List.dropWhile_cons_of_pos (by simpa using this)]
    exact ih fun x hx => h x (List.mem_cons_of_mem _ hx)

theorem dropWhile_ne_all (c : Char) : ∀ (l : List Char), (∀ x ∈ l, x ≠ c) → l.dropWhile (· ≠ c) = [] := by
  intro l h
  induction l with
  | nil => rfl
  | cons a l ih =>
    have := h a List.mem_cons_self
    rw [List.dropWhile_cons_of_pos (by simpa using this)]
    exact ih fun x hx => h x (List.mem_cons_of_mem _ hx)

theorem read_numeral (n p : Nat) : readUnsigned (numeral n p) = (n : ℚ) / 10 ^ p := by
  have hd : ∀ x ∈ ((padded n p).reverse).map digit, x ≠ '.' := by
    intro c hc
    obtain ⟨d, hd, rfl⟩ := List.mem_map.mp hc
    exact (digit_facts d (padded_lt n p d (List.mem_reverse.mp hd))).2.1
  have hv := (readNat_digits (padded n p) (padded_lt n p)).trans (ofDigits_padded n p)
  have hl := padded_length n p
  have hlen : (((padded n p).reverse).map digit).length = (padded n p).length := by simp
  generalize hL : ((padded n p).reverse).map digit = L at *
  have hnum : numeral n p = if p = 0 then L else L.take (L.length - p) ++ '.' :: L.drop (L.length - p) := by
    rw [← hL]
    rfl
  rw [hnum]
  unfold readUnsigned
  split
  · rename_i h0
    rw [filter_ne_eq _ _ hd, dropWhile_ne_all _ _ hd, hv, h0]
    rfl
  · rw [dropWhile_ne_append _ _ _ fun x hx => hd x (List.mem_of_mem_take hx), List.filter_append, List.filter_cons_of_neg (by simp),
      filter_ne_eq _ _ (fun x hx => hd x (List.mem_of_mem_take hx)), filter_ne_eq _ _ (fun x hx => hd x (List.mem_of_mem_drop hx)), List.take_append_drop, hv,
      List.tail_cons, List.length_drop, show L.length - (L.length - p) = p by omega]

theorem filter_blanks (w : Int) (n : Nat) : (blanks w n).filter (· ≠ ' ') = [] := by
  unfold blanks
  rw [List.filter_eq_nil_iff]
  intro a ha
  rw [List.eq_of_mem_replicate ha]
  decide

/-- Sign and digits in a field. -/
theorem read_pad (a : Adjust) (w : Int) (neg : Bool) (n p : Nat) :
    readValue (padNumber a w (if neg then ['-'] else [], numeral n p)) = (if neg then -1 else 1) * ((n : ℚ) / 10 ^ p) := by
  have hf : (padNumber a w (if neg then ['-'] else [], numeral n p)).filter (· ≠ ' ') = (if neg then ['-'] else []) ++ numeral n p := by
    have h1 : (if neg then ['-'] else []).filter (· ≠ ' ') = if neg then ['-'] else [] := by cases neg <;> rfl
    have h2 := filter_ne_eq ' ' (numeral n p) fun x hx => (numeral_mem n p x hx).1
    unfold padNumber
    cases a <;> simp only [List.filter_append, filter_blanks, h1, h2, List.append_nil, List.nil_append]
  unfold readValue
  rw [hf]
  cases neg with
  | true =>
    simp only [if_true, List.cons_append, List.nil_append, read_numeral]
    ring
  | false =>
    simp only [Bool.false_eq_true, if_false, List.nil_append]
    have hne := numeral_ne n p
    have hm := numeral_mem n p
    have hr := read_numeral n p
    generalize numeral n p = l at *
    cases l with
    | nil => exact absurd rfl hne
    | cons c r =>
      simp only
      rw [if_neg (hm c List.mem_cons_self).2.1, hr]
      ring

theorem roundEven_near (x : ℚ) (h : 0 ≤ x) : |(roundEven x : ℚ) - x| ≤ 1 / 2 := by
  have h1 := Nat.floor_le h
  have h2 := Nat.lt_floor_add_one x
  unfold roundEven
  simp only
  rw [abs_le]
  split
  · constructor <;> linarith
  · split
    · push_cast
      constructor <;> linarith
    · split
      · constructor <;> linarith
      · push_cast
        constructor <;> linarith

theorem padNumber_length (a : Adjust) (w : Int) (s : List Char × List Char) : ((padNumber a w s).length : Int) = max w (s.1 ++ s.2).length := by
  unfold padNumber blanks
  cases a <;> simp only [List.length_append, List.length_replicate] <;> omega

theorem padText_length (a : Adjust) (w : Int) (s : List Char) : ((padText a w s).length : Int) = max w s.length := by
  unfold padText blanks
  cases a <;> simp only [List.length_append, List.length_replicate] <;> omega

/-! ## Pieces -/

theorem pieces_free (c : Char) : ∀ (p : List Char), (∀ x ∈ p, x ≠ c) → pieces c p = [p] := by
  intro p h
  induction p with
  | nil => rfl
  | cons a l ih =>
    rw [pieces, if_neg (h a List.mem_cons_self), ih fun x hx => h x (List.mem_cons_of_mem _ hx)]

theorem pieces_append (c : Char) (r : List Char) : ∀ (p : List Char), (∀ x ∈ p, x ≠ c) → pieces c (p ++ c :: r) = p :: pieces c r := by
  intro p h
  induction p with
  | nil => rw [List.nil_append, pieces, if_pos rfl]
  | cons a l ih =>
    rw [List.cons_append, pieces, if_neg (h a List.mem_cons_self), ih fun x hx => h x (List.mem_cons_of_mem _ hx)]

theorem words_blank (r : List Char) : words (' ' :: r) = words r := by
  unfold words
  rw [pieces, if_pos rfl, List.filter_cons_of_neg (by simp)]

theorem words_blanks (r : List Char) : ∀ k, words (List.replicate k ' ' ++ r) = words r := by
  intro k
  induction k with
  | zero => rfl
  | succ k ih => rw [List.replicate_succ, List.cons_append, words_blank, ih]

theorem words_word (s r : List Char) (hs : s ≠ []) (h : ∀ x ∈ s, x ≠ ' ') : words (s ++ ' ' :: r) = s :: words r := by
  unfold words
  rw [pieces_append _ _ _ h, List.filter_cons_of_pos (by simpa using hs)]

theorem words_last (s : List Char) (hs : s ≠ []) (h : ∀ x ∈ s, x ≠ ' ') : words s = [s] := by
  unfold words
  rw [pieces_free _ _ h, List.filter_cons_of_pos (by simpa using hs)]
  rfl

theorem lines_cons (l r : List Char) (h : ∀ x ∈ l, x ≠ '\n') : lines (l ++ '\n' :: r) = l :: lines r := by
  unfold lines
  rw [pieces_append _ _ _ h, List.dropLast_cons_of_ne_nil]
  cases r with
  | nil => simp [pieces]
  | cons a r =>
    rw [pieces]
    split
    · simp
    · split <;> simp

end Verif.Format
