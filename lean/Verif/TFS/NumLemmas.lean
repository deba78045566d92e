import Verif.TFS.SplitLemmas

/-! # Printing and parsing integers: helper lemmas -/

namespace Verif.TFS
open Verif Verif.DataTable Spec

theorem digitChar_facts (d : Nat) (h : d < 10) :
    isDigit (digitChar d) = true ∧ (digitChar d).toNat - 48 = d ∧ isBlank (digitChar d) = false ∧
      digitChar d ≠ '"' ∧ digitChar d ≠ '-' ∧ digitChar d ≠ '+' := by
  have : ∀ d : Fin 10, isDigit (digitChar d) = true ∧ (digitChar d).toNat - 48 = d ∧
      isBlank (digitChar d) = false ∧ digitChar d ≠ '"' ∧ digitChar d ≠ '-' ∧
      digitChar d ≠ '+' := by decide
  exact this ⟨d, h⟩

/-- Characters of a printed number. -/
theorem natToStr_chars (n : Nat) : natToStr n ≠ [] ∧ ∀ c ∈ natToStr n, ∃ d, d < 10 ∧ c = digitChar d := by
  induction n using natToStr.induct with
  | case1 n h =>
    rw [natToStr]; simp only [h, if_true]
    exact ⟨by simp, fun c hc => ⟨n, h, by simpa using hc⟩⟩
  | case2 n h ih =>
    rw [natToStr]; simp only [h, if_false]
    refine ⟨by simp, ?_⟩
    intro c hc
    rcases List.mem_append.1 hc with hc | hc
    · exact ih.2 c hc
    · exact ⟨n % 10, Nat.mod_lt _ (by omega), by simpa using hc⟩

theorem parseDigits_append (s t : Str) (acc : Nat) (hs : ∀ c ∈ s, isDigit c = true) :
    parseDigits acc (s ++ t) = parseDigits (parseDigits acc s) t := by
  induction s generalizing acc with
  | nil => rfl
  | cons c cs ih =>
    have := hs c (by simp)
    simp only [List.cons_append, parseDigits, this, if_true]
    exact ih _ (fun c hc => hs c (by simp [hc]))

theorem natToStr_isDigit (n : Nat) : ∀ c ∈ natToStr n, isDigit c = true := by
  intro c hc
  obtain ⟨d, hd, rfl⟩ := (natToStr_chars n).2 c hc
  exact (digitChar_facts d hd).1

theorem parseDigits_natToStr (n : Nat) : parseDigits 0 (natToStr n) = n := by
  induction n using natToStr.induct with
  | case1 n h =>
    rw [natToStr]; simp only [h, if_true]
    obtain ⟨h1, h2, _⟩ := digitChar_facts n h
    simp [parseDigits, h1, h2]
  | case2 n h ih =>
    rw [natToStr]; simp only [h, if_false]
    rw [parseDigits_append _ _ _ (natToStr_isDigit _), ih]
    obtain ⟨h1, h2, _⟩ := digitChar_facts (n % 10) (Nat.mod_lt _ (by omega))
    simp only [parseDigits, h1, h2, if_true]
    omega

theorem parseNat_natToStr (n : Nat) : parseNat (natToStr n) = .ok n := by
  unfold parseNat
  have hne := (natToStr_chars n).1
  have hd := natToStr_isDigit n
  have hp := parseDigits_natToStr n
  cases h : natToStr n with
  | nil => exact absurd h hne
  | cons c cs =>
    rw [h] at hd hp
    simp only [hd c (by simp), if_true, hp]

theorem stoi_intToStr (n : Int) (hn : IntRange n) : stoi (intToStr n) = .ok n := by
  unfold stoi
  have hr : strtol (intToStr n) = .ok n := by
    unfold strtol
    cases n with
    | ofNat n =>
      have hp := parseNat_natToStr n
      simp only [intToStr]
      cases h : natToStr n with
      | nil => exact absurd h (natToStr_chars n).1
      | cons c cs =>
        obtain ⟨d, hd, rfl⟩ := (natToStr_chars n).2 c (by simp [h])
        obtain ⟨_, _, h3, _, h5, h6⟩ := digitChar_facts d hd
        rw [h] at hp
        have : (digitChar d :: cs).dropWhile isBlank = digitChar d :: cs := by
          simp [List.dropWhile, h3]
        rw [this]
        split
        · next heq => exact absurd (List.cons.inj heq).1 h5
        · next heq => exact absurd (List.cons.inj heq).1 h6
        · rw [hp]; rfl
    | negSucc n =>
      have hp := parseNat_natToStr (n + 1)
      simp only [intToStr]
      have : ('-' :: natToStr (n + 1)).dropWhile isBlank = '-' :: natToStr (n + 1) := by
        simp [List.dropWhile, show isBlank '-' = false by decide]
      rw [this]
      simp only [hp]
      rfl
  rw [hr]
  simp [hn.1, hn.2]

theorem digit_not_blank {c : Char} (h : isBlank c = false) : ¬ Blank c := by
  intro hb; rw [(isBlank_iff c).2 hb] at h; cases h

theorem natToStr_word (n : Nat) : Word (natToStr n) := by
  refine ⟨(natToStr_chars n).1, ?_, ?_⟩
  · intro h
    obtain ⟨d, hd, he⟩ := (natToStr_chars n).2 _ h
    exact (digitChar_facts d hd).2.2.2.1 he.symm
  · intro c hc
    obtain ⟨d, hd, rfl⟩ := (natToStr_chars n).2 c hc
    exact digit_not_blank (digitChar_facts d hd).2.2.1

theorem intToStr_word (n : Int) : Word (intToStr n) := by
  cases n with
  | ofNat n => exact natToStr_word n
  | negSucc n =>
    obtain ⟨_, h2, h3⟩ := natToStr_word (n + 1)
    refine ⟨by simp [intToStr], ?_, ?_⟩
    · intro h
      simp only [intToStr, List.mem_cons] at h
      rcases h with h | h
      · exact absurd h (by decide)
      · exact h2 h
    · intro c hc
      simp only [intToStr, List.mem_cons] at hc
      rcases hc with rfl | hc
      · exact digit_not_blank (by decide)
      · exact h3 c hc

theorem word_no_newline {w : Str} (h : Word w) : '\n' ∉ w :=
  fun hc => h.2.2 _ hc (Or.inr (Or.inr (Or.inl rfl)))

end Verif.TFS
