import Verif.Bunch.Text

/-!
# Lemmas on the text form of particles
-/

namespace Verif.Bunch.Text

/-- Only digits, at least one. -/
def Digits (l : List Char) : Prop := l ≠ [] ∧ ∀ c ∈ l, c.isDigit = true

/-- A number as the code prints it: one digit before the point, ten after it, an exponent. -/
structure Printed (n : Num) : Prop where
  ip : Digits n.ip ∧ n.ip.length = 1
  fp : Digits n.fp ∧ n.fp.length = 10
  ex : Digits n.ex ∧ n.ex.length ≤ 3

/-- Text that does not begin with a digit. -/
def NoDigit (s : List Char) : Prop := s.takeWhile Char.isDigit = []

theorem dropWhile_noDigit {s : List Char} (h : NoDigit s) : s.dropWhile Char.isDigit = s := by
  have := List.takeWhile_append_dropWhile (p := Char.isDigit) (l := s)
  rw [show s.takeWhile Char.isDigit = [] from h] at this
  simpa using this

theorem takeWhile_digits {d s : List Char} (hd : ∀ c ∈ d, c.isDigit = true) (h : NoDigit s) :
    (d ++ s).takeWhile Char.isDigit = d := by
  induction d with
  | nil => exact h
  | cons c d ih =>
    simp only [List.cons_append, List.takeWhile_cons, hd c (by simp), if_true]
    rw [ih fun c hc => hd c (by simp [hc])]

theorem dropWhile_digits {d s : List Char} (hd : ∀ c ∈ d, c.isDigit = true) (h : NoDigit s) :
    (d ++ s).dropWhile Char.isDigit = s := by
  induction d with
  | nil => exact dropWhile_noDigit h
  | cons c d ih =>
    simp only [List.cons_append, List.dropWhile_cons, hd c (by simp), if_true]
    exact ih fun c hc => hd c (by simp [hc])

theorem sign_digit {d s : List Char} (hd : Digits d) : sign (d ++ s) = (false, d ++ s) := by
  obtain ⟨hne, hd⟩ := hd
  cases d with
  | nil => exact absurd rfl hne
  | cons c d =>
    have hc := hd c (by simp)
    simp only [List.cons_append]
    unfold sign
    split
    · rename_i h
      injection h with h _
      subst h
      exact absurd hc (by decide)
    · rename_i h
      injection h with h _
      subst h
      exact absurd hc (by decide)
    · rfl

theorem dropWs_spaces (k : Nat) (s : List Char) (h : s.dropWhile isWs = s) :
    (List.replicate k ' ' ++ s).dropWhile isWs = s := by
  induction k with
  | zero => exact h
  | succ k ih => simpa [List.replicate_succ, List.dropWhile_cons, isWs] using ih

theorem digit_not_ws {c : Char} (h : c.isDigit = true) : isWs c = false := by
  unfold isWs
  by_cases h1 : c = ' '
  · subst h1; exact absurd h (by decide)
  · by_cases h2 : c = '\n'
    · subst h2; exact absurd h (by decide)
    · simp [h1, h2]

theorem noDigit_dot (s : List Char) : NoDigit ('.' :: s) := by
  unfold NoDigit
  rw [List.takeWhile_cons]
  simp [Char.isDigit]

theorem noDigit_e (s : List Char) : NoDigit ('e' :: s) := by
  unfold NoDigit
  rw [List.takeWhile_cons]
  simp [Char.isDigit]

/-- The exponent takes all the digits that follow. -/
theorem readExp_spec (b : Bool) (ex s : List Char) (hx : Digits ex) (h : NoDigit s) :
    readExp ('e' :: (if b then '-' else '+') :: (ex ++ s)) = some ((b, ex), s) := by
  have ht := takeWhile_digits hx.2 h
  have hd := dropWhile_digits hx.2 h
  cases b <;> simp [readExp, sign, ht, hd, hx.1]

theorem readNum_printed (n : Num) (hi : Digits n.ip) (hf : ∀ c ∈ n.fp, c.isDigit = true) (hx : Digits n.ex) (k : Nat)
    (s : List Char) (hs : NoDigit s) : readNum (List.replicate k ' ' ++ (fmtNum n ++ s)) = some (n, s) := by
  obtain ⟨neg, ip, fp, eneg, ex⟩ := n
  simp only at hi hf hx
  have h1 : (ip ++ '.' :: (fp ++ 'e' :: (if eneg then '-' else '+') :: (ex ++ s))).takeWhile Char.isDigit = ip :=
    takeWhile_digits hi.2 (noDigit_dot _)
  have h2 : (ip ++ '.' :: (fp ++ 'e' :: (if eneg then '-' else '+') :: (ex ++ s))).dropWhile Char.isDigit =
      '.' :: (fp ++ 'e' :: (if eneg then '-' else '+') :: (ex ++ s)) := dropWhile_digits hi.2 (noDigit_dot _)
  have h3 := takeWhile_digits hf (noDigit_e ((if eneg then '-' else '+') :: (ex ++ s)))
  have h4 := dropWhile_digits hf (noDigit_e ((if eneg then '-' else '+') :: (ex ++ s)))
  have h5 := readExp_spec eneg ex s hx hs
  have hw : ∀ neg : Bool, ((if neg then ['-'] else []) ++ (ip ++ '.' :: (fp ++ 'e' ::
      (if eneg then '-' else '+') :: (ex ++ s)))).dropWhile isWs =
      (if neg then ['-'] else []) ++ (ip ++ '.' :: (fp ++ 'e' :: (if eneg then '-' else '+') :: (ex ++ s))) := by
    intro neg
    cases neg with
    | true => simp [isWs]
    | false =>
      obtain ⟨hne, hd⟩ := hi
      cases ip with
      | nil => exact absurd rfl hne
      | cons c d => simp [digit_not_ws (hd c (by simp))]
  have hsg : sign ((if neg then ['-'] else []) ++ (ip ++ '.' :: (fp ++ 'e' ::
      (if eneg then '-' else '+') :: (ex ++ s)))) =
      (neg, ip ++ '.' :: (fp ++ 'e' :: (if eneg then '-' else '+') :: (ex ++ s))) := by
    cases neg with
    | true => rfl
    | false => exact sign_digit (s := '.' :: (fp ++ 'e' :: (if eneg then '-' else '+') :: (ex ++ s))) hi
  have hfmt : fmtNum ⟨neg, ip, fp, eneg, ex⟩ ++ s = (if neg then ['-'] else []) ++ (ip ++ '.' :: (fp ++ 'e' ::
      (if eneg then '-' else '+') :: (ex ++ s))) := by simp [fmtNum]
  unfold readNum
  rw [hfmt, dropWs_spaces k _ (hw neg), hsg]
  simp only [h1, h2, readFrac, h3, h4, h5]
  rw [if_neg (by intro h; exact hi.1 h.1)]
  rfl

theorem length_fmtNum (n : Num) (h : Printed n) : (fmtNum n).length < 24 := by
  have h1 := h.ip.2
  have h2 := h.fp.2
  have h3 := h.ex.2
  unfold fmtNum
  cases n.neg <;> simp <;> omega

theorem noDigit_space (k : Nat) (hk : 0 < k) (s : List Char) : NoDigit (List.replicate k ' ' ++ s) := by
  cases k with
  | zero => omega
  | succ k =>
    unfold NoDigit
    rw [List.replicate_succ, List.cons_append, List.takeWhile_cons]
    simp [Char.isDigit]

/-- Numbers after spaces. -/
def items (l : List (Nat × Num)) : List Char := l.flatMap fun x => List.replicate x.1 ' ' ++ fmtNum x.2

theorem readNums_items (l : List (Nat × Num)) (h : ∀ x ∈ l, 0 < x.1 ∧ Digits x.2.ip ∧ (∀ c ∈ x.2.fp, c.isDigit = true) ∧
    Digits x.2.ex) (s : List Char) (hs : NoDigit s) :
    readNums l.length (items l ++ s) = some (l.map Prod.snd, s) := by
  induction l with
  | nil => simp [readNums, items]
  | cons x l ih =>
    have hx := h x (by simp)
    have hn : NoDigit (items l ++ s) := by
      cases l with
      | nil => exact hs
      | cons y l =>
        have hy := h y (by simp)
        simp only [items, List.flatMap_cons, List.append_assoc]
        exact noDigit_space _ hy.1 _
    have e : items (x :: l) ++ s = List.replicate x.1 ' ' ++ (fmtNum x.2 ++ (items l ++ s)) := by
      simp [items]
    simp only [List.length_cons, readNums]
    rw [e, readNum_printed x.2 hx.2.1 hx.2.2.1 hx.2.2.2 x.1 _ hn]
    simp only [Option.bind_some]
    rw [ih fun y hy => h y (by simp [hy])]
    rfl

/-- A number with more digits in the exponent. -/
def stretch (n : Num) (d : List Char) : Num := { n with ex := n.ex ++ d }

theorem fmtNum_stretch (n : Num) (d : List Char) : fmtNum n ++ d = fmtNum (stretch n d) := by
  obtain ⟨neg, ip, fp, eneg, ex⟩ := n
  cases neg <;> cases eneg <;> simp [fmtNum, stretch]

theorem pads_eq (cs : List Num) :
    cs.flatMap (fun n => pad (fmtNum n)) = items (cs.map fun n => (24 - (fmtNum n).length, n)) := by
  simp [items, List.flatMap_map, pad]

/-- The text of a particle read as six numbers, for an id without sign: the digits of the id belong to the last
number. -/
theorem readNums_write (cs : List Num) (n : Num) (id : Int') (h : ∀ m ∈ cs ++ [n], Printed m) (hid : Digits id.digits)
    (hn : id.neg = false) :
    readNums (cs.length + 1) (write (cs ++ [n]) id) = some (cs ++ [stretch n id.digits], ['\n']) := by
  have hl : ∀ m ∈ cs ++ [n], 0 < 24 - (fmtNum m).length := fun m hm => by
    have := length_fmtNum m (h m hm)
    omega
  have e : write (cs ++ [n]) id = items ((cs.map fun m => (24 - (fmtNum m).length, m)) ++
      [(24 - (fmtNum n).length, stretch n id.digits)]) ++ ['\n'] := by
    have : items ((cs.map fun m => (24 - (fmtNum m).length, m)) ++
        [(24 - (fmtNum n).length, stretch n id.digits)]) = items (cs.map fun m => (24 - (fmtNum m).length, m)) ++
        (List.replicate (24 - (fmtNum n).length) ' ' ++ fmtNum (stretch n id.digits)) := by
      simp [items]
    rw [this, ← fmtNum_stretch, ← pads_eq]
    simp [write, fmtInt, hn, pad]
  rw [e]
  have := readNums_items ((cs.map fun m => (24 - (fmtNum m).length, m)) ++
      [(24 - (fmtNum n).length, stretch n id.digits)]) (by
    intro x hx
    rw [List.mem_append] at hx
    rcases hx with hx | hx
    · obtain ⟨m, hm, rfl⟩ := List.mem_map.1 hx
      have hp := h m (by simp [hm])
      exact ⟨hl m (by simp [hm]), hp.ip.1, hp.fp.1.2, hp.ex.1⟩
    · rw [List.mem_singleton] at hx
      subst hx
      have hp := h n (by simp)
      refine ⟨hl n (by simp), hp.ip.1, hp.fp.1.2, ?_, ?_⟩
      · simp [stretch, hp.ex.1.1]
      · intro c hc
        simp only [stretch, List.mem_append] at hc
        rcases hc with hc | hc
        · exact hp.ex.1.2 c hc
        · exact hid.2 c hc) ['\n'] rfl
  simpa [Function.comp_def] using this

/-- The same for an id with a minus sign. -/
theorem readNums_write_neg (cs : List Num) (id : Int') (h : ∀ m ∈ cs, Printed m) (hn : id.neg = true) :
    readNums cs.length (write cs id) = some (cs, '-' :: (id.digits ++ ['\n'])) := by
  have e : write cs id = items (cs.map fun m => (24 - (fmtNum m).length, m)) ++ '-' :: (id.digits ++ ['\n']) := by
    rw [← pads_eq]
    simp [write, fmtInt, hn]
  rw [e]
  have := readNums_items (cs.map fun m => (24 - (fmtNum m).length, m)) (by
    intro x hx
    obtain ⟨m, hm, rfl⟩ := List.mem_map.1 hx
    have hp := h m hm
    have := length_fmtNum m hp
    exact ⟨by simp only; omega, hp.ip.1, hp.fp.1.2, hp.ex.1⟩) ('-' :: (id.digits ++ ['\n'])) (by
      unfold NoDigit
      rw [List.takeWhile_cons]
      simp [Char.isDigit])
  simpa [Function.comp_def] using this

end Verif.Bunch.Text
