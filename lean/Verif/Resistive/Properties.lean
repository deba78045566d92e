import Mathlib.Tactic.Ring
import Mathlib.Tactic.Linarith
import Mathlib.Tactic.FieldSimp
import Mathlib.Tactic.NormNum
import Mathlib.Analysis.SpecialFunctions.ExpDeriv
import Mathlib.Analysis.SpecialFunctions.Sqrt
import Mathlib.Analysis.Real.Pi.Bounds
import Verif.Resistive.Spec

/-! # Properties of tables and potentials of collimator wakes -/

namespace Verif.Resistive

open Verif Spec

/-! ## C343, C344: reading -/

theorem skipTo_append (c : Sym) (r : List Sym) : ∀ l : List Sym, c ∉ l → skipTo c (l ++ c :: r) = .ok r := by
  intro l
  induction l with
  | nil => intro _; rw [List.nil_append, skipTo, if_pos rfl]
  | cons a l ih =>
    intro h
    rw [List.cons_append, skipTo, if_neg (fun e => h (by rw [e]; exact List.mem_cons_self)), ih fun hc => h (List.mem_cons_of_mem _ hc)]

theorem readItems_commas {α : Type} (f : List Sym → Outcome Empty (α × List Sym)) (show' : α → List Sym) (hf : ∀ x r, f (show' x ++ r) = .ok (x, r)) :
    ∀ (items : List α) (r : List Sym), readItems f items.length (commas (items.map show') ++ r) = .ok (items, r) := by
  intro items
  induction items with
  | nil => intro r; rfl
  | cons x l ih =>
    intro r
    cases l with
    | nil =>
      rw [List.length_singleton, readItems]
      simp only [List.map_cons, List.map_nil, commas, hf, Outcome.bind, if_true]
    | cons y l =>
      rw [List.length_cons, readItems]
      have e : commas ((x :: y :: l).map show') ++ r = show' x ++ (.comma :: (commas ((y :: l).map show') ++ r)) := by
        simp only [List.map_cons, commas, List.append_assoc, List.cons_append]
      rw [e, hf]
      simp only [Outcome.bind]
      rw [if_neg (by simp), skipTo, if_pos rfl]
      simp only
      rw [ih r]

theorem readBraces_braces {α : Type} (f : List Sym → Outcome Empty (α × List Sym)) (show' : α → List Sym) (hf : ∀ x r, f (show' x ++ r) = .ok (x, r)) (fill : List Sym)
    (hfill : Sym.opening ∉ fill) (items : List α) (n : Nat) (hn : items.length = n) (r : List Sym) : readBraces f n (braces fill (items.map show') ++ r) = .ok (items, r) := by
  unfold readBraces braces
  rw [List.append_assoc, List.cons_append, skipTo_append _ _ _ hfill]
  simp only [Outcome.bind]
  rw [List.append_assoc, ← hn, readItems_commas f show' hf]
  simp only [List.singleton_append]
  rw [skipTo, if_pos rfl]

/-- Items of a shape. -/
theorem readItems_shape {α : Type} (f : List Sym → Outcome Empty (α × List Sym)) (show' : α → List Sym) (P : α → Prop) (hf : ∀ x r, P x → f (show' x ++ r) = .ok (x, r)) :
    ∀ (items : List α) (r : List Sym), (∀ x ∈ items, P x) → readItems f items.length (commas (items.map show') ++ r) = .ok (items, r) := by
  intro items
  induction items with
  | nil => intro r _; rfl
  | cons x l ih =>
    intro r h
    cases l with
    | nil =>
      rw [List.length_singleton, readItems]
      simp only [List.map_cons, List.map_nil, commas, hf x _ (h x List.mem_cons_self), Outcome.bind, if_true]
    | cons y l =>
      rw [List.length_cons, readItems]
      have e : commas ((x :: y :: l).map show') ++ r = show' x ++ (.comma :: (commas ((y :: l).map show') ++ r)) := by
        simp only [List.map_cons, commas, List.append_assoc, List.cons_append]
      rw [e, hf x _ (h x List.mem_cons_self)]
      simp only [Outcome.bind]
      rw [if_neg (by simp), skipTo, if_pos rfl]
      simp only
      rw [ih r fun x hx => h x (List.mem_cons_of_mem _ hx)]

theorem readBraces_shape {α : Type} (f : List Sym → Outcome Empty (α × List Sym)) (show' : α → List Sym) (P : α → Prop) (hf : ∀ x r, P x → f (show' x ++ r) = .ok (x, r)) (fill : List Sym)
    (hfill : Sym.opening ∉ fill) (items : List α) (n : Nat) (hn : items.length = n) (hP : ∀ x ∈ items, P x) (r : List Sym) :
    readBraces f n (braces fill (items.map show') ++ r) = .ok (items, r) := by
  unfold readBraces braces
  rw [List.append_assoc, List.cons_append, skipTo_append _ _ _ hfill]
  simp only [Outcome.bind]
  rw [List.append_assoc, ← hn, readItems_shape f show' P hf _ _ hP]
  simp only [List.singleton_append]
  rw [skipTo, if_pos rfl]

theorem readNum_blanks (q : ℚ) (r : List Sym) : ∀ n, readNum (List.replicate n .blank ++ [.num q] ++ r) = .ok (q, r) := by
  intro n
  induction n with
  | zero => rfl
  | succ n ih =>
    rw [List.replicate_succ, List.cons_append, List.cons_append, readNum]
    exact ih

/-- **C343.** An array written as nested lists in braces is read as it is. -/
theorem read_print (fill : List Sym) (hfill : Sym.opening ∉ fill) (n n1 n2 n3 : Nat) (a : List (List (List ℚ))) (h1 : a.length = n1) (h2 : ∀ b ∈ a, b.length = n2)
    (h3 : ∀ b ∈ a, ∀ c ∈ b, c.length = n3) (r : List Sym) : readArray n1 n2 n3 (text fill n a ++ r) = .ok (a, r) := by
  unfold readArray text
  refine readBraces_shape _ _ (fun b => b.length = n2 ∧ ∀ c ∈ b, c.length = n3) (fun b r hb => ?_) fill hfill a n1 h1 (fun b hb => ⟨h2 b hb, h3 b hb⟩) r
  refine readBraces_shape _ _ (fun c => c.length = n3) (fun c r hc => ?_) fill hfill b n2 hb.1 hb.2 r
  exact readBraces_braces _ _ (fun q r => readNum_blanks q r n) fill hfill c n3 hc r

/-- A case: two times one times two numbers. -/
example : readArray 2 1 2 (text [.blank] 1 [[[1, 2]], [[3, -4]]]) = .ok ([[[1, 2]], [[3, -4]]], []) := by decide +kernel

theorem skipTo_mem (c : Sym) : ∀ (l r : List Sym), skipTo c l = .ok r → c ∈ l ∧ ∀ s ∈ r, s ∈ l := by
  intro l
  induction l with
  | nil => intro r h; rw [skipTo] at h; exact absurd h (by simp)
  | cons a l ih =>
    intro r h
    rw [skipTo] at h
    split at h
    · rename_i e
      injection h with h
      subst h
      exact ⟨e ▸ List.mem_cons_self, fun s hs => List.mem_cons_of_mem _ hs⟩
    · have := ih r h
      exact ⟨List.mem_cons_of_mem _ this.1, fun s hs => List.mem_cons_of_mem _ (this.2 s hs)⟩

theorem bind_ok_iff {α β : Type} (x : Outcome Empty α) (f : α → Outcome Empty β) (b : β) (h : x.bind f = .ok b) : ∃ a, x = .ok a ∧ f a = .ok b := by
  cases x with
  | ok a => exact ⟨a, rfl, h⟩
  | throw e => exact e.elim
  | ub => exact absurd h (by simp [Outcome.bind])

theorem readItems_mem {α : Type} (f : List Sym → Outcome Empty (α × List Sym)) (hf : ∀ l x r, f l = .ok (x, r) → ∀ s ∈ r, s ∈ l) :
    ∀ (n : Nat) (l : List Sym) (x : List α) (r : List Sym), readItems f n l = .ok (x, r) → ∀ s ∈ r, s ∈ l := by
  intro n
  induction n with
  | zero =>
    intro l x r h s hs
    rw [readItems] at h
    injection h with h
    injection h with _ h
    exact h ▸ hs
  | succ n ih =>
    intro l x r h s hs
    rw [readItems] at h
    obtain ⟨⟨y, l1⟩, h1, h2⟩ := bind_ok_iff _ _ _ h
    have m1 := hf l y l1 h1
    simp only at h2
    split at h2
    · injection h2 with h2
      injection h2 with _ h2
      exact m1 s (h2 ▸ hs)
    · obtain ⟨l2, h3, h4⟩ := bind_ok_iff _ _ _ h2
      obtain ⟨⟨z, l3⟩, h5, h6⟩ := bind_ok_iff _ _ _ h4
      injection h6 with h6
      injection h6 with _ h6
      simp only at h6
      exact m1 s ((skipTo_mem _ _ _ h3).2 s (ih l2 z l3 h5 s (h6 ▸ hs)))

/-- **C344, violated.** A file in which the braces are not closed keeps the program in a loop for ever; it is not told. -/
theorem unclosed_violated (n1 n2 n3 : Nat) (l : List Sym) (h : Sym.closing ∉ l) : readArray n1 n2 n3 l = .ub := by
  have hnum : ∀ (l : List Sym) x r, readNum l = .ok (x, r) → ∀ s ∈ r, s ∈ l := by
    intro l
    induction l with
    | nil => intro x r h; exact absurd h (by simp [readNum])
    | cons a l ih =>
      intro x r h s hs
      cases a with
      | blank => rw [readNum] at h; exact List.mem_cons_of_mem _ (ih x r h s hs)
      | num q =>
        rw [readNum] at h
        injection h with h
        injection h with _ h
        exact List.mem_cons_of_mem _ (h ▸ hs)
      | opening => exact absurd h (by simp [readNum])
      | closing => exact absurd h (by simp [readNum])
      | comma => exact absurd h (by simp [readNum])
      | other => exact absurd h (by simp [readNum])
  have hbr : ∀ {α : Type} (f : List Sym → Outcome Empty (α × List Sym)) (_ : ∀ l x r, f l = .ok (x, r) → ∀ s ∈ r, s ∈ l) (n : Nat) (l : List Sym) x r,
      readBraces f n l = .ok (x, r) → Sym.closing ∈ l ∧ ∀ s ∈ r, s ∈ l := by
    intro α f hf n l x r h
    unfold readBraces at h
    obtain ⟨l1, h1, h⟩ := bind_ok_iff _ _ _ h
    obtain ⟨⟨y, l2⟩, h2, h⟩ := bind_ok_iff _ _ _ h
    obtain ⟨l3, h3, h⟩ := bind_ok_iff _ _ _ h
    injection h with h
    injection h with _ h
    have m1 := (skipTo_mem _ _ _ h1).2
    have m2 := readItems_mem f hf n l1 y l2 h2
    have m3 := skipTo_mem _ _ _ h3
    exact ⟨m1 _ (m2 _ m3.1), fun s hs => m1 s (m2 s (m3.2 s (h ▸ hs)))⟩
  unfold readArray
  cases hr : readBraces (readBraces (readBraces readNum n3) n2) n1 l with
  | ok x => exact absurd (hbr _ (fun l x r h => (hbr _ (fun l x r h => (hbr _ hnum n3 l x r h).2) n2 l x r h).2) n1 l x.1 x.2 hr).1 h
  | throw e => exact e.elim
  | ub => rfl

example : readArray 1 1 2 [.opening, .opening, .opening, .num 1, .comma, .num 2] = .ub := by decide +kernel

/-! ## C345, C346: interpolation in s -/

theorem nearest_of (x : ℚ) (i : Int) (h0 : 0 ≤ i) (h1 : (i : ℚ) ≤ 1 / 2 + x) (h2 : 1 / 2 + x < (i : ℚ) + 1) : nearest x = i := by
  have hi : (0 : ℚ) ≤ (i : ℚ) := by exact_mod_cast h0
  have : trunc (1 / 2 + x) = i := by
    unfold trunc
    rw [if_pos (by linarith), Int.floor_eq_iff]
    exact ⟨h1, h2⟩
  unfold nearest
  rw [this, if_neg (by omega)]

theorem nearest_bounds (x : ℚ) : 0 ≤ nearest x ∧ ((nearest x : Int) : ℚ) ≤ max 0 (1 / 2 + x) ∧ (0 ≤ 1 / 2 + x → 1 / 2 + x < (nearest x : Int) + 1) := by
  unfold nearest trunc
  by_cases h : (0 : ℚ) ≤ 1 / 2 + x
  · have hf : 0 ≤ ⌊1 / 2 + x⌋ := Int.floor_nonneg.mpr h
    rw [if_pos h, if_neg (by omega)]
    exact ⟨hf, le_max_of_le_right (Int.floor_le _), fun _ => Int.lt_floor_add_one _⟩
  · have hc : ⌈1 / 2 + x⌉ ≤ 0 := by
      rw [Int.ceil_le]
      push_cast
      linarith
    rw [if_neg h]
    split
    · exact ⟨le_refl _, by simp, fun h' => absurd h' h⟩
    · have : ⌈1 / 2 + x⌉ = 0 := by omega
      rw [this]
      exact ⟨le_refl _, by simp, fun h' => absurd h' h⟩

theorem elem_ok {α : Type} (l : List α) (i : Int) (h0 : 0 ≤ i) (h : i < l.length) : ∃ a, elem l i = .ok a ∧ l[i.toNat]? = some a := by
  unfold elem
  have h1 : i.toNat < l.length := by omega
  rw [if_neg (by omega), List.getElem?_eq_getElem h1]
  exact ⟨_, rfl, rfl⟩

theorem centre_range (n index : Int) (hn : 3 ≤ n) (h0 : 0 ≤ index) (h : index < n) : 1 ≤ centre n index ∧ centre n index ≤ n - 2 := by
  unfold centre
  split
  · omega
  · split <;> omega

/-- A parabola is reproduced. -/
theorem parabolic_exact (A B C x : ℚ) (i : Int) : parabolic (A + B * ((i : ℚ) - 1) + C * ((i : ℚ) - 1) ^ 2) (A + B * i + C * (i : ℚ) ^ 2) (A + B * ((i : ℚ) + 1) + C * ((i : ℚ) + 1) ^ 2) (x - i)
    = A + B * x + C * x ^ 2 := by
  unfold parabolic
  ring

theorem elem_quadratic (l : List ℚ) (A B C : ℚ) (hl : ∀ k, k < l.length → l[k]? = some (A + B * k + C * (k : ℚ) ^ 2)) (i : Int) (h0 : 0 ≤ i) (h : i < l.length) :
    elem l i = .ok (A + B * (i : ℚ) + C * (i : ℚ) ^ 2) := by
  unfold elem
  rw [if_neg (by omega), hl i.toNat (by omega)]
  have : ((i.toNat : Nat) : Int) = i := by omega
  have h2 : ((i.toNat : Nat) : ℚ) = (i : ℚ) := by rw [← Int.cast_natCast, this]
  simp only [h2]

/-- **C345.** A table of three or more points of a parabola gives the parabola, up to half a step beyond its last point. -/
theorem table_quadratic (t : Table) (A B C : ℚ) (hs : t.step ≠ 0) (hn : 3 ≤ t.coeff.length) (hl : ∀ k, k < t.coeff.length → t.coeff[k]? = some (A + B * k + C * (k : ℚ) ^ 2))
    (s : ℚ) (h : s / t.step + 1 / 2 < t.coeff.length) : t.interpolate s = .ok (A + B * (s / t.step) + C * (s / t.step) ^ 2) := by
  obtain ⟨b0, b1, -⟩ := nearest_bounds (s / t.step)
  have hlt : nearest (s / t.step) < t.coeff.length := by
    have h3 : max 0 (1 / 2 + s / t.step) < ((t.coeff.length : Int) : ℚ) := by
      rw [max_lt_iff]
      push_cast
      constructor
      · exact_mod_cast (by omega : 0 < t.coeff.length)
      · linarith
    exact_mod_cast lt_of_le_of_lt b1 h3
  obtain ⟨c1, c2⟩ := centre_range t.coeff.length (nearest (s / t.step)) (by omega) b0 hlt
  unfold Table.interpolate
  simp only
  rw [if_neg hs, if_neg (by omega), elem_quadratic _ A B C hl _ (by omega) (by omega), elem_quadratic _ A B C hl _ (by omega) (by omega),
    elem_quadratic _ A B C hl _ (by omega) (by omega)]
  simp only [Outcome.bind]
  congr 1
  have := parabolic_exact A B C (s / t.step) (centre t.coeff.length (nearest (s / t.step)))
  push_cast at this ⊢
  exact this

/-- **C345.** At the points of the table the result is the entry. -/
theorem table_grid (t : Table) (hs : t.step ≠ 0) (hn : 3 ≤ t.coeff.length) (i : Nat) (hi : i < t.coeff.length) : ∃ a, t.coeff[i]? = some a ∧ t.interpolate (i * t.step) = .ok a := by
  have hx : (i : ℚ) * t.step / t.step = i := by field_simp
  have hnear : nearest ((i : ℚ) * t.step / t.step) = i := by
    rw [hx]
    apply nearest_of
    · omega
    · push_cast
      linarith
    · push_cast
      linarith
  obtain ⟨c1, c2⟩ := centre_range t.coeff.length (i : Int) (by omega) (by omega) (by omega)
  obtain ⟨u, hu, hu'⟩ := elem_ok t.coeff (centre t.coeff.length (i : Int) - 1) (by omega) (by omega)
  obtain ⟨v, hv, hv'⟩ := elem_ok t.coeff (centre t.coeff.length (i : Int)) (by omega) (by omega)
  obtain ⟨w, hw, hw'⟩ := elem_ok t.coeff (centre t.coeff.length (i : Int) + 1) (by omega) (by omega)
  have e : t.interpolate (i * t.step) = .ok (parabolic u v w ((i : ℚ) - (centre t.coeff.length (i : Int) : Int))) := by
    unfold Table.interpolate
    simp only
    rw [if_neg hs, hnear, if_neg (by omega), hu, hv, hw, hx]
    rfl
  rw [e]
  by_cases h0 : i = 0
  · subst h0
    have hc : centre t.coeff.length ((0 : Nat) : Int) = 1 := by unfold centre; rw [if_pos (by rfl)]
    rw [hc] at hu' ⊢
    refine ⟨u, hu', ?_⟩
    congr 1
    unfold parabolic
    push_cast
    ring
  · by_cases h1 : (i : Int) = (t.coeff.length : Int) - 1
    · have hc : centre t.coeff.length (i : Int) = (i : Int) - 1 := by unfold centre; rw [if_neg (by omega), if_pos h1]; omega
      rw [hc] at hw' ⊢
      rw [show ((i : Int) - 1 + 1).toNat = i by omega] at hw'
      refine ⟨w, hw', ?_⟩
      congr 1
      unfold parabolic
      push_cast
      ring
    · have hc : centre t.coeff.length (i : Int) = (i : Int) := by unfold centre; rw [if_neg (by omega), if_neg h1]
      rw [hc] at hv' ⊢
      rw [Int.toNat_natCast] at hv'
      refine ⟨v, hv', ?_⟩
      congr 1
      unfold parabolic
      push_cast
      ring

/-- **C345.** From half a step beyond the last point on the result is zero. -/
theorem table_beyond (t : Table) (hs : t.step ≠ 0) (s : ℚ) (h : (t.coeff.length : ℚ) ≤ s / t.step + 1 / 2) : t.interpolate s = .ok 0 := by
  obtain ⟨b0, -, b2⟩ := nearest_bounds (s / t.step)
  have hp : (0 : ℚ) ≤ (t.coeff.length : ℚ) := Nat.cast_nonneg _
  have := b2 (by linarith)
  have h3 : ((t.coeff.length : Int) : ℚ) < ((nearest (s / t.step) + 1 : Int) : ℚ) := by
    push_cast
    linarith
  have h4 : (t.coeff.length : Int) < nearest (s / t.step) + 1 := by exact_mod_cast h3
  unfold Table.interpolate
  simp only
  rw [if_neg hs, if_pos (by omega)]

/-- A case: squares. -/
example : (⟨[0, 1, 4, 9, 16], 1 / 2, 0, 2⟩ : Table).interpolate (3 / 4) = .ok (9 / 4) := by decide +kernel

/-- **C346, violated.** The lower end of the table is not subtracted: the value at the lower end is that of another point. -/
theorem offset_violated : ∃ t : Table, t.inrange t.lo = true ∧ t.step = (t.hi - t.lo) / (t.coeff.length - 1) ∧ t.coeff[0]? = some 10 ∧ t.interpolate t.lo = .ok 20 :=
  ⟨⟨[10, 20, 30], 1, 1, 3⟩, by decide +kernel⟩

/-- **C346, violated.** A table of two points is read outside. -/
theorem two_points_violated (a b step lo hi : ℚ) (hs : 0 < step) : (⟨[a, b], step, lo, hi⟩ : Table).interpolate 0 = .ub ∧ (⟨[a, b], step, lo, hi⟩ : Table).interpolate step = .ub := by
  have h0 : nearest 0 = 0 := by decide +kernel
  have h1 : nearest 1 = 1 := by decide +kernel
  constructor
  · unfold Table.interpolate
    simp only
    rw [if_neg hs.ne', zero_div, h0]
    rfl
  · unfold Table.interpolate
    simp only
    rw [if_neg hs.ne', div_self hs.ne', h1]
    rfl

/-- **C346, violated.** Half way between two points the result jumps: a table of zeros and a one has zero just below 1.5 and -1/8 at 1.5. -/
theorem halfway_violated (e : ℚ) (h0 : 0 < e) (h1 : e ≤ 1) : (⟨[0, 0, 0, 1], 1, 0, 3⟩ : Table).interpolate (3 / 2 - e) = .ok 0 ∧
    (⟨[0, 0, 0, 1], 1, 0, 3⟩ : Table).interpolate (3 / 2) = .ok (-1 / 8) := by
  constructor
  · have hn : nearest ((3 / 2 - e) / 1) = 1 := by
      apply nearest_of
      · norm_num
      · push_cast
        linarith
      · push_cast
        linarith
    have hc : centre 4 1 = 1 := rfl
    have e4 : elem ([0, 0, 0, 1] : List ℚ) (1 - 1) = .ok 0 ∧ elem ([0, 0, 0, 1] : List ℚ) 1 = .ok 0 ∧ elem ([0, 0, 0, 1] : List ℚ) (1 + 1) = .ok 0 := by decide +kernel
    unfold Table.interpolate
    simp only
    rw [if_neg (by norm_num), hn]
    simp only [List.length_cons, List.length_nil]
    rw [if_neg (by norm_num)]
    norm_num [hc]
    rw [show elem ([0, 0, 0, 1] : List ℚ) 0 = .ok 0 from by decide +kernel, show elem ([0, 0, 0, 1] : List ℚ) 1 = .ok 0 from by decide +kernel,
      show elem ([0, 0, 0, 1] : List ℚ) 2 = .ok 0 from by decide +kernel]
    simp only [Outcome.bind]
    congr 1
    unfold parabolic
    ring
  · decide +kernel

/-! ## C347, C348: interpolation in one parameter -/

theorem elem3_quadratic_last (a : List (List (List ℚ))) (b : List (List ℚ)) (c : List ℚ) (i : Nat) (ha : a[0]? = some b) (hb : b[i]? = some c) (k : Int) : elem3 a 0 i k = elem c k := by
  unfold elem3
  have h1 : elem a 0 = .ok b := by
    unfold elem
    rw [if_neg (by omega)]
    simp only [Int.toNat_zero, ha]
  have h2 : elem b (i : Int) = .ok c := by
    unfold elem
    rw [if_neg (by omega)]
    simp only [Int.toNat_natCast, hb]
  rw [h1]
  simp only [Outcome.bind]
  rw [h2]

/-- **C347.** With as many points and the same step on both axes, a table that is a parabola in the third index gives the parabola in xi. -/
theorem xi_quadratic (h : Head) (a : List (List (List ℚ))) (b : List (List ℚ)) (c : List ℚ) (i : Nat) (A B C xi step : ℚ) (hn : h.n1 = h.n3) (h3 : 3 ≤ h.n3)
    (hs : Head.step h.n3 h.lo3 h.hi3 = step) (hs' : Head.step h.n1 h.lo1 h.hi1 = step) (h0 : step ≠ 0) (hx : xi ≠ 0) (ha : a[0]? = some b) (hb : b[i]? = some c) (hc : c.length = h.n3)
    (hq : ∀ k, k < c.length → c[k]? = some (A + B * k + C * (k : ℚ) ^ 2)) (hr : xi / step + 1 / 2 < h.n3) :
    coeffOf h a 0 xi i = .ok (A + B * (xi / step) + C * (xi / step) ^ 2) := by
  have _ := hs
  have e : coeffOf h a 0 xi i = coeffXi h a xi i := by
    unfold coeffOf
    rw [if_neg (fun hh => hx hh.2), if_pos rfl]
  have key := table_quadratic ⟨c, step, 0, 0⟩ A B C h0 (by simp only [hc]; exact h3) hq xi (by simp only [hc]; exact hr)
  rw [e, ← key]
  unfold coeffXi Table.interpolate
  rw [hn] at hs'
  simp only [hn, hs', hc, elem3_quadratic_last a b c i ha hb]
  rw [if_neg h0, if_neg h0]
  split
  · rfl
  · have : (xi - (centre h.n3 (nearest (xi / step)) : Int) * step) / step = xi / step - (centre h.n3 (nearest (xi / step)) : Int) := by field_simp
    rw [this]

theorem elem3_first (a : List (List (List ℚ))) (i : Nat) (f : Nat → ℚ) (hq : ∀ k, k < a.length → ∃ b c, a[k]? = some b ∧ b[i]? = some c ∧ c[0]? = some (f k)) (k : Int) :
    elem3 a k i 0 = elem ((List.range a.length).map f) k := by
  unfold elem3
  by_cases hk : k < 0
  · unfold elem
    rw [if_pos hk, if_pos hk]
    rfl
  · by_cases hl : k.toNat < a.length
    · obtain ⟨b, c, h1, h2, h3⟩ := hq k.toNat hl
      have e1 : elem a k = .ok b := by
        unfold elem
        rw [if_neg hk]
        simp only [h1]
      have e2 : elem b (i : Int) = .ok c := by
        unfold elem
        rw [if_neg (by omega)]
        simp only [Int.toNat_natCast, h2]
      have e3 : elem c 0 = .ok (f k.toNat) := by
        unfold elem
        rw [if_neg (by omega)]
        simp only [Int.toNat_zero, h3]
      rw [e1]
      simp only [Outcome.bind]
      rw [e2]
      simp only
      rw [e3]
      unfold elem
      rw [if_neg hk]
      simp [hl]
    · have e1 : elem a k = .ub := by
        unfold elem
        rw [if_neg hk, List.getElem?_eq_none (by omega)]
      rw [e1]
      unfold elem
      rw [if_neg hk, List.getElem?_eq_none (by simp; omega)]
      rfl

/-- **C347.** The same for Gamma and the first index. -/
theorem gamma_quadratic (h : Head) (a : List (List (List ℚ))) (i : Nat) (A B C gamma step : ℚ) (hn : h.n1 = h.n3) (h3 : 3 ≤ h.n3)
    (hs : Head.step h.n3 h.lo3 h.hi3 = step) (h0 : step ≠ 0) (hx : gamma ≠ 0) (ha : a.length = h.n1)
    (hq : ∀ k, k < a.length → ∃ b c, a[k]? = some b ∧ b[i]? = some c ∧ c[0]? = some (A + B * k + C * (k : ℚ) ^ 2)) (hr : gamma / step + 1 / 2 < h.n1) :
    coeffOf h a gamma 0 i = .ok (A + B * (gamma / step) + C * (gamma / step) ^ 2) := by
  have e : coeffOf h a gamma 0 i = coeffGamma h a gamma i := by
    unfold coeffOf
    rw [if_neg (fun hh => hx hh.1), if_neg hx, if_pos rfl]
  have key := table_quadratic ⟨(List.range a.length).map fun k : Nat => A + B * (k : ℚ) + C * (k : ℚ) ^ 2, step, 0, 0⟩ A B C h0 (by simp; omega) (by
    intro k hk
    simp at hk
    simp [hk]) gamma (by simp only [List.length_map, List.length_range, ha]; exact hr)
  rw [e, ← key]
  unfold coeffGamma Table.interpolate
  simp only [hs, elem3_first a i (fun k : Nat => A + B * (k : ℚ) + C * (k : ℚ) ^ 2) hq, List.length_map, List.length_range, ha, hn]
  rw [if_neg h0, if_neg h0]
  split
  · rfl
  · have : (gamma - (centre h.n3 (nearest (gamma / step)) : Int) * step) / step = gamma / step - (centre h.n3 (nearest (gamma / step)) : Int) := by field_simp
    rw [this]

/-- A case: three points on each axis. -/
example : coeffOf ⟨3, 0, 2, 1, 0, 1, 3, 0, 2⟩ [[[0, 1, 4]], [[2, 0, 0]], [[4, 0, 0]]] 0 (3 / 2) 0 = .ok (9 / 4) ∧
    coeffOf ⟨3, 0, 2, 1, 0, 1, 3, 0, 2⟩ [[[0, 1, 4]], [[2, 0, 0]], [[4, 0, 0]]] (3 / 2) 0 0 = .ok 3 := by decide +kernel

/-- **C348, violated.** With different axes xi is divided by the step of the first axis and used as the third index: neither a table of xi along the third
axis nor one along the first gives xi back. -/
theorem xi_axis_violated : ∃ h : Head, ∃ third first : List (List (List ℚ)), h.lo1 = 0 ∧ h.lo3 = 0 ∧
    (∀ g < h.n1, ∀ c < h.n3, elem3 third g 0 c = .ok (c * Head.step h.n3 h.lo3 h.hi3)) ∧
    (∀ g < h.n1, ∀ c < h.n3, elem3 first g 0 c = .ok (g * Head.step h.n1 h.lo1 h.hi1)) ∧
    coeffOf h third 0 1 0 = .ok 2 ∧ coeffOf h first 0 1 0 = .ok 0 :=
  ⟨⟨3, 0, 4, 1, 0, 1, 3, 0, 2⟩, [[[0, 2, 4]], [[0, 2, 4]], [[0, 2, 4]]], [[[0, 0, 0]], [[1, 1, 1]], [[2, 2, 2]]], by decide +kernel⟩

/-- **C348, violated.** With more points on the third axis than on the first, Gamma at the last point of the first axis is read outside the array. -/
theorem gamma_edge_violated : coeffOf ⟨4, 0, 3, 1, 0, 1, 3, 0, 2⟩ [[[0, 0, 0, 0]], [[1, 1, 1, 1]], [[2, 2, 2, 2]]] 2 0 0 = .ub := by decide +kernel

/-- **C348, violated.** With fewer points on the third axis than on the first, xi is read outside the array though it is within both ranges. -/
theorem xi_edge_violated : coeffOf ⟨3, 0, 3, 1, 0, 1, 4, 0, 3⟩ [[[0, 1, 2]], [[0, 1, 2]], [[0, 1, 2]], [[0, 1, 2]]] 0 2 0 = .ub := by decide +kernel

/-- **C348, violated.** With more points on the third axis than on the first, xi at the last point gives zero in place of the entry. -/
theorem xi_cut_violated : coeffOf ⟨4, 0, 3, 1, 0, 1, 3, 0, 2⟩ [[[0, 1, 2, 3]], [[0, 1, 2, 3]], [[0, 1, 2, 3]]] 0 3 0 = .ok 0 := by decide +kernel

/-! ## C349: interpolation in both -/

/-- **C349.** On the two lines through the middle point the result is the parabola through three points. -/
theorem both_axes (v : Int → Int → ℚ) (d : ℚ) : both v d 0 = parabolic (v (-1) 0) (v 0 0) (v 1 0) d ∧ both v 0 d = parabolic (v 0 (-1)) (v 0 0) (v 0 1) d := by
  unfold both parabolic
  simp only
  constructor <;> ring

/-- **C349.** Off these lines it is the parabola through the nine points exactly if two conditions hold, which the values of a table need not meet. -/
theorem both_exact (v : Int → Int → ℚ) : (∀ x y, both v x y = through v x y) ↔
    (v 1 0 - v (-1) 0 = 2 * (v 1 0 + v (-1) 0 - 2 * v 0 0) ∧ v 1 (-1) - v (-1) 1 = v 1 0 - v (-1) 0 + v 0 (-1) - v 0 1) := by
  constructor
  · intro h
    have h1 := h (1 / 2) (1 / 2)
    have h2 := h (1 / 2) (-1 / 2)
    have h3 := h (-1 / 2) (1 / 2)
    have h4 := h (-1 / 2) (-1 / 2)
    unfold both through at h1 h2 h3 h4
    simp only at h1 h2 h3 h4
    constructor <;> linarith
  · rintro ⟨h1, h2⟩ x y
    unfold both through
    simp only
    have e1 : v 1 0 = (4 * v 0 0 - 3 * v (-1) 0) := by linarith
    have e2 : v 1 (-1) = v (-1) 1 + (v 1 0 - v (-1) 0 + v 0 (-1) - v 0 1) := by linarith
    rw [e2, e1]
    ring

/-- A case with the conditions. -/
example : ∀ x y, both (fun _ c => (c : ℚ) ^ 2) x y = through (fun _ c => (c : ℚ) ^ 2) x y := by
  rw [both_exact]
  norm_num

/-- **C349, violated.** A table linear in Gamma is not reproduced. -/
theorem linear_violated : both (fun g _ => (g : ℚ)) (1 / 2) (1 / 2) = 35 / 64 ∧ through (fun g _ => (g : ℚ)) (1 / 2) (1 / 2) = 1 / 2 := by decide +kernel

/-- **C349, violated.** And so through the whole of the code: a table of Gamma with equal axes does not give 5/4 for 5/4. -/
theorem table_linear_violated : coeffOf ⟨3, 0, 2, 1, 0, 1, 3, 0, 2⟩ [[[0, 0, 0]], [[1, 1, 1]], [[2, 2, 2]]] (5 / 4) (5 / 4) 0 = .ok (1295 / 1024) ∧
    coeffOf ⟨3, 0, 2, 1, 0, 1, 3, 0, 2⟩ [[[0, 0, 0]], [[1, 1, 1]], [[2, 2, 2]]] (5 / 4) 0 0 = .ok (5 / 4) := by decide +kernel

/-- **C349, violated.** Beyond the table, where one parameter alone gives zero, both together read outside the array. -/
theorem beyond_violated : coeffOf ⟨3, 0, 2, 1, 0, 1, 3, 0, 2⟩ [[[0, 0, 0]], [[1, 1, 1]], [[2, 2, 2]]] 5 0 0 = .ok 0 ∧
    coeffOf ⟨3, 0, 2, 1, 0, 1, 3, 0, 2⟩ [[[0, 0, 0]], [[1, 1, 1]], [[2, 2, 2]]] 5 1 0 = .ub := by decide +kernel

/-! ## C350: the tapered collimator -/

/-- **C350.** Behind the particle the longitudinal potential is the derivative of the transverse one; before it both vanish. -/
theorem taper_derivative (a b : ℝ) (m : Nat) (z : ℝ) : (0 < z → HasDerivAt (taperTrans a b m) (taperLong a b m z) z) ∧ (z ≤ 0 → taperTrans a b m z = 0 ∧ taperLong a b m z = 0) := by
  constructor
  · intro hz
    have hd : HasDerivAt (fun x : ℝ => taperCoeff a b m / Real.exp (m * x / a)) (taperLong a b m z) z := by
      have h1 : HasDerivAt (fun x : ℝ => (m : ℝ) * x / a) ((m : ℝ) / a) z := by
        have := ((hasDerivAt_id z).const_mul (m : ℝ)).div_const a
        simpa using this
      have h2 := (h1.exp.fun_inv (Real.exp_pos _).ne').const_mul (taperCoeff a b m)
      refine (h2.congr_deriv ?_).congr_of_eventuallyEq (Filter.Eventually.of_forall fun x => by simp only [div_eq_mul_inv])
      unfold taperLong
      rw [if_pos hz]
      have := (Real.exp_pos ((m : ℝ) * z / a)).ne'
      field_simp
    refine hd.congr_of_eventuallyEq ?_
    filter_upwards [lt_mem_nhds hz] with x hx
    unfold taperTrans
    rw [if_pos hx]
  · intro hz
    unfold taperTrans taperLong
    rw [if_neg (by linarith), if_neg (by linarith)]
    exact ⟨rfl, rfl⟩

/-- **C350.** With the narrow half gap first, the transverse potential is positive and falls, the longitudinal one is negative, and mode zero has none. -/
theorem taper_signs (a b : ℝ) (m : Nat) (z : ℝ) (ha : 0 < a) (hab : a < b) (hm : m ≠ 0) (hz : 0 < z) : 0 < taperTrans a b m z ∧ taperTrans a b m z < taperCoeff a b m ∧ taperLong a b m z < 0 ∧
    taperTrans a b 0 z = 0 := by
  have hc : 0 < taperCoeff a b m := by
    unfold taperCoeff
    have h1 : a ^ (2 * m) < b ^ (2 * m) := pow_lt_pow_left₀ hab ha.le (by omega)
    have h2 : 1 / b ^ (2 * m) < 1 / a ^ (2 * m) := one_div_lt_one_div_of_lt (pow_pos ha _) h1
    linarith
  have hmp : (0 : ℝ) < m := by exact_mod_cast Nat.pos_of_ne_zero hm
  have he : 1 < Real.exp (m * z / a) := Real.one_lt_exp_iff.mpr (by positivity)
  unfold taperTrans taperLong
  rw [if_pos hz, if_pos hz, if_pos hz]
  refine ⟨div_pos hc (Real.exp_pos _), div_lt_self hc he, ?_, ?_⟩
  · apply div_neg_of_neg_of_pos _ (Real.exp_pos _)
    have : 0 < (m : ℝ) / a * taperCoeff a b m := by positivity
    linarith
  · unfold taperCoeff
    simp

example : 0 < taperTrans 1 2 1 3 := (taper_signs 1 2 1 3 (by norm_num) (by norm_num) (by norm_num) (by norm_num)).1

/-! ## C351, C352: the resistive wall -/

/-- **C351.** Both potentials vanish before the particle; behind it the transverse one is positive and the longitudinal one negative, for the modes there are. -/
theorem resist_signs (modes : Nat) (rad sigma length : ℝ) (hr : 0 < rad) (hs : 0 < sigma) (hl : 0 < length) (m : Nat) (hm : m ≤ modes) (z : ℝ) (hz : 0 < z) :
    ∃ w v, resistTrans modes rad sigma length m z = .ok w ∧ 0 < w ∧ resistLong modes rad sigma length m z = .ok v ∧ v < 0 ∧
      resistTrans modes rad sigma length m (-z) = .ok 0 ∧ resistLong modes rad sigma length m (-z) = .ok 0 := by
  have hd : (0 : ℝ) < 1 + (if modes = 0 then 1 else 0) := by split <;> norm_num
  have hp := Real.pi_pos
  have hc : 0 < 1 / (Real.pi * rad ^ (2 * m + 1) * (1 + (if modes = 0 then 1 else 0))) := by positivity
  have h1 : 0 < √(37674 / 100 / (Real.pi * sigma)) := Real.sqrt_pos.mpr (by positivity)
  have h2 : 0 < √(1 / sigma * (3766 / 10)) := Real.sqrt_pos.mpr (by positivity)
  have h3 : 0 < √z := Real.sqrt_pos.mpr hz
  unfold resistTrans resistLong resistCoeff
  simp only [if_pos hm, if_pos hz, Outcome.bind]
  refine ⟨_, _, rfl, by positivity, rfl, ?_, by rw [if_neg (by linarith)], by rw [if_neg (by linarith)]⟩
  have := mul_pos (mul_pos (mul_pos hc h2) h3) hl
  linarith

/-- **C351.** The transverse potential times the root of the distance is constant, and both grow with the length in proportion. -/
theorem resist_scaling (modes : Nat) (rad sigma length : ℝ) (m : Nat) (hm : m ≤ modes) (z : ℝ) (hz : 0 < z) :
    ∃ w w1 v v1, resistTrans modes rad sigma length m z = .ok w ∧ resistTrans modes rad sigma 1 m 1 = .ok w1 ∧ w * √z = w1 * length ∧
      resistLong modes rad sigma length m z = .ok v ∧ resistLong modes rad sigma 1 m 1 = .ok v1 ∧ v = v1 * √z * length := by
  have h3 : √z ≠ 0 := (Real.sqrt_pos.mpr hz).ne'
  unfold resistTrans resistLong resistCoeff
  simp only [if_pos hm, if_pos hz, Outcome.bind, gt_iff_lt, zero_lt_one, if_true]
  refine ⟨_, _, _, _, rfl, rfl, ?_, rfl, rfl, ?_⟩
  · rw [Real.sqrt_one]
    field_simp
  · rw [Real.sqrt_one]
    ring

/-- **C352, violated.** The longitudinal potential is not the derivative of the transverse one: it grows with distance. -/
theorem derivative_violated (modes : Nat) (rad sigma length : ℝ) (hr : 0 < rad) (hs : 0 < sigma) (hl : 0 < length) (m : Nat) (hm : m ≤ modes) (z : ℝ) (hz : 1 ≤ z) (f : ℝ → ℝ)
    (hf : ∀ x, resistTrans modes rad sigma length m x = .ok (f x)) (v : ℝ) (hv : resistLong modes rad sigma length m z = .ok v) : ¬ HasDerivAt f v z := by
  have hz0 : 0 < z := by linarith
  have hp := Real.pi_pos
  intro hder
  have hd : (0 : ℝ) < 1 + (if modes = 0 then 1 else 0) := by split <;> norm_num
  obtain ⟨c, hc⟩ : ∃ c, c = 1 / (Real.pi * rad ^ (2 * m + 1) * (1 + (if modes = 0 then 1 else 0))) := ⟨_, rfl⟩
  have hcp : 0 < c := by rw [hc]; positivity
  have hfx : ∀ x, 0 < x → f x = c * √(37674 / 100 / (Real.pi * sigma)) * length / √x := by
    intro x hx
    have := hf x
    unfold resistTrans resistCoeff at this
    simp only [if_pos hm, if_pos hx, Outcome.bind] at this
    injection this with this
    rw [hc]
    exact this.symm
  have hvx : v = -c * √(1 / sigma * (3766 / 10)) * √z * length := by
    unfold resistLong resistCoeff at hv
    simp only [if_pos hm, if_pos hz0, Outcome.bind] at hv
    injection hv with hv
    rw [hc]
    exact hv.symm
  have h3 : 0 < √z := Real.sqrt_pos.mpr hz0
  have hg : HasDerivAt f (c * √(37674 / 100 / (Real.pi * sigma)) * length * (-(1 / (2 * √z)) / (√z) ^ 2)) z := by
    have h1 := (((Real.hasDerivAt_sqrt hz0.ne').fun_inv h3.ne').const_mul (c * √(37674 / 100 / (Real.pi * sigma)) * length))
    refine h1.congr_of_eventuallyEq ?_
    filter_upwards [lt_mem_nhds hz0] with x hx
    rw [hfx x hx, div_eq_mul_inv]
  have e := hder.unique hg
  rw [hvx] at e
  have hlt : √(37674 / 100 / (Real.pi * sigma)) < √(1 / sigma * (3766 / 10)) := by
    apply Real.sqrt_lt_sqrt (by positivity)
    rw [div_lt_iff₀ (by positivity)]
    have : 1 / sigma * (3766 / 10) * (Real.pi * sigma) = 3766 / 10 * Real.pi := by field_simp
    rw [this]
    linarith [Real.pi_gt_three]
  have h1 : 0 < √(37674 / 100 / (Real.pi * sigma)) := Real.sqrt_pos.mpr (by positivity)
  have h4 : 1 ≤ √z := Real.one_le_sqrt.mpr hz
  have e2 : √(1 / sigma * (3766 / 10)) * √z = √(37674 / 100 / (Real.pi * sigma)) * (1 / (2 * √z) / (√z) ^ 2) := by
    have hne : c * length ≠ 0 := (mul_pos hcp hl).ne'
    apply mul_left_cancel₀ hne
    linear_combination -e
  have h5 : 1 / (2 * √z) / (√z) ^ 2 ≤ 1 := by
    rw [div_div, div_le_one (by positivity)]
    nlinarith [sq_nonneg (√z), mul_pos h3 h3]
  have h6 : √(37674 / 100 / (Real.pi * sigma)) * (1 / (2 * √z) / (√z) ^ 2) ≤ √(37674 / 100 / (Real.pi * sigma)) := by nlinarith
  have h7 : √(1 / sigma * (3766 / 10)) ≤ √(1 / sigma * (3766 / 10)) * √z := by nlinarith [Real.sqrt_nonneg (1 / sigma * (3766 / 10))]
  linarith

/-- **C352, violated.** The potential of mode zero doubles when more modes are asked for. -/
theorem mode_zero_violated (modes : Nat) (hm : modes ≠ 0) (rad sigma length : ℝ) (hr : 0 < rad) (hs : 0 < sigma) (hl : 0 < length) (z : ℝ) (hz : 0 < z) :
    ∃ v, v < 0 ∧ resistLong 0 rad sigma length 0 z = .ok v ∧ resistLong modes rad sigma length 0 z = .ok (2 * v) := by
  obtain ⟨-, v, -, -, hv, hn, -⟩ := resist_signs 0 rad sigma length hr hs hl 0 le_rfl z hz
  refine ⟨v, hn, hv, ?_⟩
  unfold resistLong resistCoeff at hv ⊢
  simp only [le_refl, Nat.zero_le, if_true, if_pos hz, Outcome.bind, if_neg hm] at hv ⊢
  injection hv with hv
  rw [← hv]
  congr 1
  have := Real.pi_pos
  field_simp
  norm_num

/-! ## C353: the potentials from tables -/

/-- **C353.** Before the particle there is no transverse potential; behind it, for the modes that were read, the value is that of the table within its range
and the asymptotic one beyond, which falls with the root of the distance. -/
theorem table_trans (modes : Nat) (sigma b leng : ℝ) (lo hi : Nat → ℝ) (tab : Nat → ℝ → ℝ) (m : Nat) (h0 : 1 ≤ m) (hm : m ≤ modes) (z : ℝ) :
    (z < 0 → tableTrans modes sigma b leng lo hi tab m z = .ok 0) ∧
    (0 ≤ z → lo m ≤ z / scaleOf sigma b → z / scaleOf sigma b ≤ hi m → tableTrans modes sigma b leng lo hi tab m z = .ok (scaleOf sigma b * leng * tab m (z / scaleOf sigma b) / b ^ (2 * m + 2))) ∧
    (0 < z → 0 < scaleOf sigma b → hi m < z / scaleOf sigma b → ∃ w, tableTrans modes sigma b leng lo hi tab m z = .ok w ∧
      w * √z * b ^ (2 * m + 2) * √(2 * Real.pi) = -2 * scaleOf sigma b * leng * √(scaleOf sigma b) * (b ^ (2 * m + 2) / b ^ (2 * m + 2))) := by
  refine ⟨fun h => ?_, fun h h1 h2 => ?_, fun h hs h1 => ?_⟩
  · unfold tableTrans
    simp only [if_pos h]
  · unfold tableTrans
    simp only
    rw [if_neg (by linarith), if_neg (by omega), if_pos ⟨h1, h2⟩]
  · unfold tableTrans
    simp only
    rw [if_neg (by linarith), if_neg (by omega), if_neg (fun hh => absurd hh.2 (by linarith)), if_neg h.ne']
    refine ⟨_, rfl, ?_⟩
    rw [Real.sqrt_div hs.le]
    have h3 : √z ≠ 0 := (Real.sqrt_pos.mpr h).ne'
    have h4 : √(2 * Real.pi) ≠ 0 := (Real.sqrt_pos.mpr (by have := Real.pi_pos; positivity)).ne'
    field_simp

/-- **C353, violated.** The tables read for the longitudinal potential are never looked at: it is one, whatever the tables, the mode and the distance. -/
theorem long_violated (tab tab' : Nat → ℝ → ℝ) (m m' : Nat) (z z' : ℝ) (hz : 0 < z) (hz' : 0 < z') : tableLong tab m z = 1 ∧ tableLong tab' m' z' = 1 := by
  unfold tableLong
  rw [if_pos hz, if_pos hz']
  exact ⟨rfl, rfl⟩

/-- **C353, violated.** The transverse potential of mode zero uses a pointer that is never set. -/
theorem monopole_violated (modes : Nat) (sigma b leng : ℝ) (lo hi : Nat → ℝ) (tab : Nat → ℝ → ℝ) (z : ℝ) (hz : 0 ≤ z) : tableTrans modes sigma b leng lo hi tab 0 z = .ub := by
  unfold tableTrans
  simp only
  rw [if_neg (by linarith), if_pos (Or.inl trivial)]

end Verif.Resistive
