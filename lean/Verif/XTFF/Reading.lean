import Verif.XTFF.Options

/-!
# Properties of the XTFF interface: reading a file, reference momentum, several files and interfaces
-/

namespace Verif.XTFF
open Verif Verif.Multipole Verif.Multipole.Spec Verif.XTFF.Spec Real
open Verif.MAD (bind_ok_iff obind_ok)

/-! ## C280 -/

theorem columns_of {a b c : List Char} {c1 c2 : Nat} (ha : a.length = c1 - 1) (hb : b.length = c2 - c1 + 1) :
    columns (a ++ (b ++ c)) c1 c2 = .ok b := by
  unfold columns
  rw [if_neg (by simp [ha]), ← ha, List.drop_left, ← hb, List.take_left]

theorem columns_end {a b : List Char} {c1 c2 : Nat} (ha : a.length = c1 - 1) (hb : b.length = c2 - c1 + 1) :
    columns (a ++ b) c1 c2 = .ok b := by
  have := columns_of (c := []) ha hb
  simpa using this

theorem pad_length {n : Nat} {l : List Char} (h : l.length ≤ n) : (pad n l).length = n := by
  simp [pad]; omega

theorem pad_word {n : Nat} {l : List Char} (h : ' ' ∉ l) : (pad n l).takeWhile (· ≠ ' ') = l := by
  unfold pad
  have h1 : ∀ x ∈ l, decide (x ≠ ' ') = true := fun x hx => by simp only [ne_eq, decide_not, Bool.not_eq_eq_eq_not, Bool.not_true, decide_eq_false_iff_not]; rintro rfl; exact h hx
  rw [List.takeWhile_append_of_pos h1]
  cases n - l.length with
  | zero => simp
  | succ m => simp [List.replicate_succ]

/-- A stream that has lines left and has not failed. -/
def lively (lines : List (List Char)) (nl : Bool) : Stream := ⟨lines, nl, false, false⟩

theorem getline_more (old l m : List Char) (t : List (List Char)) (nl : Bool) :
    getline old (lively (l :: m :: t) nl) = (l, lively (m :: t) nl) := by simp [getline, lively]

theorem getline_last (old l : List Char) (nl : Bool) :
    getline old (lively [l] nl) = (l, ⟨[], nl, !nl, false⟩) := by simp [getline, lively]

/-- The stream after all lines of a list but with others left. -/
theorem getline_cons (old l : List Char) {t : List (List Char)} (ht : t ≠ []) (nl : Bool) :
    getline old (lively (l :: t) nl) = (l, lively t nl) := by
  cases t with
  | nil => exact absurd rfl ht
  | cons m t => exact getline_more old l m t nl

/-- The two lines of an element are read as its keyword, label and numbers. -/
theorem fields {atof : List Char → ℝ} {t : Text} (ht : t.Fits) {rest : List (List Char)} (hr : rest ≠ []) (nl : Bool) :
    ∃ d, parseXTFF atof (lively (t.lines ++ rest) nl) = .ok (d, lively rest nl) ∧ d = t.data atof := by
  obtain ⟨⟨k1, k2⟩, ⟨l1, l2⟩, ⟨t1, t2⟩, n0, hn⟩ := ht
  have hk := pad_length k1
  have hl := pad_length l1
  have hty := pad_length t1
  have n1 := hn 1 (by omega) (by omega)
  have n2 := hn 2 (by omega) (by omega)
  have n3 := hn 3 (by omega) (by omega)
  have n4 := hn 4 (by omega) (by omega)
  have n5 := hn 5 (by omega) (by omega)
  have n6 := hn 6 (by omega) (by omega)
  have n7 := hn 7 (by omega) (by omega)
  have n8 := hn 8 (by omega) (by omega)
  have n9 := hn 9 (by omega) (by omega)
  have n10 := hn 10 (by omega) (by omega)
  refine ⟨⟨String.ofList t.kw, t.label, t.type, fun n => [atof (t.num 0), atof (t.num 1), atof (t.num 2), atof (t.num 3), atof (t.num 4),
    atof (t.num 5), atof (t.num 6), atof (t.num 7), atof (t.num 8), atof (t.num 9), atof (t.num 10)].getD n 0⟩, ?_, ?_⟩
  · unfold parseXTFF
    simp only [Text.lines, List.cons_append, List.nil_append]
    rw [getline_more]
    dsimp only
    rw [getline_cons _ _ hr]
    dsimp only
    generalize hA : pad 4 t.kw = A at *
    generalize hB : pad 16 t.label = B at *
    generalize hT : pad 16 t.type = T at *
    have c1 : columns (A ++ (B ++ (t.num 0 ++ (t.num 1 ++ (t.num 2 ++ (t.num 3 ++ (t.num 4 ++ (' ' :: (T ++ (' ' :: t.num 5)))))))))) 1 4 = .ok A :=
      columns_of (a := []) rfl hk
    have c2 : columns (A ++ (B ++ (t.num 0 ++ (t.num 1 ++ (t.num 2 ++ (t.num 3 ++ (t.num 4 ++ (' ' :: (T ++ (' ' :: t.num 5)))))))))) 5 20 = .ok B :=
      columns_of hk hl
    have c3 : columns (A ++ (B ++ (t.num 0 ++ (t.num 1 ++ (t.num 2 ++ (t.num 3 ++ (t.num 4 ++ (' ' :: (T ++ (' ' :: t.num 5)))))))))) 98 113 = .ok T := by
      have := columns_of (a := A ++ B ++ t.num 0 ++ t.num 1 ++ t.num 2 ++ t.num 3 ++ t.num 4 ++ [' ']) (b := T) (c := ' ' :: t.num 5) (c1 := 98) (c2 := 113)
        (by simp [hk, hl, n0, n1, n2, n3, n4]) hty
      simpa using this
    have r0 : columns (A ++ (B ++ (t.num 0 ++ (t.num 1 ++ (t.num 2 ++ (t.num 3 ++ (t.num 4 ++ (' ' :: (T ++ (' ' :: t.num 5)))))))))) 21 32 = .ok (t.num 0) := by
      have := columns_of (a := A ++ B) (b := t.num 0) (c := (t.num 1 ++ (t.num 2 ++ (t.num 3 ++ (t.num 4 ++ (' ' :: (T ++ (' ' :: t.num 5)))))))) (c1 := 21) (c2 := 32)
        (by simp [hk, hl]) n0
      simpa using this
    have r1 : columns (A ++ (B ++ (t.num 0 ++ (t.num 1 ++ (t.num 2 ++ (t.num 3 ++ (t.num 4 ++ (' ' :: (T ++ (' ' :: t.num 5)))))))))) 33 48 = .ok (t.num 1) := by
      have := columns_of (a := A ++ B ++ t.num 0) (b := t.num 1) (c := (t.num 2 ++ (t.num 3 ++ (t.num 4 ++ (' ' :: (T ++ (' ' :: t.num 5))))))) (c1 := 33) (c2 := 48)
        (by simp [hk, hl, n0]) n1
      simpa using this
    have r2 : columns (A ++ (B ++ (t.num 0 ++ (t.num 1 ++ (t.num 2 ++ (t.num 3 ++ (t.num 4 ++ (' ' :: (T ++ (' ' :: t.num 5)))))))))) 49 64 = .ok (t.num 2) := by
      have := columns_of (a := A ++ B ++ t.num 0 ++ t.num 1) (b := t.num 2) (c := (t.num 3 ++ (t.num 4 ++ (' ' :: (T ++ (' ' :: t.num 5)))))) (c1 := 49) (c2 := 64)
        (by simp [hk, hl, n0, n1]) n2
      simpa using this
    have r3 : columns (A ++ (B ++ (t.num 0 ++ (t.num 1 ++ (t.num 2 ++ (t.num 3 ++ (t.num 4 ++ (' ' :: (T ++ (' ' :: t.num 5)))))))))) 65 80 = .ok (t.num 3) := by
      have := columns_of (a := A ++ B ++ t.num 0 ++ t.num 1 ++ t.num 2) (b := t.num 3) (c := (t.num 4 ++ (' ' :: (T ++ (' ' :: t.num 5))))) (c1 := 65) (c2 := 80)
        (by simp [hk, hl, n0, n1, n2]) n3
      simpa using this
    have r4 : columns (A ++ (B ++ (t.num 0 ++ (t.num 1 ++ (t.num 2 ++ (t.num 3 ++ (t.num 4 ++ (' ' :: (T ++ (' ' :: t.num 5)))))))))) 81 96 = .ok (t.num 4) := by
      have := columns_of (a := A ++ B ++ t.num 0 ++ t.num 1 ++ t.num 2 ++ t.num 3) (b := t.num 4) (c := (' ' :: (T ++ (' ' :: t.num 5)))) (c1 := 81) (c2 := 96)
        (by simp [hk, hl, n0, n1, n2, n3]) n4
      simpa using this
    have r5 : columns (A ++ (B ++ (t.num 0 ++ (t.num 1 ++ (t.num 2 ++ (t.num 3 ++ (t.num 4 ++ (' ' :: (T ++ (' ' :: t.num 5)))))))))) 115 130 = .ok (t.num 5) := by
      have := columns_end (a := A ++ B ++ t.num 0 ++ t.num 1 ++ t.num 2 ++ t.num 3 ++ t.num 4 ++ [' '] ++ T ++ [' ']) (b := t.num 5) (c1 := 115) (c2 := 130)
        (by simp [hk, hl, n0, n1, n2, n3, n4, hty]) n5
      simpa using this
    have r6 : columns (t.num 6 ++ (t.num 7 ++ (t.num 8 ++ (t.num 9 ++ t.num 10)))) 1 16 = .ok (t.num 6) := columns_of (a := []) rfl n6
    have r7 : columns (t.num 6 ++ (t.num 7 ++ (t.num 8 ++ (t.num 9 ++ t.num 10)))) 17 32 = .ok (t.num 7) := columns_of n6 n7
    have r8 : columns (t.num 6 ++ (t.num 7 ++ (t.num 8 ++ (t.num 9 ++ t.num 10)))) 33 48 = .ok (t.num 8) := by
      have := columns_of (a := t.num 6 ++ t.num 7) (b := t.num 8) (c := t.num 9 ++ t.num 10) (c1 := 33) (c2 := 48) (by simp [n6, n7]) n8
      simpa using this
    have r9 : columns (t.num 6 ++ (t.num 7 ++ (t.num 8 ++ (t.num 9 ++ t.num 10)))) 49 64 = .ok (t.num 9) := by
      have := columns_of (a := t.num 6 ++ t.num 7 ++ t.num 8) (b := t.num 9) (c := t.num 10) (c1 := 49) (c2 := 64) (by simp [n6, n7, n8]) n9
      simpa using this
    have r10 : columns (t.num 6 ++ (t.num 7 ++ (t.num 8 ++ (t.num 9 ++ t.num 10)))) 65 80 = .ok (t.num 10) := by
      have := columns_end (a := t.num 6 ++ t.num 7 ++ t.num 8 ++ t.num 9) (b := t.num 10) (c1 := 65) (c2 := 80) (by simp [n6, n7, n8, n9]) n10
      simpa using this
    simp only [stringValue, realValue, c1, c2, c3, r0, r1, r2, r3, r4, r5, r6, r7, r8, r9, r10, obind_ok]
    rw [← hA, ← hB, ← hT, pad_word k2, pad_word l2, pad_word t2]
  · unfold Text.data
    congr 1
    funext n
    by_cases h : n < 11
    · rw [if_pos h]
      interval_cases n <;> rfl
    · rw [if_neg h]
      have : [atof (t.num 0), atof (t.num 1), atof (t.num 2), atof (t.num 3), atof (t.num 4), atof (t.num 5), atof (t.num 6), atof (t.num 7),
          atof (t.num 8), atof (t.num 9), atof (t.num 10)].length ≤ n := by simp; omega
      simp only [List.getD, List.getElem?_eq_none this, Option.getD_none]

/-- The stream when the given lines are left: at the end of a file without a newline at its end, the end has been seen. -/
def left (lines : List (List Char)) (nl : Bool) : Stream := if lines = [] then ⟨[], nl, !nl, false⟩ else lively lines nl

theorem left_ne {lines : List (List Char)} (h : lines ≠ []) (nl : Bool) : left lines nl = lively lines nl := by simp [left, h]

theorem left_fail (lines : List (List Char)) (nl : Bool) : (left lines nl).fail = false := by
  unfold left lively; split <;> rfl

theorem getline_left (old l : List Char) (t : List (List Char)) (nl : Bool) : getline old (lively (l :: t) nl) = (l, left t nl) := by
  by_cases h : t = []
  · subst h; rw [getline_last]; simp [left]
  · rw [getline_cons _ _ h, left_ne h]

theorem skip_three {o : List (List Char)} (ho : o.length = 3) (rest : List (List Char)) (nl : Bool) :
    skipLines 3 (lively (o ++ rest) nl) = left rest nl := by
  obtain ⟨a, b, c, rfl⟩ : ∃ a b c, o = [a, b, c] := by
    match o, ho with
    | [a, b, c], _ => exact ⟨a, b, c, rfl⟩
  have f : ∀ l, (lively l nl).fail = false := fun _ => rfl
  have fl : ∀ l t, left (l :: t) nl = lively (l :: t) nl := fun l t => left_ne (by simp) nl
  simp only [List.cons_append, List.nil_append, skipLines, getline_left, f, fl, Bool.false_eq_true, if_false]

/-- The loop reads as many elements as it is told and makes their components in turn. -/
theorem loop_reads {atof : List Char → ℝ} {rs : List Record} (hr : ∀ r ∈ rs, r.Good) (tail : List (List Char)) (nl : Bool) (k : Nat)
    (fuel : Nat) (i : Interface) (g : Globals) :
    loop atof (rs.length + fuel) (rs.length + k : Nat) (left (rs.flatMap Record.lines ++ tail) nl) i g =
      (constructs (rs.map fun r => r.text.data atof) i g).bind fun r => loop atof fuel k (left tail nl) r.1 r.2 := by
  induction rs generalizing i g with
  | nil => simp [constructs, obind_ok]
  | cons r rs ih =>
    obtain ⟨h1, h2⟩ := hr r (List.mem_cons_self ..)
    rw [show (r :: rs).length + fuel = (rs.length + fuel) + 1 by simp; omega]
    rw [loop]
    rw [if_neg (by rw [left_fail]; simp; omega)]
    have hne : (r :: rs).flatMap Record.lines ++ tail ≠ [] := by simp [Record.lines, Text.lines]
    rw [left_ne hne]
    have hsplit : (r :: rs).flatMap Record.lines ++ tail = r.text.lines ++ (r.optics ++ (rs.flatMap Record.lines ++ tail)) := by
      simp [Record.lines]
    rw [hsplit]
    have ho : r.optics ++ (rs.flatMap Record.lines ++ tail) ≠ [] := by
      intro h
      have h3 := congrArg List.length h
      rw [List.length_append, h2] at h3
      simp at h3
    obtain ⟨d, hd, rfl⟩ := fields (atof := atof) h1 ho nl
    rw [hd, obind_ok]
    simp only [List.map_cons, constructs]
    cases hc : construct (r.text.data atof) i g with
    | ok p =>
      simp only [obind_ok]
      rw [skip_three h2]
      rw [show (((r :: rs).length + k : Nat) : Int) - 1 = ((rs.length + k : Nat) : Int) by push_cast; simp; ring]
      exact ih (fun r' h' => hr r' (List.mem_cons_of_mem _ h')) p.1 p.2
    | throw e => rfl
    | ub => rfl

theorem trunc_nat (n : Nat) : truncC n = n := by simp [truncC]

theorem header_ok {atof : List Char → ℝ} {t : Tape} (ht : t.Good) {n : Nat} (hn : atof t.count = n) (nb : ℝ) (nl : Bool)
    (rest : List (List Char)) :
    parseHeader atof nb (lively ((t.before ++ t.count) :: t.second :: (t.initial.lines ++ rest)) nl) =
      .ok (⟨atof (t.initial.text.num 5), nb⟩, (n : Int) - 1, left rest nl) := by
  obtain ⟨h1, h2, ⟨h3, h4⟩, -⟩ := ht
  unfold parseHeader
  rw [getline_more]
  dsimp only
  have hc : columns (t.before ++ t.count) 57 65 = .ok t.count := columns_end h1 h2
  rw [realValue, hc, obind_ok, obind_ok, hn]
  have hi : t.initial.lines ++ rest ≠ [] := by simp [Record.lines, Text.lines]
  rw [getline_cons _ _ hi]
  dsimp only
  have hs : t.initial.lines ++ rest = t.initial.text.lines ++ (t.initial.optics ++ rest) := by simp [Record.lines]
  have ho : t.initial.optics ++ rest ≠ [] := by
    intro h
    have h5 := congrArg List.length h
    rw [List.length_append, h4] at h5
    simp at h5
  rw [hs]
  obtain ⟨d, hd, rfl⟩ := fields (atof := atof) h3 ho nl
  rw [hd, obind_ok, skip_three h4, trunc_nat]
  simp [Text.data]

theorem lines_length {t : Tape} : t.elems.length ≤ (t.elems.flatMap Record.lines).length := by
  induction t.elems with
  | nil => simp
  | cons r rs ih =>
    simp only [List.flatMap_cons, List.length_append, List.length_cons]
    simp [Record.lines, Text.lines] at ih ⊢
    omega

theorem left_lines (l : List (List Char)) (nl : Bool) : (left l nl).lines = l := by
  unfold left lively; split <;> simp_all

/-- A file with as many elements as its first line says is read as these elements, one after the other, beginning with the
energy of the file; the model and the beam are handed out.  Lines after the elements do not matter. -/
theorem reads_file {atof : List Char → ℝ} {t : Tape} (ht : t.Good) (hn : atof t.count = (t.elems.length + 1 : Nat)) (tail : List (List Char))
    (nl : Bool) {i : Interface} (hi : i.file = .open (openFile (t.lines ++ tail) nl)) (g : Globals) :
    parse atof none i g =
      (constructs (t.data atof) { i with mc := .live [] 0, beam := some ⟨t.energy atof, i.nb⟩ } ⟨t.energy atof, 0, 0, charge i.nb⟩).bind
        fun r => (getModel { r.1 with file := .open (left tail nl) }).bind fun m => .ok (m.1, m.2, r.2) := by
  obtain ⟨dt, file, mc, beam, nb, ap, gi, fr⟩ := i
  dsimp only at hi
  subst hi
  unfold parse
  dsimp only
  have hl : openFile (t.lines ++ tail) nl =
      lively ((t.before ++ t.count) :: t.second :: (t.initial.lines ++ (t.elems.flatMap Record.lines ++ tail))) nl := by
    simp [openFile, lively, Tape.lines]
  rw [hl, header_ok ht hn, obind_ok]
  dsimp only
  unfold parse1
  simp only [Bool.true_or, if_true, left_lines]
  have hf : (t.elems.flatMap Record.lines ++ tail).length + 1 =
      t.elems.length + (((t.elems.flatMap Record.lines ++ tail).length - t.elems.length) + 1) := by
    have := lines_length (t := t)
    simp only [List.length_append]
    omega
  rw [hf, show ((t.elems.length + 1 : Nat) : Int) - 1 = ((t.elems.length + 0 : Nat) : Int) by push_cast; ring]
  rw [loop_reads ht.elems]
  unfold Tape.data Tape.energy
  generalize constructs (List.map (fun r => Text.data atof r.text) t.elems) _ _ = o
  cases o with
  | ok r => simp [obind_ok, loop]
  | throw e => rfl
  | ub => rfl

/-- A number by its first digit. -/
noncomputable def digit (l : List Char) : ℝ :=
  match l.head? with
  | some '1' => 1
  | some '2' => 2
  | some '3' => 3
  | _ => 0

/-- The text of an element with given digits, and three lines on its optics. -/
def record (kw label : List Char) (vals : List (Nat × Char)) : Record :=
  ⟨⟨kw, label, [], fun n => ((vals.lookup n).getD ' ') :: List.replicate (if n = 0 then 11 else 15) ' '⟩, [[], [], []]⟩

theorem record_good {kw label : List Char} {vals : List (Nat × Char)} (hk : kw.length ≤ 4 ∧ ' ' ∉ kw) (hl : label.length ≤ 16 ∧ ' ' ∉ label) :
    (record kw label vals).Good :=
  ⟨⟨hk, hl, by simp [record], by simp [record], fun n h _ => by simp [record, h.ne']⟩, rfl⟩

/-- A beginning with an energy of 3 GeV and one quadrupole of length and gradient one. -/
def tape : Tape where
  before := List.replicate 56 ' '
  count := '2' :: List.replicate 8 ' '
  second := []
  initial := record ['I', 'N', 'I', 'T'] [] [(5, '3')]
  elems := [record ['Q', 'U', 'A', 'D'] ['Q'] [(0, '1'), (2, '1')]]

theorem tape_good : tape.Good where
  before := by simp [tape]
  count := by simp [tape]
  initial := record_good (by decide) (by decide)
  elems := by intro r hr; simp only [tape, List.mem_singleton] at hr; subst hr; exact record_good (by decide) (by decide)

theorem tape_count : digit tape.count = (tape.elems.length + 1 : Nat) := by norm_num [digit, tape]

theorem tape_energy : tape.energy digit = 3 := by simp [Tape.energy, tape, record, digit, List.lookup]

theorem tape_data : ∃ d, tape.data digit = [d] ∧ d.kw = "QUAD" ∧ d.label = ['Q'] ∧ d.real 0 = 1 ∧ d.real 2 = 1 ∧ d.real 4 = 0 ∧
    d.real 6 = 0 :=
  ⟨_, rfl, by decide, rfl, by simp [Text.data, tape, record, digit, List.lookup], by simp [Text.data, tape, record, digit, List.lookup],
    by simp [Text.data, tape, record, digit, List.lookup], by simp [Text.data, tape, record, digit, List.lookup]⟩

theorem quad_line {d : Data} (hk : d.kw = "QUAD") (h4 : d.real 4 = 0) (h6 : d.real 6 = 0) {i : Interface} (ht : "QUAD" ∉ i.driftTypes) (g : Globals)
    {acts : List Act} {n : Nat} (hm : i.mc = .live acts n) : constructs [d] i g =
    .ok ({ i with mc := .live (acts ++ [.comp (magnet .quadrupole 1 false (d.real 2) d g.energy) none g.z]) n }, { g with z := g.z + d.real 0 }) := by
  have hkw : keyword i d.kw = "QUAD" := by rw [hk]; exact keyword_same (by simp) (by simp) ht
  simp only [constructs, construct, hkw, h6, skew_zero, normal, isZero_zero, Bool.false_eq_true, if_false, if_true, obind_ok]
  rw [append_ok _ _ _ _ hm, aperOf, h4, isZero_zero]
  simp only [Bool.not_true, Bool.and_false, Bool.false_eq_true, if_false, obind_ok]
  rfl

theorem tape_model (g : Globals) : ∃ i g', parse digit none { mk 0 with file := .open (openFile (tape.lines ++ []) true) } g =
    .ok (([.comp (.magnet .quadrupole ['Q'] 1 (mkGrad 1 (MAD.brhoOf 3 * 1) false)) none 0], some ⟨3, 0⟩), i, g') := by
  obtain ⟨d, hd, hk, hl, h0, h2, h4, h6⟩ := tape_data
  have hq := reads_file tape_good tape_count [] true (i := { mk 0 with file := .open (openFile (tape.lines ++ []) true) }) rfl g
  rw [tape_energy, hd, quad_line hk h4 h6 (by simp [mk]) _ rfl] at hq
  simp only [obind_ok, getModel, magnet, hl, h0, h2, List.nil_append] at hq
  exact ⟨_, _, hq⟩

/-- The file of the example is read as a quadrupole that is matched to 3 GeV. -/
example (g : Globals) : ∃ i f g', parse digit none { mk 0 with file := .open (openFile (tape.lines ++ []) true) } g =
    .ok (([.comp (.magnet .quadrupole ['Q'] 1 f) none 0], some ⟨3, 0⟩), i, g') ∧
    ∀ z, MAD.Spec.field f z = ofReal (MAD.Spec.rigidity 3) * z := by
  obtain ⟨i, g', h⟩ := tape_model g
  exact ⟨i, _, g', h, fun z => by rw [MAD.field_grad1, MAD.rigidity_eq, mul_one]⟩

theorem beam_append {x : Comp} {r : Option Aper} {d : Data} {i i' : Interface} {g g' : Globals} (h : append x r d i g = .ok (i', g')) :
    i'.beam = i.beam := by
  obtain ⟨_, _, -, rfl, -⟩ := append_inv h
  rfl

theorem beam_bind {o : Outcome Exn Comp} {d : Data} {i i' : Interface} {g g' : Globals}
    (h : (o.bind fun x => append x none d i g) = .ok (i', g')) : i'.beam = i.beam := by
  obtain ⟨x, -, h⟩ := bind_append h
  exact beam_append h

theorem beam_mark {d : Data} {i i' : Interface} {g g' : Globals} (h : mark d i g = .ok (i', g')) : i'.beam = i.beam := by
  have hplain : (if d.label = ['V', 'P', 'I', 'V'] then
      (call (.xrot d.label) i.mc).bind fun p => append (.marker d.label) none d { i with mc := p } g
      else append (.marker d.label) none d i g) = .ok (i', g') → i'.beam = i.beam := by
    intro h
    split at h
    · rw [bind_ok_iff] at h
      obtain ⟨p, -, h⟩ := h
      exact (beam_append h).trans rfl
    · exact beam_append h
  unfold mark at h
  dsimp only at h
  split at h
  · split at h
    · cases h
    · split at h
      · split at h
        · rw [bind_ok_iff] at h
          obtain ⟨p, -, h⟩ := h
          injection h with h
          injection h with h _
          rw [← h]
        · rw [bind_ok_iff] at h
          obtain ⟨j, hj, h⟩ := h
          injection h with h
          injection h with h _
          obtain ⟨_, _, _, _, -, hj, -⟩ := effect_newFrame hj
          rw [← h, hj]
      · exact hplain h
  · exact hplain h

theorem beam_construct {d : Data} {i i' : Interface} {g g' : Globals} (h : construct d i g = .ok (i', g')) : i'.beam = i.beam := by
  unfold construct at h
  dsimp only at h
  split at h
  case h_14 => exact beam_mark h
  case h_16 =>
    rw [bind_ok_iff] at h
    obtain ⟨p, -, h⟩ := h
    injection h with h
    injection h with h _
    rw [← h]
  all_goals first
    | exact beam_append h
    | exact beam_bind h
    | (split at h
       · first
         | exact beam_append h
         | exact beam_bind h
       · first
         | exact beam_bind h
         | (rw [bind_ok_iff] at h
            obtain ⟨p, -, h⟩ := h
            exact beam_append h))

theorem beam_kept {ds : List Data} {i i' : Interface} {g g' : Globals} (h : constructs ds i g = .ok (i', g')) : i'.beam = i.beam := by
  induction ds generalizing i g with
  | nil =>
    injection h with h
    injection h with h _
    rw [← h]
  | cons d ds ih =>
    simp only [constructs, bind_ok_iff] at h
    obtain ⟨⟨i1, g1⟩, h1, h2⟩ := h
    exact (ih h2).trans (beam_construct h1)

/-- A file that has been read ends with its initial energy, and the gains of its cavities with the loading of the charge
of the particles. -/
theorem energy_of_file {atof : List Char → ℝ} {t : Tape} (ht : t.Good) (hn : atof t.count = (t.elems.length + 1 : Nat)) (tail : List (List Char))
    (nl : Bool) {i : Interface} (hi : i.file = .open (openFile (t.lines ++ tail) nl)) {g g' : Globals} {m : List Act × Option Beam} {i' : Interface}
    (h : parse atof none i g = .ok (m, i', g')) :
    g'.energy = t.energy atof + gained i.driftTypes (i.nb * 1.602176487e-19) (t.data atof) ∧ m.2 = some ⟨t.energy atof, i.nb⟩ ∧
    Placed 0 m.1 ∧ g'.z = total m.1 := by
  rw [reads_file ht hn tail nl hi, bind_ok_iff] at h
  obtain ⟨⟨j, gj⟩, h1, h2⟩ := h
  rw [bind_ok_iff] at h2
  obtain ⟨⟨m', k⟩, h2, h3⟩ := h2
  injection h3 with h3
  injection h3 with h3 h4
  injection h4 with h4 h5
  dsimp only at h3 h4 h5
  subst h3 h4 h5
  obtain ⟨-, -, -, -, he, hp⟩ := effects h1
  obtain ⟨as, n', p1, p2, p3⟩ := hp [] 0 rfl
  have hb : j.beam = some ⟨t.energy atof, i.nb⟩ := beam_kept h1
  unfold getModel at h2
  dsimp only at h2
  rw [p1] at h2
  cases n' with
  | succ n => cases h2
  | zero =>
    injection h2 with h2
    injection h2 with h2 h2'
    subst h2
    exact ⟨he, hb, by simpa using p2, by simpa using p3⟩

/-! ## C281 -/

/-- The momentum given to `Parse` has no effect: that of the file is used. -/
theorem pref_violated (atof : List Char → ℝ) (p : ℝ) (i : Interface) (g : Globals) : parse atof (some p) i g = parse atof none i g := by
  unfold parse parse1
  cases i.file <;> simp only [Bool.true_or, if_true]

/-- With a file for 3 GeV and a reference momentum of 1 GeV/c, the quadrupole is three times too strong. -/
theorem pref_strength_violated (g : Globals) : ∃ i f g', parse digit (some 1) { mk 0 with file := .open (openFile (tape.lines ++ []) true) } g =
    .ok (([.comp (.magnet .quadrupole ['Q'] 1 f) none 0], some ⟨3, 0⟩), i, g') ∧
    ∀ z, MAD.Spec.field f z = ofReal (3 * (MAD.Spec.rigidity 1 * 1)) * z := by
  obtain ⟨i, g', h⟩ := tape_model g
  refine ⟨i, _, g', (pref_violated _ _ _ _).trans h, fun z => ?_⟩
  rw [MAD.field_grad1, MAD.rigidity_eq]
  unfold MAD.Spec.rigidity
  ring_nf

/-! ## C282 -/

theorem short_line {atof : List Char → ℝ} {s : Stream} (hs : (getline [] s).1 = []) : parseXTFF atof s = .throw .range := by
  unfold parseXTFF
  simp only [hs, stringValue, columns]
  simp [Outcome.bind]

/-- A file that ends after a whole element, though its first line announces more, is refused. -/
theorem missing_elements {atof : List Char → ℝ} {t : Tape} (ht : t.Good) {k : Nat} (hn : atof t.count = (t.elems.length + (k + 1) + 1 : Nat))
    (nl : Bool) {i : Interface} (hi : i.file = .open (openFile t.lines nl)) (g : Globals)
    {r : Interface × Globals} (hr : constructs (t.data atof) { i with mc := .live [] 0, beam := some ⟨t.energy atof, i.nb⟩ }
      ⟨t.energy atof, 0, 0, charge i.nb⟩ = .ok r) : parse atof none i g = .throw .range := by
  obtain ⟨dt, file, mc, beam, nb, ap, gi, fr⟩ := i
  dsimp only at hi
  subst hi
  unfold parse
  dsimp only
  have hl : openFile t.lines nl =
      lively ((t.before ++ t.count) :: t.second :: (t.initial.lines ++ (t.elems.flatMap Record.lines ++ []))) nl := by
    simp [openFile, lively, Tape.lines]
  rw [hl] at hr ⊢
  rw [header_ok ht hn, obind_ok]
  dsimp only
  unfold parse1
  simp only [Bool.true_or, if_true, left_lines]
  have hf : (t.elems.flatMap Record.lines ++ []).length + 1 =
      t.elems.length + (((t.elems.flatMap Record.lines ++ []).length - t.elems.length) + 1) := by
    have := lines_length (t := t)
    simp only [List.length_append, List.length_nil]
    omega
  rw [hf, show ((t.elems.length + (k + 1) + 1 : Nat) : Int) - 1 = ((t.elems.length + (k + 1) : Nat) : Int) by push_cast; ring]
  rw [loop_reads ht.elems]
  unfold Tape.data Tape.energy at hr
  dsimp only at hr
  rw [hr]
  simp only [obind_ok, loop]
  rw [if_neg (by rw [left_fail]; simp; omega)]
  rw [short_line]
  · rfl
  · unfold left getline
    cases nl <;> simp

theorem long_columns {l : List Char} (hl : 130 ≤ l.length) {c1 c2 : Nat} (h : c1 ≤ 130) :
    columns l c1 c2 = .ok ((l.drop (c1 - 1)).take (c2 - c1 + 1)) := by
  rw [columns, if_neg (by omega)]

/-- C282: an element whose second line is missing at the end of a file without end of line is accepted, with numbers from the name
and the first numbers in place of those of the second line. -/
theorem half_element_violated {atof : List Char → ℝ} {l : List Char} (hl : 130 ≤ l.length) :
    ∃ d s, parseXTFF atof (lively [l] false) = .ok (d, s) ∧ d.real 6 = atof (l.take 16) ∧ d.real 7 = atof ((l.drop 16).take 16) ∧
      d.real 10 = atof ((l.drop 64).take 16) := by
  have h : ∃ p, parseXTFF atof (lively [l] false) = .ok p ∧ p.1.real 6 = atof (l.take 16) ∧ p.1.real 7 = atof ((l.drop 16).take 16) ∧
      p.1.real 10 = atof ((l.drop 64).take 16) := by
    unfold parseXTFF
    rw [getline_last]
    have h2 : getline l ⟨[], false, !false, false⟩ = (l, ⟨[], false, true, true⟩) := by simp [getline]
    simp only [h2, stringValue, realValue, long_columns hl, Nat.reduceLeDiff, obind_ok]
    exact ⟨_, rfl, rfl, rfl, rfl⟩
  obtain ⟨p, h⟩ := h
  exact ⟨p.1, p.2, h⟩

/-- Such a line. -/
example : 130 ≤ (List.replicate 130 '1').length := by simp

/-- A file that ends within the optics of an element is taken as complete: no more elements are read, whatever the first
line announces. -/
theorem truncated_violated {atof : List Char → ℝ} {t : Tape} (ht : t.Good) {r : Record} (hr : r.Good) {k : Nat}
    (hn : atof t.count = (t.elems.length + 1 + (k + 1) + 1 : Nat)) {i : Interface}
    (hi : i.file = .open (openFile (t.lines ++ (r.text.lines ++ r.optics.take 2)) true)) (g : Globals)
    {r' : Interface × Globals} (hc : constructs (t.data atof ++ [r.text.data atof]) { i with mc := .live [] 0, beam := some ⟨t.energy atof, i.nb⟩ }
      ⟨t.energy atof, 0, 0, charge i.nb⟩ = .ok r') {acts : List Act} (hm : r'.1.mc = .live acts 0) :
    ∃ i', parse atof none i g = .ok ((acts, r'.1.beam), i', r'.2) := by
  obtain ⟨dt, file, mc, beam, nb, ap, gi, fr⟩ := i
  dsimp only at hi
  subst hi
  rw [constructs_append, bind_ok_iff] at hc
  obtain ⟨r1, hc1, hc2⟩ := hc
  simp only [constructs, bind_ok_iff] at hc2
  obtain ⟨r2, hc2, hc3⟩ := hc2
  injection hc3 with hc3
  have hr2 : r2 = r' := hc3
  subst hr2
  unfold parse
  dsimp only
  have hl : openFile (t.lines ++ (r.text.lines ++ r.optics.take 2)) true =
      lively ((t.before ++ t.count) :: t.second :: (t.initial.lines ++ (t.elems.flatMap Record.lines ++ (r.text.lines ++ r.optics.take 2)))) true := by
    simp [openFile, lively, Tape.lines]
  rw [hl] at hc1 ⊢
  rw [header_ok ht hn, obind_ok]
  dsimp only
  unfold parse1
  simp only [Bool.true_or, if_true, left_lines]
  have hf : (t.elems.flatMap Record.lines ++ (r.text.lines ++ r.optics.take 2)).length + 1 =
      t.elems.length + (((t.elems.flatMap Record.lines ++ (r.text.lines ++ r.optics.take 2)).length - t.elems.length - 1) + 1 + 1) := by
    have := lines_length (t := t)
    have h2 : r.text.lines.length = 2 := rfl
    simp only [List.length_append, h2]
    omega
  rw [hf, show ((t.elems.length + 1 + (k + 1) + 1 : Nat) : Int) - 1 = ((t.elems.length + (k + 2) : Nat) : Int) by push_cast; ring]
  rw [loop_reads ht.elems]
  unfold Tape.data Tape.energy at hc1
  dsimp only at hc1
  rw [hc1, obind_ok]
  obtain ⟨h1, h2⟩ := hr
  obtain ⟨a, b, c, ho⟩ : ∃ a b c, r.optics = [a, b, c] := by
    match r.optics, h2 with
    | [a, b, c], _ => exact ⟨a, b, c, rfl⟩
  have hne : r.text.lines ++ r.optics.take 2 ≠ [] := by simp [Text.lines]
  have hne2 : r.optics.take 2 ≠ [] := by simp [ho]
  obtain ⟨d, hd, rfl⟩ := fields (atof := atof) h1 hne2 true
  have hsk : skipLines 3 (lively (r.optics.take 2) true) = ⟨[], true, true, true⟩ := by
    simp [ho, skipLines, getline, lively]
  rw [loop, if_neg (by rw [left_fail]; simp; omega), left_ne hne, hd, obind_ok]
  dsimp only
  rw [hc2, obind_ok, hsk, loop, if_pos (by simp), obind_ok]
  dsimp only
  simp only [obind_ok, getModel, hm]
  exact ⟨_, rfl⟩

/-- The file of the example with a count of three, and without the last line: nothing is missed. -/
example (g : Globals) : ∃ acts i' b g', parse digit none { mk 0 with file := .open (openFile ({ tape with
      count := '3' :: List.replicate 8 ' ', elems := [] }.lines ++ ((record ['Q', 'U', 'A', 'D'] ['Q'] [(0, '1'), (2, '1')]).text.lines ++
      (record ['Q', 'U', 'A', 'D'] ['Q'] [(0, '1'), (2, '1')]).optics.take 2)) true) } g = .ok ((acts, b), i', g') ∧ acts.length = 1 := by
  obtain ⟨d, hd, hk, hl, h0, h2, h4, h6⟩ := tape_data
  have hd' : (record ['Q', 'U', 'A', 'D'] ['Q'] [(0, '1'), (2, '1')]).text.data digit = d := by
    simpa [Tape.data, tape] using hd
  have hg : ({ tape with count := '3' :: List.replicate 8 ' ', elems := [] } : Tape).Good :=
    ⟨tape_good.before, by simp, tape_good.initial, by simp⟩
  obtain ⟨i', h⟩ := truncated_violated (atof := digit) hg (record_good (kw := ['Q', 'U', 'A', 'D']) (label := ['Q'])
    (vals := [(0, '1'), (2, '1')]) (by decide) (by decide)) (k := 0) (by norm_num [digit]) (i := { mk 0 with file := .open (openFile _ true) }) rfl g
    (by rw [hd']; exact quad_line hk h4 h6 (by simp [mk]) _ rfl) rfl
  exact ⟨_, i', _, _, h, rfl⟩

/-! ## C283 -/

/-- A file that is appended goes on with the energy and the place reached before. -/
theorem append_continues {atof : List Char → ℝ} {t : Tape} (ht : t.Good) (hn : atof t.count = (t.elems.length + 1 : Nat)) (tail : List (List Char))
    (nl : Bool) {i : Interface} {acts : List Act} {n : Nat} (hm : i.mc = .live acts n) (hf : i.file ≠ .freed) {b : Beam} (hb : i.beam = some b) (g : Globals) :
    (appendModel atof (some (openFile (t.lines ++ tail) nl)) i g).1 =
      (constructs (t.data atof) i { g with q := charge i.nb }).bind fun r => .ok ({ r.1 with file := .open (left tail nl) }, r.2) := by
  have hib : ({ i with beam := some b } : Interface) = i := by cases i; simp_all
  have hl : openFile (t.lines ++ tail) nl =
      lively ((t.before ++ t.count) :: t.second :: (t.initial.lines ++ (t.elems.flatMap Record.lines ++ tail))) nl := by
    simp [openFile, lively, Tape.lines]
  have key : (appendModel atof (some (openFile (t.lines ++ tail) nl)) i g).1 = (parseHeader atof i.nb (openFile (t.lines ++ tail) nl)).bind fun h =>
      parse1 atof b h.2.1 false h.2.2 i { g with q := charge i.nb } := by
    unfold appendModel
    cases hfi : i.file with
    | freed => exact absurd hfi hf
    | null => rw [hfi] at hib; simp only [hb, Option.getD_some, hib]
    | «open» s => rw [hfi] at hib; simp only [hb, Option.getD_some, hib]
  rw [key, hl, header_ok ht hn, obind_ok]
  unfold parse1
  simp only [Bool.false_or, left_lines, hm, Bool.false_eq_true, if_false]
  have hf : (t.elems.flatMap Record.lines ++ tail).length + 1 =
      t.elems.length + (((t.elems.flatMap Record.lines ++ tail).length - t.elems.length) + 1) := by
    have := lines_length (t := t)
    simp only [List.length_append]
    omega
  rw [hf, show ((t.elems.length + 1 : Nat) : Int) - 1 = ((t.elems.length + 0 : Nat) : Int) by push_cast; ring]
  rw [loop_reads ht.elems]
  unfold Tape.data
  generalize constructs (List.map (fun r => Text.data atof r.text) t.elems) _ _ = o
  cases o with
  | ok r => simp [obind_ok, loop]
  | throw e => rfl
  | ub => rfl

/-- The first file of an interface made without one begins with its own energy. -/
theorem append_begins {atof : List Char → ℝ} {t : Tape} (ht : t.Good) (hn : atof t.count = (t.elems.length + 1 : Nat)) (tail : List (List Char))
    (nl : Bool) (nb : ℝ) (g : Globals) :
    (appendModel atof (some (openFile (t.lines ++ tail) nl)) (mk nb) g).1 =
      (constructs (t.data atof) { mk nb with mc := .live [] 0, beam := some ⟨t.energy atof, nb⟩ } ⟨t.energy atof, 0, 0, charge nb⟩).bind
        fun r => .ok ({ r.1 with file := .open (left tail nl) }, r.2) := by
  have hl : openFile (t.lines ++ tail) nl =
      lively ((t.before ++ t.count) :: t.second :: (t.initial.lines ++ (t.elems.flatMap Record.lines ++ tail))) nl := by
    simp [openFile, lively, Tape.lines]
  unfold appendModel
  simp only [mk, Option.getD_none]
  rw [hl, header_ok ht hn, obind_ok]
  unfold parse1
  simp only [Bool.false_or, left_lines, if_true]
  have hf : (t.elems.flatMap Record.lines ++ tail).length + 1 =
      t.elems.length + (((t.elems.flatMap Record.lines ++ tail).length - t.elems.length) + 1) := by
    have := lines_length (t := t)
    simp only [List.length_append]
    omega
  rw [hf, show ((t.elems.length + 1 : Nat) : Int) - 1 = ((t.elems.length + 0 : Nat) : Int) by push_cast; ring]
  rw [loop_reads ht.elems]
  unfold Tape.data Tape.energy
  generalize constructs (List.map (fun r => Text.data atof r.text) t.elems) _ _ = o
  cases o with
  | ok r => simp [obind_ok, loop]
  | throw e => rfl
  | ub => rfl

/-- Interfaces share the energy: the first file of a second interface, between two files of a first one, makes the magnets
of the first one's second file fit the energy of the second interface. -/
theorem shared_energy_violated {atof : List Char → ℝ} {t1 t2 : Tape} (h1 : t1.Good) (n1 : atof t1.count = (t1.elems.length + 1 : Nat))
    (h2 : t2.Good) (n2 : atof t2.count = (t2.elems.length + 1 : Nat)) {i i' b' : Interface} {g g1 g2 : Globals} {acts : List Act} {n : Nat}
    (hm : i.mc = .live acts n) (hf : i.file ≠ .freed) {b : Beam} (hb : i.beam = some b) {nb : ℝ}
    (hB : (appendModel atof (some (openFile (t1.lines ++ []) true)) (mk nb) g).1 = .ok (b', g1))
    (hA : (appendModel atof (some (openFile (t2.lines ++ []) true)) i g1).1 = .ok (i', g2)) {d : Data} {rest : List Data}
    (hd : t2.data atof = d :: rest) (hk : d.kw ∈ magnets) (ht : d.kw ∉ i.driftTypes) (hz : isZero (d.real 2) = true → d.real 2 = 0) :
    ∃ x a B n', i'.mc = .live (acts ++ .comp x a g1.z :: B) n' ∧ Matched (t1.energy atof + gained [] (charge nb) (t1.data atof)) d x := by
  rw [append_begins h1 n1, bind_ok_iff] at hB
  obtain ⟨⟨j, gj⟩, hB1, hB2⟩ := hB
  have hB2 : gj = g1 := by injection hB2 with hB2; injection hB2
  subst hB2
  have he := energy_gained hB1
  rw [append_continues h2 n2 [] true hm hf hb, bind_ok_iff] at hA
  obtain ⟨⟨k, gk⟩, hA1, hA2⟩ := hA
  injection hA2 with hA2
  injection hA2 with hA2 _
  rw [hd] at hA1
  have hA1' : constructs ([] ++ d :: rest) i { gj with q := charge i.nb } = .ok (k, gk) := hA1
  obtain ⟨A, x, a, B, n', c1, c2⟩ := magnets_matched hA1' hk ht hz hm
  simp only [constructs, bind_ok_iff] at hA1
  obtain ⟨⟨i1, gg1⟩, hx1, hx2⟩ := hA1
  obtain ⟨x1, a1, acts1, m1, e1, e2, e3⟩ := matched_one hx1 hk ht hz
  rw [hm] at e1
  injection e1 with e1 e1'
  subst e1 e1'
  obtain ⟨-, -, -, -, -, m3⟩ := effects hx2
  obtain ⟨B', n3, f1, -, -⟩ := m3 _ _ e2
  refine ⟨x1, a1, B', n3, ?_, ?_⟩
  · rw [← hA2]
    show k.mc = _
    rw [f1]
    simp
  · have : ({ gj with q := charge i.nb } : Globals).energy = t1.energy atof + gained [] (charge nb) (t1.data atof) := he
    rw [← this]
    exact e3

/-- A first interface which has reached 5 GeV, and the file for 3 GeV for a second interface and for the first. -/
example (g : Globals) : ∃ (i i' b' : Interface) (g1 g2 : Globals), i.mc = .live [] 0 ∧ i.file ≠ .freed ∧ i.beam = some ⟨5, 0⟩ ∧
    (appendModel digit (some (openFile (tape.lines ++ []) true)) (mk 0) g).1 = .ok (b', g1) ∧
    (appendModel digit (some (openFile (tape.lines ++ []) true)) i g1).1 = .ok (i', g2) := by
  obtain ⟨d, hd, hk, hl, h0, h2, h4, h6⟩ := tape_data
  have hB := append_begins (atof := digit) tape_good tape_count [] true 0 g
  rw [hd, quad_line hk h4 h6 (by simp [mk]) _ rfl, obind_ok] at hB
  have hA := append_continues (atof := digit) tape_good tape_count [] true (i := { mk 0 with mc := .live [] 0, beam := some ⟨5, 0⟩ })
    (acts := []) (n := 0) rfl (by simp [mk]) rfl (⟨tape.energy digit, 0, 0 + d.real 0, charge 0⟩ : Globals)
  rw [hd, quad_line hk h4 h6 (by simp [mk]) _ rfl, obind_ok] at hA
  exact ⟨_, _, _, _, _, rfl, by simp [mk], rfl, hB, hA⟩

/-! ## C284 -/

/-- A file that cannot be opened leaves an interface that must not be used for another file, nor destroyed. -/
theorem missing_file_violated (atof : List Char → ℝ) {i : Interface} (hi : i.file ≠ .freed) (g : Globals) :
    ∃ i', appendModel atof none i g = (.throw .open, i') ∧ destroy i' = .ub ∧ ∀ f g, (appendModel atof f i' g).1 = .ub := by
  refine ⟨{ i with file := .freed }, ?_, rfl, fun f g => ?_⟩
  · unfold appendModel
    cases h : i.file with
    | freed => exact absurd h hi
    | null => rfl
    | «open» s => rfl
  · cases f <;> rfl

/-- Without a file there is neither a model nor anything to read, and after the model has been taken nothing can be added. -/
theorem misuse_violated (atof : List Char → ℝ) (nb : ℝ) (g : Globals) :
    getModel (mk nb) = .ub ∧ parse atof none (mk nb) g = .ub ∧
    ∀ i m i', getModel i = .ok (m, i') → ∀ d, d.kw = "DRIF" → construct d i' g = .ub := by
  refine ⟨rfl, rfl, fun i m i' h d hd => ?_⟩
  have hs : i'.mc = .spent := by
    unfold getModel at h
    split at h
    · injection h with h; injection h with _ h; rw [← h]
    all_goals cases h
  have hkw : keyword i' d.kw = "DRIF" := by rw [hd]; simp [keyword]
  simp only [construct, hkw, append, hs, call]
  rfl

/-- A constructed interface can be destroyed, as can one that has read a file. -/
theorem destroyed {atof : List Char → ℝ} {i : Interface} {g : Globals} {m : List Act × Option Beam} {i' : Interface} {g' : Globals}
    (h : parse atof none i g = .ok (m, i', g')) : destroy i' = .ok () := by
  unfold parse at h
  split at h
  · rw [bind_ok_iff] at h
    obtain ⟨hd, -, h⟩ := h
    dsimp only at h
    rw [bind_ok_iff] at h
    obtain ⟨r, hr, h⟩ := h
    rw [bind_ok_iff] at h
    obtain ⟨q, hq, h⟩ := h
    unfold parse1 at hr
    dsimp only at hr
    rw [bind_ok_iff] at hr
    obtain ⟨l, -, hr⟩ := hr
    injection hr with hr
    subst hr
    unfold getModel at hq
    split at hq
    · injection hq with hq
      injection h with h
      injection h with _ h
      injection h with h _
      rw [← h, ← hq]
      rfl
    all_goals cases hq
  all_goals cases h

example : (mk 0).file ≠ .freed := by simp [mk]

end Verif.XTFF
