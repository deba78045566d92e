/-!
# Model of `StringPattern` (Merlin++/StringPattern.h, StringPattern.cpp)

Simplifications: `std::string` is a list of characters; the static wildcard character
`StringPattern::wcchar` (StringPattern.cpp:16, StringPattern.h:61) has its default value `'*'`;
an index `n` into the subject is represented by the suffix of the subject that starts at `n`.
-/

namespace Verif.StringPattern

abbrev Str := List Char

/-- `SkipWC`, StringPattern.cpp:140-147: drop leading delimiters. -/
def skipWC (d : Char) : Str → Str
  | [] => []
  | c :: cs => if c = d then skipWC d cs else c :: cs

/-- Inner loop of `DelimitString`, StringPattern.cpp:178-182: characters up to the next delimiter
(first component) and what follows, delimiter included (second component). -/
def takeLit (d : Char) : Str → Str × Str
  | [] => ([], [])
  | c :: cs =>
    if c = d then ([], c :: cs)
    else let r := takeLit d cs; (c :: r.1, r.2)

theorem skipWC_length_le (d : Char) (s : Str) : (skipWC d s).length ≤ s.length := by
  induction s with
  | nil => simp [skipWC]
  | cons c cs ih =>
    unfold skipWC
    by_cases h : c = d
    · simp only [h, if_true, List.length_cons]; omega
    · simp [h]

theorem takeLit_length (d : Char) (s : Str) :
    (takeLit d s).1.length + (takeLit d s).2.length = s.length := by
  induction s with
  | nil => simp [takeLit]
  | cons c cs ih =>
    unfold takeLit
    by_cases h : c = d
    · simp [h]
    · simp only [h, if_false, List.length_cons]; omega

theorem splitLoop_decreases (d c : Char) (cs : Str) :
    (skipWC d (takeLit d (c :: cs)).2).length < (c :: cs).length := by
  by_cases h : c = d
  · have h1 : (takeLit d (c :: cs)).2 = c :: cs := by simp [takeLit, h]
    have h2 : skipWC d (c :: cs) = skipWC d cs := by simp [skipWC, h]
    rw [h1, h2]
    have := skipWC_length_le d cs
    simp only [List.length_cons]; omega
  · have h1 : (takeLit d (c :: cs)).2 = (takeLit d cs).2 := by simp [takeLit, h]
    rw [h1]
    have := skipWC_length_le d (takeLit d cs).2
    have := takeLit_length d cs
    simp only [List.length_cons]; omega

/-- Outer loop of `DelimitString`, StringPattern.cpp:175-187. -/
def splitLoop (d : Char) : Str → List Str
  | [] => []
  | c :: cs =>
    (takeLit d (c :: cs)).1 :: splitLoop d (skipWC d (takeLit d (c :: cs)).2)
termination_by s => s.length
decreasing_by exact splitLoop_decreases d c cs

/-- Result of `DelimitString`: the pieces and the pair of flags
"first character is the delimiter", "last character is the delimiter". -/
structure Delimited where
  first : Bool
  last : Bool
  pieces : List Str
  deriving Repr, DecidableEq

/-- `DelimitString`, StringPattern.cpp:149-199.  The early return at lines 168-172 is the case
where only delimiters are present. -/
def delimitString (d : Char) (s : Str) : Delimited :=
  match s with
  | [] => ⟨false, false, []⟩
  | c :: cs =>
    if c = d then
      if skipWC d (c :: cs) = [] then ⟨true, true, []⟩
      else ⟨true, (c :: cs).getLast? == some d, splitLoop d (skipWC d (c :: cs))⟩
    else ⟨false, (c :: cs).getLast? == some d, splitLoop d (c :: cs)⟩

/-- Data members of `StringPattern` (StringPattern.h:69-88).  `wcterm` and `isLiteral` are only
meaningful when `orpatterns` is empty. -/
inductive Pattern where
  | mk (str : Str) (patterns : List Str) (orpatterns : List Pattern)
       (wcfirst wclast isLiteral : Bool)

/-- The part of the constructor for a pattern without alternatives,
StringPattern.cpp:33-35. -/
def leaf (s : Str) : Pattern :=
  let w := delimitString '*' s
  .mk s w.pieces [] w.first w.last (!w.first && !w.last && w.pieces.length == 1)

theorem splitLoop_length_le (d : Char) (s : Str) :
    ∀ p ∈ splitLoop d s, p.length ≤ s.length := by
  induction s using splitLoop.induct d with
  | case1 => simp [splitLoop]
  | case2 c cs ih =>
    rw [splitLoop]
    intro p hp
    have h1 := takeLit_length d (c :: cs)
    have h2 := splitLoop_decreases d c cs
    rcases List.mem_cons.1 hp with rfl | hp
    · omega
    · have := ih p hp; omega

theorem splitLoop_length_lt (d : Char) (s : Str) (h : 1 < (splitLoop d s).length) :
    ∀ p ∈ splitLoop d s, p.length < s.length := by
  match s with
  | [] => simp [splitLoop]
  | c :: cs =>
    rw [splitLoop] at h ⊢
    intro p hp
    have h1 := takeLit_length d (c :: cs)
    have h2 := splitLoop_decreases d c cs
    rcases List.mem_cons.1 hp with rfl | hp
    · have : (takeLit d (c :: cs)).2 ≠ [] := by
        intro h0
        rw [h0] at h
        simp [skipWC, splitLoop] at h
      have : 0 < (takeLit d (c :: cs)).2.length := List.length_pos_iff.2 this
      omega
    · have := splitLoop_length_le d _ p hp; omega

theorem delimit_length_lt (d : Char) (s : Str) (h : 1 < (delimitString d s).pieces.length) :
    ∀ p ∈ (delimitString d s).pieces, p.length < s.length := by
  unfold delimitString at h ⊢
  match s with
  | [] => simp
  | c :: cs =>
    by_cases h1 : c = d
    · by_cases h2 : skipWC d (c :: cs) = []
      · simp [h1] at h2; simp [h1, h2]
      · simp only [h1, if_true] at h h2 ⊢
        simp only [h2, if_false] at h ⊢
        intro p hp
        have h3 := splitLoop_length_lt d _ h p hp
        have h4 := skipWC_length_le d (d :: cs)
        simp only [List.length_cons] at *
        omega
    · simp only [h1, if_false] at h ⊢
      exact splitLoop_length_lt d _ h

/-- Constructor `StringPattern::StringPattern`, StringPattern.cpp:18-37. -/
def construct (s : Str) : Pattern :=
  if h : 1 < (delimitString '|' s).pieces.length then
    .mk s (delimitString '|' s).pieces
      ((delimitString '|' s).pieces.attach.map fun p => construct p.1) false false false
  else leaf s
termination_by s.length
decreasing_by exact delimit_length_lt '|' s h p.1 p.2

/-- `s.find(lit, n)` followed by `n += lit.length()` (StringPattern.cpp:88-95) on the suffix at
`n`: what follows the leftmost occurrence of `lit`, `none` for `npos`. -/
def findAfter (lit : Str) : Str → Option Str
  | [] => if lit = [] then some [] else none
  | c :: cs => if lit.isPrefixOf (c :: cs) then some ((c :: cs).drop lit.length) else findAfter lit cs

/-- Matching loop with the final test, StringPattern.cpp:78-115.  `rest` is the subject from
position `n`. -/
def matchLoop (wclast : Bool) : Bool → List Str → Str → Bool
  | _, [], rest => rest.isEmpty || wclast
  | allowFloat, lit :: ls, rest =>
    if rest.isEmpty then false
    else if allowFloat then
      match findAfter lit rest with
      | none => false
      | some rest' => matchLoop wclast true ls rest'
    else if lit.isPrefixOf rest then matchLoop wclast true ls (rest.drop lit.length)
    else false

/-- Non-OR part of `StringPattern::Match`, StringPattern.cpp:57-115. -/
def matchLeaf (patterns : List Str) (wcfirst wclast isLiteral : Bool) (s : Str) : Bool :=
  if isLiteral then patterns.head? == some s
  else if patterns.isEmpty then wcfirst || s.isEmpty
  else matchLoop wclast wcfirst patterns s

mutual
/-- `StringPattern::Match`, StringPattern.cpp:39-116. -/
def Pattern.matches : Pattern → Str → Bool
  | .mk _ patterns orpatterns wcfirst wclast isLiteral, s =>
    match orpatterns with
    | [] => matchLeaf patterns wcfirst wclast isLiteral s
    | o :: os => o.matches s || matchAny os s

/-- Loop over the alternatives, StringPattern.cpp:44-51. -/
def matchAny : List Pattern → Str → Bool
  | [], _ => false
  | o :: os, s => o.matches s || matchAny os s
end

/-- `operator<<`, StringPattern.cpp:118-138 (the text sent to the stream). -/
def Pattern.print : Pattern → Str
  | .mk _ patterns _ wcfirst wclast _ =>
    (if wcfirst then ['*'] else []) ++ List.intercalate ['*'] patterns ++
      (if wclast then ['*'] else [])

/-- User view: does the pattern written `p` match `s`? -/
def matchStr (p s : Str) : Bool := (construct p).matches s

end Verif.StringPattern
