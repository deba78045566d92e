import Verif.DataTable.Model

/-!
# Model of the TFS reader and writer (Merlin++/DataTableTFS.cpp, DataTableTFS.h)

Simplifications: a file is its text; opening files (`exit(1)` on failure) is left out.  Repeated
`getline` on a stream is represented by the list of lines it delivers, plus a flag telling what the
first failing call does: if the text is empty or ends in a newline it clears the line, otherwise
(end of file already reached) it leaves the line as it was.  Formatting of a `double` with ten
digits (`fmt`) and `std::stod` are parameters; integers are printed and parsed as in C++.
-/

namespace Verif.TFS
open Verif Verif.DataTable

variable {D : Type}

/-- `whitespace`, DataTableTFS.cpp:47. -/
def isBlank (c : Char) : Bool :=
  c == ' ' || c == '\t' || c == '\x0c' || c == '\x0b' || c == '\n' || c == '\r'

/-- State of the loop in `split_line`: words, current word, inside quotes. -/
structure SplitState where
  sl : List Str := []
  current : Str := []
  quote : Bool := false

/-- Body of the loop, DataTableTFS.cpp:60-76. -/
def splitStep (st : SplitState) (c : Char) : SplitState :=
  if c = '"' then { st with quote := !st.quote }
  else if !st.quote && isBlank c then
    if st.current ≠ [] then { st with sl := st.sl ++ [st.current], current := [] } else st
  else { st with current := st.current ++ [c] }

/-- Final flush, DataTableTFS.cpp:77-82. -/
def splitEnd (st : SplitState) : List Str :=
  if st.current ≠ [] then st.sl ++ [st.current] else st.sl

/-- `split_line`, DataTableTFS.cpp:49-83. -/
def splitLine (line : Str) : List Str := splitEnd (line.foldl splitStep {})

/-- `type_conv`, DataTableTFS.cpp:26-45. -/
def typeConv (s : Str) : Outcome Exn Char :=
  if s = "%le".toList ∨ s = "%e".toList then .ok 'd'
  else if s = "%d".toList then .ok 'i'
  else if s = "%s".toList then .ok 's'
  else if 2 < s.length ∧ s.getLast? = some 's' then .ok 's'
  else .throw .badFormat

/-- Outcome of a mutating call on the local table: an exception abandons the table. -/
def keep (r : Outcome Exn Unit × Table D) : Outcome Exn (Table D) :=
  match r with
  | (.ok _, t) => .ok t
  | (.throw e, _) => .throw e
  | (.ub, _) => .ub

/-- Header loop, DataTableTFS.cpp:96-115.  Returns the table, the words of the line that ended the
loop and the remaining lines. -/
def headerLoop [Inhabited D] (cv : Conv D) (t : Table D) (words : List Str) :
    List Str → Outcome Exn (Table D × List Str × List Str)
  | [] => .ok (t, words, [])
  | line :: rest =>
    match splitLine line with
    | [] => headerLoop cv t [] rest
    | w0 :: ws =>
      if w0 ≠ "@".toList then .ok (t, w0 :: ws, rest)
      else match ws with
        | [w1, w2, w3] => do
          let ty ← typeConv w2
          let t1 ← keep (headerAddColumn t w1 ty)
          let t2 ← keep (headerSetWithStr cv t1 w1 w3)
          headerLoop cv t2 (w0 :: ws) rest
        | _ => .throw .badFormat

/-- `type_conv` of every word of the `$` line, DataTableTFS.cpp:135-138. -/
def typesOf : List Str → Outcome Exn (List Char)
  | [] => .ok []
  | w :: ws => do
    let c ← typeConv w
    let cs ← typesOf ws
    .ok (c :: cs)

/-- Adding the columns, DataTableTFS.cpp:145-154. -/
def addColumns [Inhabited D] (t : Table D) : List (Str × Char) → Outcome Exn (Table D)
  | [] => .ok t
  | (n, c) :: rest => do
    let t' ← keep (addColumn t n c)
    addColumns t' rest

/-- Filling one row, DataTableTFS.cpp:173-180. -/
def setRow (cv : Conv D) (t : Table D) (row : Nat) : List (Str × Str) → Outcome Exn (Table D)
  | [] => .ok t
  | (n, w) :: rest => do
    let t' ← keep (setWithStr cv t n row w)
    setRow cv t' row rest

/-- Body loop, DataTableTFS.cpp:157-182. -/
def bodyLoop [Inhabited D] (cv : Conv D) (names : List Str) (types : List Char) (t : Table D) :
    List Str → Outcome Exn (Table D)
  | [] => .ok t
  | line :: rest =>
    match splitLine line with
    | [] => bodyLoop cv names types t rest
    | words =>
      if words.length ≠ types.length then .throw .badFormat
      else do
        let t' ← setRow cv (addRow t).2 (addRow t).1 (names.zip words)
        bodyLoop cv names types t' rest

/-- The words after the `$` line has been fetched (DataTableTFS.cpp:128-130): the line that was
read, or, at the end of the file, the cleared or unchanged line. -/
def typeLineWords (endsGood : Bool) (starWords : List Str) : List Str → List Str × List Str
  | line :: rest => (splitLine line, rest)
  | [] => (if endsGood then [] else starWords, [])

/-- `DataTableReaderTFS::Read`, DataTableTFS.cpp:85-185, on the lines of the file. -/
def read [Inhabited D] (cv : Conv D) (lines : List Str) (endsGood : Bool) :
    Outcome Exn (Table D) := do
  let (t, words, rest) ← headerLoop cv empty [] lines
  match words with
  | [] => .ub
  | w0 :: names =>
    if w0 ≠ "*".toList then .throw .badFormat
    else
      match typeLineWords endsGood (w0 :: names) rest with
      | ([], _) => .ub
      | (d0 :: tys, body) =>
        if d0 ≠ "$".toList then .throw .badFormat
        else do
          let types ← typesOf tys
          if names.length ≠ types.length then .throw .badFormat
          else do
            let t' ← addColumns t (names.zip types)
            bodyLoop cv names types t' body

/-- The lines delivered by repeated `std::getline`: text between newlines; a last line without
newline counts, an empty remainder does not. -/
def linesOf : Str → List Str
  | [] => []
  | c :: cs =>
    if c = '\n' then [] :: linesOf cs
    else match linesOf cs with
      | [] => [[c]]
      | l :: ls => (c :: l) :: ls

/-- The stream is still good after the last line: the text is empty or ends in a newline. -/
def endsGood (text : Str) : Bool := text.isEmpty || text.getLast? == some '\n'

/-- `DataTableReaderTFS::Read` on a text. -/
def readText [Inhabited D] (cv : Conv D) (text : Str) : Outcome Exn (Table D) :=
  read cv (linesOf text) (endsGood text)

/-! ## Numbers as text -/

/-- Decimal digit. -/
def digitChar (d : Nat) : Char := Char.ofNat (48 + d)

/-- Decimal representation of a natural number (`operator<<` for unsigned values). -/
def natToStr (n : Nat) : Str :=
  if n < 10 then [digitChar n] else natToStr (n / 10) ++ [digitChar (n % 10)]
termination_by n

/-- `operator<<(int)`. -/
def intToStr : Int → Str
  | .ofNat n => natToStr n
  | .negSucc n => '-' :: natToStr (n + 1)

def isDigit (c : Char) : Bool := 48 ≤ c.toNat && c.toNat ≤ 57

/-- Longest prefix of digits as a number. -/
def parseDigits (acc : Nat) : Str → Nat
  | [] => acc
  | c :: cs => if isDigit c then parseDigits (acc * 10 + (c.toNat - 48)) cs else acc

/-- Magnitude part of `strtol`: at least one digit is needed. -/
def parseNat (s : Str) : Except Exn Nat :=
  match s with
  | [] => .error .invalidArgument
  | c :: _ => if isDigit c then .ok (parseDigits 0 s) else .error .invalidArgument

/-- `strtol`: blanks skipped, optional sign, digits, rest ignored. -/
def strtol (s : Str) : Except Exn Int :=
  match s.dropWhile isBlank with
  | '-' :: ds => match parseNat ds with
    | .ok n => .ok (-(n : Int))
    | .error e => .error e
  | '+' :: ds => match parseNat ds with
    | .ok n => .ok (n : Int)
    | .error e => .error e
  | ds => match parseNat ds with
    | .ok n => .ok (n : Int)
    | .error e => .error e

/-- `std::stoi`: `strtol` with `out_of_range` outside `int` (32 bits). -/
def stoi (s : Str) : Except Exn Int :=
  match strtol s with
  | .ok v => if -2147483648 ≤ v ∧ v ≤ 2147483647 then .ok v else .error .outOfRange
  | .error e => .error e

/-! ## Writer -/

/-- `std::setw(w) << std::left`. -/
def padRight (w : Nat) (s : Str) : Str := s ++ List.replicate (w - s.length) ' '

def quoted (s : Str) : Str := '"' :: s ++ ['"']

/-- One header line, DataTableTFS.cpp:205-225 (without the newline). -/
def headerLine (fmt : D → Str) (t : Table D) (n : Str) : Outcome Exn Str := do
  let pre := "@ ".toList ++ padRight 16 n ++ " ".toList
  match t.hlookup n with
  | none => .throw .outOfRange
  | some l =>
    if l.ty = 'd' then do
      let x ← headerGetD t n
      .ok (pre ++ "%le ".toList ++ padRight 18 (fmt x))
    else if l.ty = 'i' then do
      let x ← headerGetI t n
      .ok (pre ++ "%d ".toList ++ padRight 8 (intToStr x))
    else if l.ty = 's' then do
      let x ← headerGetS t n
      .ok (pre ++ "%".toList ++ natToStr x.length ++ "s ".toList ++ quoted x)
    else .ok pre

/-- The letters of a column type, DataTableTFS.cpp:238-251. -/
def typeWord (c : Char) : Str :=
  if c = 'd' then "%le ".toList else if c = 'i' then "%d ".toList
  else if c = 's' then "%s ".toList else []

/-- One cell, DataTableTFS.cpp:258-272. -/
def cellText (fmt : D → Str) (t : Table D) (row : Nat) (n : Str) : Outcome Exn Str := do
  let c ← getColumnType t n
  if c = 'd' then do
    let x ← getD t n row
    .ok (' ' :: padRight 18 (fmt x))
  else if c = 'i' then do
    let x ← getI t n row
    .ok (' ' :: padRight 8 (intToStr x))
  else if c = 's' then do
    let x ← getS t n row
    .ok (' ' :: quoted x)
  else .ok " ".toList

/-- Run a call for every element, in order, collecting the results. -/
def collect {α β : Type} (f : α → Outcome Exn β) : List α → Outcome Exn (List β)
  | [] => .ok []
  | a :: as => do
    let b ← f a
    let bs ← collect f as
    .ok (b :: bs)

/-- One row, DataTableTFS.cpp:256-274. -/
def rowLine (fmt : D → Str) (t : Table D) (row : Nat) : Outcome Exn Str := do
  let cs ← collect (cellText fmt t row) t.colNames
  .ok cs.flatten

/-- `DataTableWriterTFS::Write`, DataTableTFS.cpp:199-277: the lines written. -/
def writeLines (fmt : D → Str) (t : Table D) : Outcome Exn (List Str) := do
  let hs ← collect (headerLine fmt t) t.hcolNames
  let names := "* ".toList ++ (t.colNames.map (· ++ " ".toList)).flatten
  let tys ← collect (getColumnType t) t.colNames
  let types := "$ ".toList ++ (tys.map typeWord).flatten
  let rows ← collect (rowLine fmt t) (List.range t.length)
  .ok (hs ++ names :: types :: rows)

/-- The text written: every line is followed by `std::endl`. -/
def write (fmt : D → Str) (t : Table D) : Outcome Exn Str := do
  let ls ← writeLines fmt t
  .ok (ls.map (· ++ ['\n'])).flatten

end Verif.TFS
