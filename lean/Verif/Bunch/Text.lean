/-!
# Model of the text form of a particle

Merlin++/PSvector.cpp 13-32.  Doubles are represented by their decimal text of eleven digits and an exponent, integers by
sign and digits.
-/

namespace Verif.Bunch.Text

/-- A number as it is read or printed: sign, digits before and after the point, exponent. -/
structure Num where
  neg : Bool
  ip : List Char
  fp : List Char
  eneg : Bool
  ex : List Char
  deriving DecidableEq, Repr

/-- An integer. -/
structure Int' where
  neg : Bool
  digits : List Char
  deriving DecidableEq, Repr

/-- A double in scientific notation (`scientific << setprecision(10)`, PSvector.cpp 17). -/
def fmtNum (n : Num) : List Char :=
  (if n.neg then ['-'] else []) ++ n.ip ++ '.' :: n.fp ++ 'e' :: (if n.eneg then '-' else '+') :: n.ex

/-- `setw(24)`: spaces on the left. -/
def pad (s : List Char) : List Char := List.replicate (24 - s.length) ' ' ++ s

def fmtInt (n : Int') : List Char := (if n.neg then ['-'] else []) ++ n.digits

/-- `operator<<` (PSvector.cpp 13-22). -/
def write (cs : List Num) (id : Int') : List Char := cs.flatMap (fun n => pad (fmtNum n)) ++ fmtInt id ++ ['\n']

def isWs (c : Char) : Bool := c == ' ' || c == '\n'

def sign : List Char → Bool × List Char
  | '-' :: s => (true, s)
  | '+' :: s => (false, s)
  | s => (false, s)

/-- Exponent of a number, if there is one; `none` if there are no digits after the `e`. -/
def readExp : List Char → Option ((Bool × List Char) × List Char)
  | 'e' :: s =>
    let t := sign s
    let ex := t.2.takeWhile Char.isDigit
    if ex = [] then none else some ((t.1, ex), t.2.dropWhile Char.isDigit)
  | s => some ((false, []), s)

/-- Digits after the point, if there is one. -/
def readFrac : List Char → List Char × List Char
  | '.' :: s => (s.takeWhile Char.isDigit, s.dropWhile Char.isDigit)
  | s => ([], s)

/-- `>>` of a double: white space is skipped, then as many characters as can belong to a number are taken. -/
def readNum (s : List Char) : Option (Num × List Char) :=
  let t := sign (s.dropWhile isWs)
  let ip := t.2.takeWhile Char.isDigit
  let f := readFrac (t.2.dropWhile Char.isDigit)
  if ip = [] ∧ f.1 = [] then none
  else (readExp f.2).map fun e => (⟨t.1, ip, f.1, e.1.1, e.1.2⟩, e.2)

/-- `>>` of an integer. -/
def readInt (s : List Char) : Option (Int' × List Char) :=
  let t := sign (s.dropWhile isWs)
  let d := t.2.takeWhile Char.isDigit
  if d = [] then none else some (⟨t.1, d⟩, t.2.dropWhile Char.isDigit)

def readNums : Nat → List Char → Option (List Num × List Char)
  | 0, s => some ([], s)
  | n + 1, s => (readNum s).bind fun r => (readNums n r.2).map fun q => (r.1 :: q.1, q.2)

/-- `operator>>` (PSvector.cpp 24-32); `none` if the stream is in a failed state afterwards. -/
def read (s : List Char) : Option ((List Num × Int') × List Char) :=
  (readNums 6 s).bind fun r => (readInt r.2).map fun q => ((r.1, q.1), q.2)

/-- The loop of the constructor from a stream (ParticleBunch.cpp 150-155), `fuel` at least the length of the text. -/
def readAll : Nat → List Char → List (List Num × Int')
  | 0, _ => []
  | fuel + 1, s => match read s with
    | some (p, s) => p :: readAll fuel s
    | none => []

end Verif.Bunch.Text
