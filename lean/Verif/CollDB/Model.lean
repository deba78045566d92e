import Mathlib.Algebra.Order.Field.Basic
import Verif.Common.Outcome
import Verif.Aperture.Model

/-!
# Model of `CollimatorDatabase`

Source: `Merlin++/CollimatorDatabase.cpp`, `CollimatorDatabase.h`.

Doubles are exact numbers of an ordered field (a quotient by zero is zero; infinite in C++); `sqrt`, `cos` and `sin` are
parameters.  A file is its list of words; `num` is the value of a word as a number (`none` if it does not begin like one;
words like `1.5abc`, which are split, are left out).  Flatness errors are left out: `EnableJawFlattnessErrors` is declared
but not defined, so that the flag is always false.  Logging and the resistive wake are left out.
-/

namespace Verif.CollDB
open Verif

abbrev Str := List Char

inductive Exn where
  /-- `exit` -/
  | exit
  /-- `std::out_of_range` of `vector::at` -/
  | range
  deriving DecidableEq

/-! ## Reading the file -/

section
variable {K M : Type} [Zero K]

/-- An input stream: the words left, and the fail bit. -/
structure Stream where
  words : List Str
  fail : Bool

/-- `stream >> string`: `none` if nothing is stored. -/
def getWord (i : Stream) : Option Str × Stream :=
  match i.fail, i.words with
  | false, w :: ws => (some w, ⟨ws, false⟩)
  | _, ws => (none, ⟨ws, true⟩)

/-- `stream >> double`: `none` if nothing is stored (the stream has failed before or ended).  A word that is not a number
stores zero, stays in the stream and sets the fail bit. -/
def getNum (num : Str → Option K) (i : Stream) : Option K × Stream :=
  match i.fail, i.words with
  | false, w :: ws =>
    match num w with
    | some v => (some v, ⟨ws, false⟩)
    | none => (some 0, ⟨w :: ws, true⟩)
  | _, ws => (none, ⟨ws, true⟩)

/-- A chain of reads of numbers. -/
def getNums (num : Str → Option K) : Nat → Stream → List (Option K) × Stream
  | 0, i => ([], i)
  | n + 1, i =>
    let r := getNum num i
    let q := getNums num n r.2
    (r.1 :: q.1, q.2)

/-- The first pass (CollimatorDatabase.cpp 45-68): rows of `cols` words are read until one is not complete. -/
def countRows (cols : Nat) (ws : List Str) : Nat :=
  if h : 0 < cols ∧ cols ≤ ws.length then countRows cols (ws.drop cols) + 1 else 0
termination_by ws.length
decreasing_by rw [List.length_drop]; omega

/-- `CollimatorData` (CollimatorDatabase.h 39-57): the name, the numbers in the order of the columns (`none`: not
initialised) and the material (`none`: null pointer). -/
structure Row (K M : Type) where
  name : Str
  nums : List (Option K)
  mat : Option M

/-- `MaterialData::property` (MaterialData.h 29). -/
abbrev Property (M : Type) := List (Str × Option M)

/-- `property[buf]`: inserts a null pointer for an unknown key. -/
def Property.get (p : Property M) (k : Str) : Option M × Property M :=
  match p.find? fun x => x.1 == k with
  | some x => (x.2, p)
  | none => (none, p ++ [(k, none)])

/-- The second pass (CollimatorDatabase.cpp 79-97) with `m` columns of numbers: 8 or 3 with sigma. -/
def loadRows (num : Str → Option K) (m : Nat) : Nat → Stream → Str → Property M → List (Row K M) × Property M
  | 0, _, _, p => ([], p)
  | n + 1, i, buf, p =>
    let w := getWord i
    let v := getNums num m w.2
    let b := getWord v.2
    let buf' := match b.1 with
      | some s => s
      | none => buf
    let g := p.get buf'
    let r := loadRows num m n b.2 buf' g.2
    (⟨w.1.getD [], v.1, g.1⟩ :: r.1, r.2)

/-- The constructor (CollimatorDatabase.cpp 30-104) for a file that could be opened.  `buf` holds the last word of the
file after the first pass. -/
def readFile (num : Str → Option K) (m : Nat) (ws : List Str) (p : Property M) : List (Row K M) × Property M :=
  loadRows num m (countRows (m + 2) ws) ⟨ws, false⟩ (ws.getLast?.getD []) p

end

/-! ## Configuration -/

section
variable {K M : Type} [Field K] [LinearOrder K]

/-- A `Collimator` of the lattice: name, `GetComponentLatticePosition()`, `GetLength()`. -/
structure Col (K : Type) where
  name : Str
  pos : K
  len : K

/-- The apertures that are made. -/
inductive Aper (K : Type) where
  | jaws (j : Aperture.Jaws K)
  | flat (j : Aperture.Jaws K)
  | oneSided (j : Aperture.Jaws K)

/-- What is set: apertures and materials of the collimators by their number, the impact parameter in sigma, and the
number of random numbers used. -/
structure State (K M : Type) where
  ap : Nat → Option (Aper K)
  mat : Nat → Option M
  impact : K
  used : Nat

/-- The number of the collimator that `CollimatorMap` holds for a name: `insert` keeps the first
(CollimatorDatabase.cpp 122-129). -/
def findCol (cols : List (Col K)) (n : Str) : Option Nat := cols.findIdx? fun c => c.name == n

/-- `SetAperture` and `SetMaterialProperties`. -/
def State.set (s : State K M) (c : Nat) (a : Aper K) (m : Option M) : State K M :=
  { s with ap := fun i => if i = c then some a else s.ap i, mat := fun i => if i = c then m else s.mat i }

/-- A row of gaps: name, x_gap, y_gap, tilt, x_offset, y_offset, j1_tilt, j2_tilt, length, material. -/
structure GapRow (K M : Type) where
  name : Str
  xGap : K
  yGap : K
  tilt : K
  xOff : K
  yOff : K
  j1 : K
  j2 : K
  length : K
  mat : Option M

/-- The exit of a collimator aperture. -/
def withExit (j : Aperture.Jaws K) (w h x y : K) : Aperture.Jaws K :=
  [Aperture.Setting.exitWidth w, .exitHeight h, .exitX x, .exitY y].foldl Aperture.setJaws j

/-- `ConfigureCollimators(model)` (CollimatorDatabase.cpp 107-155). -/
def configureGaps (cos sin : K → K) (cols : List (Col K)) : List (GapRow K M) → State K M → State K M
  | [], s => s
  | r :: rs, s =>
    match findCol cols r.name with
    | none => configureGaps cos sin cols rs s
    | some c =>
      let len := (cols[c]?.map (·.len)).getD 0
      configureGaps cos sin cols rs (s.set c
        (.jaws (withExit (Aperture.mkJaws cos sin r.xGap r.yGap r.tilt len 0 0) r.xGap r.yGap 0 0)) r.mat)

/-- A row of openings in sigma: name, sigma_x, sigma_y, tilt, material. -/
structure SigRow (K M : Type) where
  name : Str
  nx : K
  ny : K
  tilt : K
  mat : Option M

/-- A row of the lattice functions: position, beta functions and orbit. -/
structure Tw (K : Type) where
  s : K
  bx : K
  by_ : K
  x : K
  y : K

/-- Settings of the database and the emittances: `EnableMatchBeamEnvelope`, `JawAlignmentErrors`, `PositionError`,
`AngleError`, `PrimaryCollimator`, `RequestedImpactFactor`. -/
structure Conf (K : Type) where
  matched : Bool
  errors : Bool
  posErr : K
  angErr : K
  primary : Str
  request : K
  ex : K
  ey : K

/-- The functions of the environment; `g` is a stream of standard normal numbers cut at three sigma; `whole` is
`2.5 * nanometer`. -/
structure Env (K : Type) where
  sqrt : K → K
  cos : K → K
  sin : K → K
  g : Nat → K
  whole : K

/-- `sigma_entrance`, `sigma_exit` (CollimatorDatabase.cpp 228-240). -/
def sigma (e : Env K) (cf : Conf K) (bx by_ t : K) : K :=
  e.sqrt (bx * cf.ex * e.cos t * e.cos t + by_ * cf.ey * e.sin t * e.sin t)

/-- `RandomNG::normal(0, v, 3)` (RandomNG.cpp 72-93): the second argument is the variance. -/
def normal3 (e : Env K) (v : K) (k : Nat) : K × Nat := if v = 0 then (0, k) else (e.sqrt v * e.g k, k + 1)

/-- The names of the one-sided collimators (CollimatorDatabase.cpp 316-338). -/
def oneSidedNames : List Str := ["TCDQA.A4R6.B1".toList, "TCDQA.B4R6.B1".toList, "TCDQA.C4R6.B1".toList]

/-- Not matched and without errors (CollimatorDatabase.cpp 275-362): jaws parallel to the axis outside both ends. -/
def flatAper (e : Env K) (r : SigRow K M) (len : K) (a b : Tw K) (we he wo ho : K) : Aper K :=
  let x1 := a.x + we / 2
  let x2 := a.x - we / 2
  let y1 := a.y + he / 2
  let y2 := a.y - he / 2
  let xx1 := b.x + wo / 2
  let xx2 := b.x - wo / 2
  let yy1 := b.y + ho / 2
  let yy2 := b.y - ho / 2
  let xj1 := max x1 xx1
  let xj2 := min x2 xx2
  let yj1 := max y1 yy1
  let yj2 := min y2 yy2
  let j := Aperture.mkJaws e.cos e.sin (xj1 - xj2) (yj1 - yj2) r.tilt len ((xj1 + xj2) / 2) ((yj1 + yj2) / 2)
  if oneSidedNames.contains r.name then .oneSided j else .flat j

/-- Not matched, with alignment errors (CollimatorDatabase.cpp 363-530).  The vertical errors are zero. -/
def errorAper (e : Env K) (cf : Conf K) (r : SigRow K M) (len : K) (a b : Tw K) (we he ho : K) (k : Nat) :
    Aper K × Nat :=
  let o1 := normal3 e cf.posErr k
  let a1 := normal3 e cf.angErr o1.2
  let o2 := normal3 e cf.posErr a1.2
  let a2 := normal3 e cf.angErr o2.2
  let wh := normal3 e e.whole a2.2
  let x1 := a.x + we / 2 + o1.1 + wh.1
  let x2 := a.x - we / 2 + o2.1 + wh.1
  let y1 := a.y + he / 2
  let y2 := a.y - he / 2
  -- the gap at the exit is computed from the entrance (CollimatorDatabase.cpp 474)
  let xx1 := b.x + we / 2 + o1.1 + len * a1.1 + wh.1
  let xx2 := b.x - we / 2 + o2.1 + len * a2.1 + wh.1
  let yy1 := b.y + ho / 2
  let yy2 := b.y - ho / 2
  (.jaws (withExit (Aperture.mkJaws e.cos e.sin (x1 - x2) (y1 - y2) r.tilt len ((x1 + x2) / 2) ((y1 + y2) / 2))
    (xx1 - xx2) (yy1 - yy2) ((xx1 + xx2) / 2) ((yy1 + yy2) / 2)), wh.2)

/-- The aperture for a collimator between two rows of lattice functions (CollimatorDatabase.cpp 226-537); matching and
errors together are not supported. -/
def aper (e : Env K) (cf : Conf K) (r : SigRow K M) (len : K) (a b : Tw K) (k : Nat) : Outcome Exn (Aper K × Nat) :=
  let se := sigma e cf a.bx a.by_ r.tilt
  let so := sigma e cf b.bx b.by_ r.tilt
  let we := r.nx * se * 2
  let he := r.ny * se * 2
  let wo := r.nx * so * 2
  let ho := r.ny * so * 2
  if cf.matched ∧ ¬ cf.errors then
    .ok (.jaws (withExit (Aperture.mkJaws e.cos e.sin we he r.tilt len a.x a.y) wo ho b.x b.y), k)
  else if ¬ cf.matched ∧ ¬ cf.errors then .ok (flatAper e r len a b we he wo ho, k)
  else if ¬ cf.matched ∧ cf.errors then .ok (errorAper e cf r len a b we he ho k)
  else .throw .exit

/-- One matching row of the lattice functions (CollimatorDatabase.cpp 186-566).  The material is used for the conductivity
in any case: a null pointer is undefined behaviour. -/
def treat (e : Env K) (cf : Conf K) (r : SigRow K M) (c : Nat) (len : K) (a b : Tw K) (s : State K M) :
    Outcome Exn (State K M) :=
  if a.bx = 0 ∨ a.by_ = 0 then .ok s
  else
    let se := sigma e cf a.bx a.by_ r.tilt
    let imp := if cf.request ≠ 1 ∧ r.name = cf.primary then (r.nx * se + cf.request) / se else s.impact
    (aper e cf r len a b s.used).bind fun q =>
      match r.mat with
      | none => .ub
      | some m => .ok { (s.set c q.1 (some m)) with impact := imp, used := q.2 }

/-- The loop over the rows of the lattice functions (CollimatorDatabase.cpp 183-575): row `j + 1` is read by `at`. -/
def rowLoop (e : Env K) (cf : Conf K) (r : SigRow K M) (c : Nat) (pos len : K) : List (Tw K) → State K M →
    Outcome Exn (State K M)
  | [], s => .ok s
  | a :: rest, s =>
    if pos = a.s then
      match rest with
      | [] => .throw .range
      | b :: _ => (treat e cf r c len a b s).bind fun s' => rowLoop e cf r c pos len rest s'
    else rowLoop e cf r c pos len rest s

/-- The loop over the database (CollimatorDatabase.cpp 177-580). -/
def configure (e : Env K) (cf : Conf K) (cols : List (Col K)) (tw : List (Tw K)) : List (SigRow K M) → State K M →
    Outcome Exn (State K M)
  | [], s => .ok s
  | r :: rs, s =>
    match findCol cols r.name with
    | none => configure e cf cols tw rs s
    | some c =>
      (rowLoop e cf r c ((cols[c]?.map (·.pos)).getD 0) ((cols[c]?.map (·.len)).getD 0) tw s).bind fun s' =>
        configure e cf cols tw rs s'

/-- A particle passes at a place inside the collimator (C86). -/
def passes : Aper K → K → K → K → Bool
  | .jaws j, x, y, z => Aperture.checkJaws j x y z
  | .flat j, x, y, z => Aperture.checkUnaligned j x y z
  | .oneSided j, x, y, z => Aperture.checkOneSided true j x y z

end

end Verif.CollDB
