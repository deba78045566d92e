import Verif.Common.Outcome
import Verif.Ring.Model
import Verif.StringPattern.Model
import Mathlib.Algebra.Order.Field.Basic

/-!
# Model of the beamline selection functions of `AcceleratorModel` (Merlin++/AcceleratorModel.cpp, .h)

The flat lattice (`std::vector<ComponentFrame*>`) is a list; iterators are indices from `0` to the
size.  Moving an iterator outside this interval or dereferencing `end()` is `ub`.  A frame is
represented by what the functions look at: its qualified name, whether it holds a component,
the component's name and length, whether the component is a `Drift`, its lattice position and its
beamline index.  Console output is left out; `exit(1)` is the exception `exit`.
-/

namespace Verif.Lattice
open Verif

abbrev Str := List Char

inductive Exn where
  /-- `AcceleratorModel::BadRange` -/
  | badRange
  /-- failed `assert` -/
  | assertion
  /-- `exit(1)` -/
  | exit
  deriving DecidableEq, Repr

variable {α K : Type}

/-- `AcceleratorModel::Beamline`, data members AcceleratorModel.h:195-200. -/
structure Beamline where
  first : Nat
  last : Nat
  firstI : Nat
  lastI : Nat
  deriving DecidableEq, Repr

/-- `Beamline::IsReversed`, AcceleratorModel.h:80-83. -/
def Beamline.isReversed (b : Beamline) : Bool := decide (b.last < b.first)

/-- `GetBeamline()`, AcceleratorModel.cpp:107-112, for a lattice of `n` frames. -/
def getBeamline (n : Nat) : Outcome Exn Beamline :=
  if n = 0 then .ub else .ok ⟨0, n - 1, 0, n - 1⟩

/-- `GetBeamline(n1, n2)`, AcceleratorModel.cpp:114-126. -/
def getBeamline2 (n n1 n2 : Nat) : Outcome Exn Beamline :=
  if n2 ≥ n then .throw .badRange
  else if n1 > n then .ub
  else .ok ⟨n1, n2, n1, n2⟩

/-- Loop state of the pattern version, AcceleratorModel.cpp:132-150: the loop with counters `nn1`,
`nn2`, position `ni` and the iterators found so far. -/
def scan (p1 p2 : α → Bool) (n1 n2 : Nat) :
    Nat → Nat → Nat → Option Nat → Option Nat → List α → Option Nat × Option Nat
  | _, _, _, i1, i2, [] => (i1, i2)
  | nn1, nn2, ni, i1, i2, x :: xs =>
    if nn1 = n1 ∧ nn2 = n2 then (i1, i2)
    else if nn1 < n1 ∧ p1 x = true ∧ nn1 + 1 = n1 then
      scan p1 p2 n1 n2 (nn1 + 1) nn2 (ni + 1) (some ni) i2 xs
    else
      let nn1' := if nn1 < n1 ∧ p1 x = true then nn1 + 1 else nn1
      if nn2 < n2 ∧ p2 x = true ∧ nn2 + 1 = n2 then
        scan p1 p2 n1 n2 nn1' (nn2 + 1) (ni + 1) i1 (some ni) xs
      else
        let nn2' := if nn2 < n2 ∧ p2 x = true then nn2 + 1 else nn2
        scan p1 p2 n1 n2 nn1' nn2' (ni + 1) i1 i2 xs

/-- The pattern version on predicates, AcceleratorModel.cpp:128-159. -/
def getBeamlineP (p1 p2 : α → Bool) (n1 n2 : Nat) (xs : List α) : Outcome Exn Beamline :=
  if n1 < 1 ∨ n2 < 1 then .throw .assertion
  else match scan p1 p2 n1 n2 0 0 0 none none xs with
    | (some a, some b) => .ok ⟨a, b, a, b⟩
    | _ => .throw .badRange

/-- A component frame as the functions below see it. -/
structure Frame (K : Type) where
  /-- `GetQualifiedName()` of the frame -/
  frameName : Str
  /-- `IsComponent()`: the frame holds a component -/
  isComponent : Bool
  /-- type and name of the component -/
  type : Str
  name : Str
  isDrift : Bool
  len : K
  /-- `GetComponentLatticePosition` -/
  pos : K
  /-- `GetBeamlineIndex` -/
  index : Nat
  deriving DecidableEq

/-- `ModelElement::GetQualifiedName`, ModelElement.h:106-109. -/
def Frame.qualified (f : Frame K) : Str := f.type ++ ['.'] ++ f.name

/-- The name that is matched, AcceleratorModel.cpp:140. -/
def Frame.id (f : Frame K) : Str := if f.isComponent then f.qualified else f.frameName

/-- `GetBeamline(pat1, pat2, n1, n2)`, AcceleratorModel.cpp:128-159. -/
def getBeamlinePat (xs : List (Frame K)) (pat1 pat2 : Str) (n1 n2 : Nat) : Outcome Exn Beamline :=
  getBeamlineP (fun f => StringPattern.matchStr pat1 f.id) (fun f => StringPattern.matchStr pat2 f.id)
    n1 n2 xs

/-- `GetRing(n)`, AcceleratorModel.cpp:161-166: the position of the ring iterator. -/
def getRing (size : Nat) (n : Int) : Outcome Exn Nat :=
  if 0 ≤ n ∧ n ≤ size then .ok n.toNat else .ub

/-- `GetReversedBeamline`, AcceleratorModel.cpp:168-173. -/
def getReversedBeamline (n : Nat) : Outcome Exn Beamline :=
  if n = 0 then .ub else .ok ⟨n - 1, 0, n - 1, 0⟩

/-- A loop `for(i = b.begin(); i != b.end(); ++i)` over a lattice of `n` frames
(`begin`, `end` AcceleratorModel.h:107-140; `end()` is `last + 1`); the indices dereferenced. -/
def iterate (n i stop : Nat) : Outcome Exn (List Nat) :=
  if i = stop then .ok []
  else if i < n then do
    let is ← iterate n (i + 1) stop
    .ok (i :: is)
  else .ub
termination_by n - i

def Beamline.visit (n : Nat) (b : Beamline) : Outcome Exn (List Nat) := iterate n b.first (b.last + 1)

/-- `ExtractComponents`, AcceleratorModel.cpp:175-195: indices of the frames returned.  All frames
are assumed to hold a component (`GetComponent` of an empty frame is undefined). -/
def extractComponents (xs : List (Frame K)) (pat : Str) : List (Frame K) :=
  if pat = "*".toList then xs
  else xs.filter fun f => StringPattern.matchStr pat f.qualified

/-- Loop of `GetIndexes`, AcceleratorModel.cpp:346-357, from position `n0` on. -/
def getIndexesLoop (pat : Str) : Nat → List (Frame K) → List Nat
  | _, [] => []
  | n0, f :: fs =>
    if f.isComponent && StringPattern.matchStr pat f.qualified then n0 :: getIndexesLoop pat (n0 + 1) fs
    else getIndexesLoop pat (n0 + 1) fs

/-- `GetIndexes(beamline, pat)`, AcceleratorModel.cpp:340-360, for a beamline that can be
iterated. -/
def getIndexes (xs : List (Frame K)) (b : Beamline) (pat : Str) : Outcome Exn (List Nat) := do
  let is ← b.visit xs.length
  .ok (getIndexesLoop pat b.first ((xs.drop b.first).take is.length))

/-! ## Installing an element -/

/-- A `std::vector`: contents, capacity, and the identity of its buffer. -/
structure Vec (α : Type) where
  items : List α
  cap : Nat
  buf : Nat
  deriving DecidableEq

/-- An iterator of a vector is a pointer into one buffer. -/
structure VecIt where
  buf : Nat
  idx : Nat

/-- `vector::erase(it)`. -/
def Vec.erase (v : Vec α) (idx : Nat) : Vec α × VecIt :=
  ({ v with items := v.items.eraseIdx idx }, ⟨v.buf, idx⟩)

/-- `vector::insert(it, x)`: an iterator into an old buffer dangles; a full vector moves to a new
buffer (with room for `grow cap` elements).  Simplification in favour of the code: without reallocation the
iterator given is treated as still pointing at the same place afterwards, as in all implementations;
the standard calls it invalid even then. -/
def Vec.insert (grow : Nat → Nat) (v : Vec α) (it : VecIt) (x : α) : Outcome Exn (Vec α) :=
  if it.buf ≠ v.buf ∨ it.idx > v.items.length then .ub
  else
    let items := v.items.take it.idx ++ x :: v.items.drop it.idx
    if v.items.length < v.cap then .ok { v with items := items }
    else .ok ⟨items, grow v.cap, v.buf + 1⟩

variable [Field K] [LinearOrder K]

/-- Search for the insertion point, AcceleratorModel.cpp:248-264: index of the frame and the path
length `s` at its end. -/
def findAt (at_ : K) : Nat → K → List (Frame K) → Option (Nat × K × Frame K)
  | _, _, [] => none
  | i, s, f :: fs =>
    let s' := s + f.len
    if s' > at_ then some (i, s', f) else findAt at_ (i + 1) s' fs

/-- A new frame around a component, TComponentFrame.h and ComponentFrame.h:115-118 (`blI(0)`). -/
def newDrift (name : Str) (len pos : K) : Frame K :=
  ⟨"Drift".toList ++ ['.'] ++ name, true, "Drift".toList, name, true, len, pos, 0⟩

/-- `InstallModelElement(element, at)`, AcceleratorModel.cpp:232-303, the effect on the lattice. -/
def install (grow : Nat → Nat) (v : Vec (Frame K)) (element : Frame K) (at_ : K) :
    Outcome Exn (Vec (Frame K)) :=
  if element.len ≠ 0 then .throw .exit
  else match findAt at_ 0 0 v.items with
    | none => .throw .exit
    | some (i, s, f) =>
      let cut1 := at_ - s + f.len
      let cut2 := s - at_
      if f.isDrift then do
        let d1 := newDrift (f.name ++ "_part1".toList) cut1 (at_ - cut1)
        let d2 := newDrift (f.name ++ "_part2".toList) cut2 at_
        let el := { element with pos := at_, index := 0 }
        let (v0, marker) := v.erase i
        let v1 ← v0.insert grow marker d2
        let v2 ← v1.insert grow marker el
        v2.insert grow marker d1
      else .throw .exit

end Verif.Lattice
