import Verif.Common.Outcome
import Verif.StringPattern.Model

/-!
# Model of `ElementRepository` and `ChannelServer`

Sources: `Merlin++/ElementRepository.cpp`, `Merlin++/ChannelServer.cpp`, `Merlin++/ModelElement.h`,
`Merlin++/IndirectChannels.h`, `Merlin++/BPMChannelCtor.cpp`.

Simplifications: strings are lists of characters, compared by code point; a channel is the pair of
its constructor and its element; `std::set` of pointers is a list without duplicates (the order of
pointers is not specified by the language, so results are to be read up to the order within a set).
-/

namespace Verif.Channel
open Verif Verif.StringPattern

/-- The exception of `std::string::substr`. -/
inductive Exn where
  | outOfRange
  deriving DecidableEq, Repr

/-- `int n = s.find('.', from)`: the position, or -1 (`npos` converted to `int`). -/
def findDot (s : Str) (start : Nat) : Int :=
  match (s.drop start).findIdx? (· = '.') with
  | some i => (start + i : Nat)
  | none => -1

/-- `s.substr(pos, n)`: a negative count becomes a huge one. -/
def substr (s : Str) (pos : Nat) (n : Int) : Outcome Exn Str :=
  if s.length < pos then .throw .outOfRange
  else if n < 0 then .ok (s.drop pos)
  else .ok ((s.drop pos).take n.toNat)

/-- `CHPath` (ChannelServer.cpp 21-39). -/
structure CHPath where
  type : Str
  id : Str
  key : Str
  deriving DecidableEq, Repr

/-- `CHPath::CHPath` (ChannelServer.cpp 41-50). -/
def CHPath.parse (cid : Str) : Outcome Exn CHPath := do
  let n1 := findDot cid 0
  let type ← substr cid 0 n1
  let n2 := findDot cid (n1 + 1).toNat
  let id ← substr cid (n1 + 1).toNat (n2 - n1 - 1)
  let key ← substr cid (n2 + 1).toNat (-1)
  pure ⟨type, id, key⟩

/-- `CHPath::eid` (ChannelServer.cpp 34-37). -/
def CHPath.eid (p : CHPath) : Str := p.type ++ '.' :: p.id

/-- A `ModelElement`, known by its address, type and name; `isComponent` is the answer of its frame
in a beamline. -/
structure Elem where
  ptr : Nat
  type : Str
  name : Str
  isComponent : Bool
  deriving DecidableEq, Repr

/-- `ModelElement::GetQualifiedName` (ModelElement.h 106-109). -/
def Elem.qualified (e : Elem) : Str := e.type ++ '.' :: e.name

/-! ## `ElementRepository` -/

/-- `ElementRepository::Add` (ElementRepository.cpp 47-51). -/
def add (repo : List Elem) (e : Elem) : List Elem × Bool :=
  if repo.any (·.ptr == e.ptr) then (repo, false) else (repo ++ [e], true)

/-- `MatchID::operator()` (ElementRepository.cpp 27-31); `neg` is the member as far as it has a
value. -/
def matchID (neg : Option Bool) (pat : Str) (e : Elem) : Outcome Exn Bool :=
  match neg with
  | none => .ub
  | some b => let rv := matchStr pat e.qualified; .ok (if b then !rv else rv)

/-- `MatchID::MatchID(idpat, negate)` (ElementRepository.cpp 23-26): the argument `negate` is not
stored. -/
def matchIDNeg (_negate : Bool) : Option Bool := none

/-- `remove_copy_if` with `back_inserter` (ElementRepository.cpp 60-61). -/
def removeCopyIf (neg : Option Bool) (pat : Str) : List Elem → List Elem → Outcome Exn (List Elem)
  | [], out => .ok out
  | e :: es, out => do
    let b ← matchID neg pat e
    removeCopyIf neg pat es (if b then out else out ++ [e])

/-- `ElementRepository::Find` with the given value of the member `neg`. -/
def findWith (neg : Option Bool) (repo : List Elem) (pat : Str) (out : List Elem) :
    Outcome Exn (List Elem × Nat) := do
  let r ← removeCopyIf neg pat repo out
  pure (r, r.length)

/-- `ElementRepository::Find` (ElementRepository.cpp 58-63). -/
def find (repo : List Elem) (pat : Str) (out : List Elem) : Outcome Exn (List Elem × Nat) :=
  findWith (matchIDNeg true) repo pat out

/-- `count_if` (ElementRepository.cpp 53-56). -/
def countIf (neg : Option Bool) (pat : Str) : List Elem → Outcome Exn Nat
  | [] => .ok 0
  | e :: es => do
    let b ← matchID neg pat e
    let n ← countIf neg pat es
    pure (if b then n + 1 else n)

/-- `ElementRepository::Count` (ElementRepository.cpp 53-56). -/
def count (repo : List Elem) (pat : Str) : Outcome Exn Nat := countIf (matchIDNeg false) pat repo

/-! ## `ChannelServer` -/

/-- `ChannelCtor` (ChannelServer.h 32-76); `writable`: `ConstructRW` does not return null
(BPMChannelCtor.cpp 34-37 does). -/
structure Ctor where
  type : Str
  key : Str
  writable : Bool
  deriving DecidableEq, Repr

/-- `ChannelCtor::GetID` (ChannelServer.cpp 81-84). -/
def Ctor.id (c : Ctor) : Str := c.type ++ '.' :: c.key

/-- `std::string` order. -/
def strLt : Str → Str → Bool
  | _, [] => false
  | [], _ :: _ => true
  | a :: as, b :: bs => if a = b then strLt as bs else decide (a.toNat < b.toNat)

/-- `RegisterCtor` (ChannelServer.cpp 242-247): insertion into the `std::map` ordered by id; a
second entry with the same id violates the assertion. -/
def register : List Ctor → Ctor → Outcome Exn (List Ctor)
  | [], c => .ok [c]
  | d :: ds, c =>
    if strLt c.id d.id then .ok (c :: d :: ds)
    else if strLt d.id c.id then do
      let r ← register ds c
      pure (d :: r)
    else .ub

/-- `FindCtors` (ChannelServer.cpp 254-276). -/
def findCtors (tbl : List Ctor) (type keypat : Str) : List Ctor :=
  let c1 := tbl.dropWhile (fun c => !(c.type == type))
  let range := c1.takeWhile (fun c => c.type == type)
  range.filter (fun c => matchStr keypat c.key)

/-- Construction of the channels of one element (ChannelServer.cpp 118-122, 160-166, 193-199,
228-234). -/
def construct (rw : Bool) (e : Elem) : List Ctor → Outcome Exn (List (Ctor × Elem))
  | [] => .ok []
  | c :: cs =>
    if rw && !c.writable then .ub
    else do
      let r ← construct rw e cs
      pure ((c, e) :: r)

/-- Loop over a beamline (ChannelServer.cpp 179-202, 214-237). -/
def beamlineLoop (rw : Bool) (tbl : List Ctor) (idpat keypat : Str) :
    List Elem → Outcome Exn (List (Ctor × Elem))
  | [] => .ok []
  | e :: es => do
    let cs ← if e.isComponent && matchStr idpat e.qualified then
        construct rw e (findCtors tbl e.type keypat)
      else .ok []
    let r ← beamlineLoop rw tbl idpat keypat es
    pure (cs ++ r)

/-- `GetROChannels(beamline, ...)` and `GetRWChannels(beamline, ...)` (ChannelServer.cpp 172-240). -/
def beamlineChannels (rw : Bool) (tbl : List Ctor) (beamline : List Elem) (chid : Str) :
    Outcome Exn (List (Ctor × Elem)) := do
  let p ← CHPath.parse chid
  beamlineLoop rw tbl p.eid p.key beamline

/-- Loop of `GetROChannels(chID)` (ChannelServer.cpp 99-123): `etype` and `ctors` are kept from one
element to the next; a type without constructors ends the loop. -/
def queryLoop (rw : Bool) (tbl : List Ctor) (keypat : Str) :
    Str → List Ctor → List Elem → Outcome Exn (List (Ctor × Elem))
  | _, _, [] => .ok []
  | etype, ctors, e :: es =>
    if etype ≠ e.type then
      let cs := findCtors tbl e.type keypat
      if cs.isEmpty then .ok []
      else do
        let c ← construct rw e cs
        let r ← queryLoop rw tbl keypat e.type cs es
        pure (c ++ r)
    else do
      let c ← construct rw e ctors
      let r ← queryLoop rw tbl keypat etype ctors es
      pure (c ++ r)

/-- `GetROChannels(chID)` and `GetRWChannels(chID)` (ChannelServer.cpp 86-170) with `FindElements`
(ChannelServer.cpp 278-282).  `sort` is `std::sort` by type; `neg` is the value of the member of
`MatchID` (the constructor leaves it without one). -/
def queryWith (sort : List Elem → List Elem) (neg : Option Bool) (rw : Bool) (tbl : List Ctor)
    (repo : List Elem) (chid : Str) : Outcome Exn (List (Ctor × Elem)) := do
  let p ← CHPath.parse chid
  let (es, _) ← findWith neg repo p.eid []
  queryLoop rw tbl p.key [] [] (sort es)

end Verif.Channel
