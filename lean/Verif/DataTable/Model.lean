import Verif.Common.Outcome

/-!
# Model of `DataTable` (Merlin++/DataTable.h, DataTable.cpp)

Simplifications: strings are lists of characters; the value type of `'d'` columns is an arbitrary
type `D` with a default (`double` and `0.0`); `int` is `Int` (values are only stored); the
`unordered_map` is a finite partial function; `std::stod`/`std::stoi` are parameters that return a
value or throw.  A call that changes the table returns the outcome together with the table it
leaves behind, so an exception keeps the changes made before it.
-/

namespace Verif.DataTable
open Verif

abbrev Str := List Char

/-- Exceptions: `std::out_of_range`, `std::invalid_argument`, `WrongTypeException` (DataTable.h:31-38),
`BadFormatException` (DataTable.h:22-29). -/
inductive Exn where
  | outOfRange
  | invalidArgument
  | wrongType
  | badFormat
  deriving Repr, DecidableEq

/-- `DataTable::location`, DataTable.h:59-64. -/
structure Loc where
  ty : Char
  pos : Nat
  deriving DecidableEq

/-- Data members of `DataTable`, DataTable.h:66-85. -/
structure Table (D : Type) where
  dataD : List (List D) := []
  dataI : List (List Int) := []
  dataS : List (List Str) := []
  colNames : List Str := []
  lookup : Str → Option Loc := fun _ => none
  length : Nat := 0
  hdataD : List D := []
  hdataI : List Int := []
  hdataS : List Str := []
  hcolNames : List Str := []
  hlookup : Str → Option Loc := fun _ => none

/-- A value passed to the variadic `AddRow` or to an overload of `Set`. -/
inductive Val (D : Type) where
  | d (x : D)
  | i (x : Int)
  | s (x : Str)

/-- `std::stod` and `std::stoi`: a value or an exception. -/
structure Conv (D : Type) where
  stod : Str → Except Exn D
  stoi : Str → Except Exn Int

variable {D : Type}

/-- `vector::at` for reading. -/
def vecAt {α : Type} (v : List α) (i : Nat) : Outcome Exn α :=
  match v[i]? with
  | some x => .ok x
  | none => .throw .outOfRange

/-- `DataTable::DataTable`, DataTable.h:91-94. -/
def empty : Table D := {}

/-- `unordered_map::operator[]` followed by the two member assignments, DataTable.cpp:45-46. -/
def mapSet (m : Str → Option Loc) (n : Str) (l : Loc) : Str → Option Loc :=
  fun k => if k = n then some l else m k

/-- `DataTable::AddColumn`, DataTable.cpp:12-47. -/
def addColumn [Inhabited D] (t : Table D) (name : Str) (type : Char) :
    Outcome Exn Unit × Table D :=
  if (t.lookup name).isSome then (.throw .invalidArgument, t)
  else if type = 'd' then
    (.ok (), { t with
      dataD := t.dataD ++ [List.replicate t.length default]
      colNames := t.colNames ++ [name]
      lookup := mapSet t.lookup name ⟨type, t.dataD.length⟩ })
  else if type = 'i' then
    (.ok (), { t with
      dataI := t.dataI ++ [List.replicate t.length 0]
      colNames := t.colNames ++ [name]
      lookup := mapSet t.lookup name ⟨type, t.dataI.length⟩ })
  else if type = 's' then
    (.ok (), { t with
      dataS := t.dataS ++ [List.replicate t.length []]
      colNames := t.colNames ++ [name]
      lookup := mapSet t.lookup name ⟨type, t.dataS.length⟩ })
  else (.throw .wrongType, t)

/-- `DataTable::AddRow()`, DataTable.cpp:49-65. -/
def addRow [Inhabited D] (t : Table D) : Nat × Table D :=
  (t.length, { t with
    dataD := t.dataD.map (· ++ [default])
    dataI := t.dataI.map (· ++ [0])
    dataS := t.dataS.map (· ++ [[]])
    length := t.length + 1 })

/-- `DataTable::get_location`, DataTable.cpp:83-93. -/
def getLocation (t : Table D) (name : Str) : Outcome Exn Loc :=
  match t.lookup name with
  | some l => .ok l
  | none => .throw .outOfRange

/-- `DataTable::Get_d`, DataTable.cpp:107-115. -/
def getD (t : Table D) (name : Str) (i : Nat) : Outcome Exn D := do
  let l ← getLocation t name
  if l.ty ≠ 'd' then .throw .wrongType
  else
    let col ← vecAt t.dataD l.pos
    vecAt col i

/-- `DataTable::Get_i`, DataTable.cpp:117-125. -/
def getI (t : Table D) (name : Str) (i : Nat) : Outcome Exn Int := do
  let l ← getLocation t name
  if l.ty ≠ 'i' then .throw .wrongType
  else
    let col ← vecAt t.dataI l.pos
    vecAt col i

/-- `DataTable::Get_s`, DataTable.cpp:127-135. -/
def getS (t : Table D) (name : Str) (i : Nat) : Outcome Exn Str := do
  let l ← getLocation t name
  if l.ty ≠ 's' then .throw .wrongType
  else
    let col ← vecAt t.dataS l.pos
    vecAt col i

/-- `v.at(p).at(i) = x`. -/
def vecSet {α : Type} (v : List (List α)) (p i : Nat) (x : α) : Outcome Exn (List (List α)) :=
  match v[p]? with
  | none => .throw .outOfRange
  | some col => if i < col.length then .ok (v.set p (col.set i x)) else .throw .outOfRange

/-- `DataTable::Set(col, i, double)`, DataTable.cpp:137-145 (and `Set_d`, DataTable.h:126-129). -/
def setD (t : Table D) (name : Str) (i : Nat) (x : D) : Outcome Exn Unit × Table D :=
  match getLocation t name with
  | .ok l =>
    if l.ty ≠ 'd' then (.throw .wrongType, t)
    else match vecSet t.dataD l.pos i x with
      | .ok v => (.ok (), { t with dataD := v })
      | .throw e => (.throw e, t)
      | .ub => (.ub, t)
  | .throw e => (.throw e, t)
  | .ub => (.ub, t)

/-- `DataTable::Set(col, i, int)`, DataTable.cpp:147-155 (and `Set_i`, DataTable.h:131-134). -/
def setI (t : Table D) (name : Str) (i : Nat) (x : Int) : Outcome Exn Unit × Table D :=
  match getLocation t name with
  | .ok l =>
    if l.ty ≠ 'i' then (.throw .wrongType, t)
    else match vecSet t.dataI l.pos i x with
      | .ok v => (.ok (), { t with dataI := v })
      | .throw e => (.throw e, t)
      | .ub => (.ub, t)
  | .throw e => (.throw e, t)
  | .ub => (.ub, t)

/-- `DataTable::Set(col, i, string)`, DataTable.cpp:157-165 (and `Set_s`, DataTable.h:136-139). -/
def setS (t : Table D) (name : Str) (i : Nat) (x : Str) : Outcome Exn Unit × Table D :=
  match getLocation t name with
  | .ok l =>
    if l.ty ≠ 's' then (.throw .wrongType, t)
    else match vecSet t.dataS l.pos i x with
      | .ok v => (.ok (), { t with dataS := v })
      | .throw e => (.throw e, t)
      | .ub => (.ub, t)
  | .throw e => (.throw e, t)
  | .ub => (.ub, t)

/-- Overload resolution of `Set`, DataTable.h:117-123. -/
def setVal (t : Table D) (name : Str) (i : Nat) : Val D → Outcome Exn Unit × Table D
  | .d x => setD t name i x
  | .i x => setI t name i x
  | .s x => setS t name i x

/-- `DataTable::SetWithStr`, DataTable.cpp:167-184. -/
def setWithStr (cv : Conv D) (t : Table D) (name : Str) (i : Nat) (x : Str) :
    Outcome Exn Unit × Table D :=
  match getLocation t name with
  | .ok l =>
    if l.ty = 'd' then
      match cv.stod x with
      | .ok v => setD t name i v
      | .error e => (.throw e, t)
    else if l.ty = 'i' then
      match cv.stoi x with
      | .ok v => setI t name i v
      | .error e => (.throw e, t)
    else if l.ty = 's' then setS t name i x
    else (.throw .wrongType, t)
  | .throw e => (.throw e, t)
  | .ub => (.ub, t)

/-- `DataTable::AddRowN`, DataTable.h:259-266, 235-237. -/
def addRowN (t : Table D) (col row : Nat) : List (Val D) → Outcome Exn Unit × Table D
  | [] => (.ok (), t)
  | x :: xs =>
    match t.colNames[col]? with
    | none => (.throw .outOfRange, t)
    | some name =>
      match setVal t name row x with
      | (.ok _, t') => addRowN t' (col + 1) row xs
      | r => r

/-- `DataTable::AddRow(values...)`, DataTable.h:250-257. -/
def addRowVals [Inhabited D] (t : Table D) (vs : List (Val D)) : Outcome Exn Unit × Table D :=
  addRowN (addRow t).2 0 (addRow t).1 vs

/-- Sequencing of two calls on the same table: an exception ends the caller. -/
def seq {α β : Type} (r : Outcome Exn α × Table D) (k : α → Table D → Outcome Exn β × Table D) :
    Outcome Exn β × Table D :=
  match r with
  | (.ok a, t) => k a t
  | (.throw e, t) => (.throw e, t)
  | (.ub, t) => (.ub, t)

/-- One line `this->Set_d(name, row, dtrow.Get_d(name))` of `ApertureFromRow`. -/
def copyD (src : Table D) (p : Nat) (row : Nat) (name : Str) (t : Table D) :
    Outcome Exn Unit × Table D :=
  match getD src name p with
  | .ok x => setD t name row x
  | .throw e => (.throw e, t)
  | .ub => (.ub, t)

/-- The same for a string column. -/
def copyS (src : Table D) (p : Nat) (row : Nat) (name : Str) (t : Table D) :
    Outcome Exn Unit × Table D :=
  match getS src name p with
  | .ok x => setS t name row x
  | .throw e => (.throw e, t)
  | .ub => (.ub, t)

/-- `DataTable::ApertureFromRow`, DataTable.cpp:72-81, for a row of another table `src`. -/
def apertureFromRow [Inhabited D] (t : Table D) (src : Table D) (p : Nat) :
    Outcome Exn Unit × Table D :=
  let row := (addRow t).1
  seq (copyS src p row "APERTYPE".toList (addRow t).2) fun _ t =>
  seq (copyD src p row "S".toList t) fun _ t =>
  seq (copyD src p row "APER_1".toList t) fun _ t =>
  seq (copyD src p row "APER_2".toList t) fun _ t =>
  seq (copyD src p row "APER_3".toList t) fun _ t =>
  copyD src p row "APER_4".toList t

/-- `DataTable::HasCol(name)`, DataTable.cpp:334-337. -/
def hasCol (t : Table D) (name : Str) : Bool := (t.lookup name).isSome

/-- `DataTable::GetColumnType`, DataTable.h:171-174. -/
def getColumnType (t : Table D) (name : Str) : Outcome Exn Char :=
  match t.lookup name with
  | some l => .ok l.ty
  | none => .throw .outOfRange

/-- `DataTable::HasCol(name, type)`, DataTable.cpp:339-342. -/
def hasColTy (t : Table D) (name : Str) (type : Char) : Bool :=
  match t.lookup name with
  | some l => l.ty == type
  | none => false

/-- `DataTable::HeaderAddColumn`, DataTable.cpp:202-237. -/
def headerAddColumn [Inhabited D] (t : Table D) (name : Str) (type : Char) :
    Outcome Exn Unit × Table D :=
  if (t.hlookup name).isSome then (.throw .invalidArgument, t)
  else if type = 'd' then
    (.ok (), { t with
      hdataD := t.hdataD ++ [default]
      hcolNames := t.hcolNames ++ [name]
      hlookup := mapSet t.hlookup name ⟨type, t.hdataD.length⟩ })
  else if type = 'i' then
    (.ok (), { t with
      hdataI := t.hdataI ++ [0]
      hcolNames := t.hcolNames ++ [name]
      hlookup := mapSet t.hlookup name ⟨type, t.hdataI.length⟩ })
  else if type = 's' then
    (.ok (), { t with
      hdataS := t.hdataS ++ [[]]
      hcolNames := t.hcolNames ++ [name]
      hlookup := mapSet t.hlookup name ⟨type, t.hdataS.length⟩ })
  else (.throw .wrongType, t)

/-- `DataTable::get_hlocation`, DataTable.cpp:95-105. -/
def getHLocation (t : Table D) (name : Str) : Outcome Exn Loc :=
  match t.hlookup name with
  | some l => .ok l
  | none => .throw .outOfRange

/-- `DataTable::HeaderGet_d`, DataTable.cpp:239-247. -/
def headerGetD (t : Table D) (name : Str) : Outcome Exn D := do
  let l ← getHLocation t name
  if l.ty ≠ 'd' then .throw .wrongType else vecAt t.hdataD l.pos

/-- `DataTable::HeaderGet_i`, DataTable.cpp:249-257. -/
def headerGetI (t : Table D) (name : Str) : Outcome Exn Int := do
  let l ← getHLocation t name
  if l.ty ≠ 'i' then .throw .wrongType else vecAt t.hdataI l.pos

/-- `DataTable::HeaderGet_s`, DataTable.cpp:259-267. -/
def headerGetS (t : Table D) (name : Str) : Outcome Exn Str := do
  let l ← getHLocation t name
  if l.ty ≠ 's' then .throw .wrongType else vecAt t.hdataS l.pos

/-- `DataTable::HeaderSet(col, double)`, DataTable.cpp:269-277. -/
def headerSetD (t : Table D) (name : Str) (x : D) : Outcome Exn Unit × Table D :=
  match getHLocation t name with
  | .ok l =>
    if l.ty ≠ 'd' then (.throw .wrongType, t)
    else if l.pos < t.hdataD.length then (.ok (), { t with hdataD := t.hdataD.set l.pos x })
    else (.throw .outOfRange, t)
  | .throw e => (.throw e, t)
  | .ub => (.ub, t)

/-- `DataTable::HeaderSet(col, int)`, DataTable.cpp:279-287. -/
def headerSetI (t : Table D) (name : Str) (x : Int) : Outcome Exn Unit × Table D :=
  match getHLocation t name with
  | .ok l =>
    if l.ty ≠ 'i' then (.throw .wrongType, t)
    else if l.pos < t.hdataI.length then (.ok (), { t with hdataI := t.hdataI.set l.pos x })
    else (.throw .outOfRange, t)
  | .throw e => (.throw e, t)
  | .ub => (.ub, t)

/-- `DataTable::HeaderSet(col, string)`, DataTable.cpp:289-297. -/
def headerSetS (t : Table D) (name : Str) (x : Str) : Outcome Exn Unit × Table D :=
  match getHLocation t name with
  | .ok l =>
    if l.ty ≠ 's' then (.throw .wrongType, t)
    else if l.pos < t.hdataS.length then (.ok (), { t with hdataS := t.hdataS.set l.pos x })
    else (.throw .outOfRange, t)
  | .throw e => (.throw e, t)
  | .ub => (.ub, t)

/-- `DataTable::HeaderSetWithStr`, DataTable.cpp:299-316. -/
def headerSetWithStr (cv : Conv D) (t : Table D) (name : Str) (x : Str) :
    Outcome Exn Unit × Table D :=
  match getHLocation t name with
  | .ok l =>
    if l.ty = 'd' then
      match cv.stod x with
      | .ok v => headerSetD t name v
      | .error e => (.throw e, t)
    else if l.ty = 'i' then
      match cv.stoi x with
      | .ok v => headerSetI t name v
      | .error e => (.throw e, t)
    else if l.ty = 's' then headerSetS t name x
    else (.throw .wrongType, t)
  | .throw e => (.throw e, t)
  | .ub => (.ub, t)

/-- The calls of the public interface that may change a table. -/
inductive Op (D : Type) where
  | addColumn (name : Str) (type : Char)
  | addRow
  | addRowVals (vs : List (Val D))
  | set (name : Str) (i : Nat) (v : Val D)
  | setWithStr (name : Str) (i : Nat) (x : Str)
  | apertureFromRow (src : Table D) (p : Nat)
  | headerAddColumn (name : Str) (type : Char)
  | headerSetD (name : Str) (x : D)
  | headerSetI (name : Str) (x : Int)
  | headerSetS (name : Str) (x : Str)
  | headerSetWithStr (name : Str) (x : Str)

/-- One call; the caller catches any exception and goes on with the table left behind. -/
def step [Inhabited D] (cv : Conv D) (t : Table D) : Op D → Outcome Exn Unit × Table D
  | .addColumn n c => addColumn t n c
  | .addRow => (.ok (), (addRow t).2)
  | .addRowVals vs => addRowVals t vs
  | .set n i v => setVal t n i v
  | .setWithStr n i x => setWithStr cv t n i x
  | .apertureFromRow src p => apertureFromRow t src p
  | .headerAddColumn n c => headerAddColumn t n c
  | .headerSetD n x => headerSetD t n x
  | .headerSetI n x => headerSetI t n x
  | .headerSetS n x => headerSetS t n x
  | .headerSetWithStr n x => headerSetWithStr cv t n x

/-- A history of calls on one table. -/
def run [Inhabited D] (cv : Conv D) (t : Table D) : List (Op D) → Table D
  | [] => t
  | o :: os => run cv (step cv t o).2 os

end Verif.DataTable
