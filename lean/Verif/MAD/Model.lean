import Mathlib.Analysis.SpecialFunctions.Trigonometric.Basic
import Verif.Common.Outcome
import Verif.Multipole.Model

/-!
# Model of the MAD interface

`MADInterface`, `TypeFactory` and the component classes of Merlin++/MADInterface.cpp.  Doubles are real numbers; a
division by zero, whose result would be kept in a component, is undefined behaviour here.  Log output and warnings are
left out, and `int` has no bounds.  The constructor of the model (AcceleratorModelConstructor.cpp) is represented by the list of the calls it
receives and the number of open frames; what it makes of them is the subject of C53.
-/

namespace Verif.MAD
open Verif Verif.Multipole Real

noncomputable section

/-- Exceptions: a column that is missing or of another type (DataTable.cpp 83-135), a file that cannot be read
(MADInterface.cpp 102-106), and `abort` (MADInterface.cpp 262, 301). -/
inductive Exn
  | column (name : String)
  | format
  | abort

/-- A row of the table: the strings and numbers by the names of their columns. -/
structure Row where
  str : String → Option String
  num : String → Option ℝ

/-- `DataTableRow::Get_s` (DataTable.h 305-308). -/
def getS (r : Row) (c : String) : Outcome Exn String :=
  match r.str c with
  | some s => .ok s
  | none => .throw (.column c)

/-- `DataTableRow::Get_d` (DataTable.h 297-300). -/
def getD (r : Row) (c : String) : Outcome Exn ℝ :=
  match r.num c with
  | some x => .ok x
  | none => .throw (.column c)

/-- `DataTableRow::Set_s` for the column KEYWORD (DataTable.h 334-337); the column exists whenever it is called. -/
def setKeyword (r : Row) (k : String) : Row := { r with str := fun c => if c = "KEYWORD" then some k else r.str c }

/-- The classes of multipole magnets (StandardMultipoles.h, CorrectorDipoles.h). -/
inductive Kind
  | quadrupole | skewQuadrupole | sextupole | skewSextupole | octupole | xcor | ycor
  deriving DecidableEq

/-- The components the interface makes. -/
inductive Comp
  | drift (name : String) (len : ℝ)
  | bend (name : String) (len h : ℝ) (field : MField ℝ) (e1 e2 : Option ℝ) (tilt : ℝ)
  | magnet (kind : Kind) (name : String) (len : ℝ) (field : MField ℝ)
  | solenoid (name : String) (len bz : ℝ)
  | cavity (name : String) (ncells : Int) (freq amplitude phase len : ℝ)
  | crabMarker (name : String) (len mux muy : ℝ)
  | crabRF (name : String) (len : ℝ)
  | collimator (name : String) (len : ℝ)
  | lens (name : String) (len : ℝ)
  | bpm (name : String) (len : ℝ)
  | profile (name : String) (uphi len : ℝ)
  | marker (name : String)

/-- `GetLength` of the components; that of a marker is zero (Marker.h, SimpleDrift). -/
def Comp.len : Comp → ℝ
  | .drift _ l | .bend _ l _ _ _ _ _ | .magnet _ _ l _ | .solenoid _ l _ | .cavity _ _ _ _ _ l | .crabMarker _ l _ _
  | .crabRF _ l | .collimator _ l | .lens _ l | .bpm _ l | .profile _ _ l => l
  | .marker _ => 0

/-- `GetName` of the components. -/
def Comp.name : Comp → String
  | .drift n _ | .bend n _ _ _ _ _ _ | .magnet _ n _ _ | .solenoid n _ _ | .cavity n _ _ _ _ _ | .crabMarker n _ _ _
  | .crabRF n _ | .collimator n _ | .lens n _ | .bpm n _ | .profile n _ _ | .marker n => n

/-- `SpeedOfLight` (PhysicalConstants.cpp 24). -/
def c : ℝ := 2.99792458e8

/-- `eV` (PhysicalUnits.cpp 37). -/
def eV : ℝ := 1e-9

/-- `MV` (PhysicalUnits.cpp 44-46), in GV. -/
def MV : ℝ := 1e-3

/-- `round`: halves away from zero. -/
def roundC (x : ℝ) : Int := if 0 ≤ x then ⌊x + 1 / 2⌋ else ⌈x - 1 / 2⌉

/-- Division; by zero undefined. -/
def quot (a b : ℝ) : Outcome Exn ℝ := if b = 0 then .ub else .ok (a / b)

/-- `DriftComponent::GetInstance` (MADInterface.cpp 352-361). -/
def drift (r : Row) : Outcome Exn (List Comp) :=
  (getS r "NAME").bind fun name => (getD r "L").bind fun l => .ok (if l ≠ 0 then [.drift name l] else [])

/-- A pole face is made for an angle other than zero (MADInterface.cpp 380-385, 416-421). -/
def face (e : ℝ) : Option ℝ := if e ≠ 0 then some e else none

/-- Curvature and field of a bend (MADInterface.cpp 370-375, 406-411): `SectorBend(name, length, h, brho * h)`
(SectorBend.cpp 43-46) and `SetB1` (SectorBend.cpp 100-103), where an assertion fails for a field of zero scale. -/
def bendField (l angle k1l brho : ℝ) : Outcome Exn (ℝ × MField ℝ) :=
  (quot angle l).bind fun h =>
    let f := mkRadius 0 (brho * h) 1 false
    if k1l ≠ 0 then
      match setComponent f 1 (brho * k1l / l) 0 1 with
      | .ok f => .ok (h, f)
      | .throw _ => .ub
      | .ub => .ub
    else .ok (h, f)

/-- `SetPoleFaceInfo` (MADInterface.cpp 380-385, 416-421, SectorBend.cpp 76-79): `SetInfo` writes to both faces
(SectorBend.h 97-104), so that one face alone is a null pointer written to. -/
def faces (e1 e2 : ℝ) : Outcome Exn (Option ℝ × Option ℝ) :=
  match face e1, face e2 with
  | some a, some b => .ok (some a, some b)
  | none, none => .ok (none, none)
  | _, _ => .ub

/-- The rest of a bend (MADInterface.cpp 367-388, 404-425); setting a tilt of zero or not is the same. -/
def bendRest (r : Row) (brho : ℝ) (name : String) (l angle : ℝ) : Outcome Exn (List Comp) :=
  (getD r "K1L").bind fun k1l => (getD r "TILT").bind fun tilt => (bendField l angle k1l brho).bind fun hf =>
  (getD r "E1").bind fun e1 => (getD r "E2").bind fun e2 =>
  (faces e1 e2).bind fun f => .ok [.bend name l hf.1 hf.2 f.1 f.2 tilt]

/-- `RBendComponent::GetInstance` (MADInterface.cpp 363-389). -/
def rbend (r : Row) (brho : ℝ) : Outcome Exn (List Comp) :=
  (getS r "NAME").bind fun name => (getD r "L").bind fun l => (getD r "ANGLE").bind fun angle => bendRest r brho name l angle

/-- `DataTable::HasCol` (DataTable.cpp 334-337); columns of whole numbers count as missing. -/
def hasCol (r : Row) (col : String) : Bool := (r.num col).isSome || (r.str col).isSome

/-- `SBendComponent::GetInstance` (MADInterface.cpp 391-426). -/
def sbend (r : Row) (brho : ℝ) : Outcome Exn (List Comp) :=
  (getS r "NAME").bind fun name => (getD r "L").bind fun l =>
  (if hasCol r "ANGLE" then getD r "ANGLE" else getD r "K0L").bind fun angle => bendRest r brho name l angle

/-- `GetInstance` of the quadrupoles, sextupoles and octupoles (MADInterface.cpp 428-471; StandardMultipoles.cpp 11-60; the
constructor RectMultipole.cpp 19-23). -/
def multipole (kind : Kind) (np : Nat) (skew : Bool) (col : String) (r : Row) (brho : ℝ) : Outcome Exn (List Comp) :=
  (getS r "NAME").bind fun name => (getD r "L").bind fun l => (getD r col).bind fun kl =>
  (quot (brho * kl) l).bind fun b => .ok [.magnet kind name l (mkGrad np b skew)]

/-- `YCorComponent`, `XCorComponent::GetInstance` (MADInterface.cpp 473-487; CorrectorDipoles.h 94-102). -/
def corrector (kind : Kind) (skew : Bool) (r : Row) : Outcome Exn (List Comp) :=
  (getS r "NAME").bind fun name => (getD r "L").bind fun l => .ok [.magnet kind name l (mkGrad 0 0 skew)]

/-- The scale of the kickers (MADInterface.cpp 494-498, 508-512). -/
def scale (l brho : ℝ) : ℝ := if l > 0 then brho / l else brho

/-- `VKickerComponent::GetInstance` (MADInterface.cpp 489-501). -/
def vkicker (r : Row) (brho : ℝ) : Outcome Exn (List Comp) :=
  (getS r "NAME").bind fun name => (getD r "L").bind fun l => (getD r "VKICK").bind fun kick =>
  .ok [.magnet .ycor name l (mkGrad 0 (scale l brho * kick) true)]

/-- `HKickerComponent::GetInstance` (MADInterface.cpp 503-515). -/
def hkicker (r : Row) (brho : ℝ) : Outcome Exn (List Comp) :=
  (getS r "NAME").bind fun name => (getD r "L").bind fun l => (getD r "HKICK").bind fun kick =>
  .ok [.magnet .xcor name l (mkGrad 0 (-scale l brho * kick) false)]

/-- `SolenoidComponent::GetInstance` (MADInterface.cpp 517-524). -/
def solenoid (r : Row) (brho : ℝ) : Outcome Exn (List Comp) :=
  (getS r "NAME").bind fun name => (getD r "L").bind fun l => (getD r "KS").bind fun ks =>
  (quot (brho * ks) l).bind fun b => .ok [.solenoid name l b]

/-- `RFCavityComponentSingleCell::GetInstance` (MADInterface.cpp 526-560); the length of the structure is
`Wavelength(f) * ncells / 2` (SWRFStructure.cpp 14-28).  A message on the length has no effect. -/
def singleCell (r : Row) : Outcome Exn (List Comp) :=
  (getS r "NAME").bind fun name => (getD r "L").bind fun l => (getD r "FREQ").bind fun freq =>
  (getD r "LAG").bind fun lag => (getD r "VOLT").bind fun volts =>
    let freq := freq * 1e6
    if freq = 0 then .ub
    else
      let half := c / freq / 2
      let phase := 2 * π * (lag - 0.25)
      let ncells := roundC (half / half)
      .ok [.cavity name ncells freq (volts * MV / half) phase (c / freq * ncells / 2), .drift ("Drift_" ++ name) (l - half)]

/-- `RFCavityComponent::GetInstance` (MADInterface.cpp 562-587). -/
def cavity (r : Row) : Outcome Exn (List Comp) :=
  (getS r "NAME").bind fun name => (getD r "L").bind fun l => (getD r "FREQ").bind fun freq =>
  (getD r "LAG").bind fun lag => (getD r "VOLT").bind fun volts =>
    let freq := freq * 1e6
    if freq = 0 then .ub
    else
      let half := c / freq / 2
      let ncells := roundC (l / half)
      let phase := 2 * π * (lag - 0.25)
      (quot (volts * MV) l).bind fun e => .ok [.cavity name ncells freq e phase (c / freq * ncells / 2)]

/-- `CrabMarkerComponent::GetInstance` (MADInterface.cpp 589-597). -/
def crabMarker (r : Row) : Outcome Exn (List Comp) :=
  (getD r "MUX").bind fun mux => (getD r "MUY").bind fun muy => (getS r "NAME").bind fun name =>
  (getD r "L").bind fun l => .ok [.crabMarker name l mux muy]

/-- The components that need name and length only (MADInterface.cpp 599-621). -/
def plain (f : String → ℝ → Comp) (r : Row) : Outcome Exn (List Comp) :=
  (getS r "NAME").bind fun name => (getD r "L").bind fun l => .ok [f name l]

/-- `MonitorComponent::GetInstance` (MADInterface.cpp 623-632).  The second argument of `RMSProfileMonitor` is the angle
`uphi`, the length has the default value zero (RMSProfileMonitor.h 63). -/
def monitor (name : String) (l : ℝ) : Comp :=
  if name.toList.take 2 = ['W', 'S'] then .profile name l 0 else .bpm name l

/-- `MarkerComponent::GetInstance` (MADInterface.cpp 634-639). -/
def marker (r : Row) : Outcome Exn (List Comp) := (getS r "NAME").bind fun name => .ok [.marker name]

/-- `TypeFactory::GetInstance` and its table (MADInterface.cpp 641-675). -/
def instances (r : Row) (brho : ℝ) : Outcome Exn (List Comp) :=
  (getS r "KEYWORD").bind fun type =>
  match type with
  | "DRIFT" => drift r
  | "RBEND" => rbend r brho
  | "SBEND" => sbend r brho
  | "QUADRUPOLE" => multipole .quadrupole 1 false "K1L" r brho
  | "SKEWQUAD" => multipole .skewQuadrupole 1 true "K1L" r brho
  | "SEXTUPOLE" => multipole .sextupole 2 false "K2L" r brho
  | "SKEWSEXT" => multipole .skewSextupole 2 true "K2L" r brho
  | "OCTUPOLE" => multipole .octupole 3 false "K3L" r brho
  | "YCOR" => corrector .ycor true r
  | "XCOR" => corrector .xcor false r
  | "VKICKER" => vkicker r brho
  | "HKICKER" => hkicker r brho
  | "SOLENOID" => solenoid r brho
  | "RFCAVITY" => cavity r
  | "RFCAVITY_SingleCell" => singleCell r
  | "CRABMARKER" => crabMarker r
  | "CRABRF" => plain .crabRF r
  | "COLLIMATOR" => plain .collimator r
  | "HEL" => plain .lens r
  | "MONITOR" => plain monitor r
  | "MARKER" => marker r
  | _ => .ok []

/-- The frames (SequenceFrame, SimpleMount, GirderMount, MagnetMover). -/
inductive Frame
  | sequence | mount | girder | mover
  deriving DecidableEq

/-- A call of the constructor of the model; a component is followed by its place in the lattice. -/
inductive Act
  | newFrame (kind : Frame) (name : List Char)
  | endFrame
  | srot (angle : ℝ) (name : String)
  | comp (c : Comp) (pos : ℝ)

/-- `modelconstr`: null, an object which has received calls and has a number of open frames, or freed memory. -/
inductive Ptr
  | null
  | live (acts : List Act) (depth : Nat)
  | dangling

/-- `MADInterface` (MADInterface.h 162-184). -/
structure Interface where
  momentum : ℝ
  incSR : Bool
  flat : Bool
  z : ℝ
  singleCell : Bool
  honour : Bool
  append : Bool
  zeroLengths : List String
  driftTypes : List String
  constr : Ptr
  frames : List String

/-- The constructor and `init` (MADInterface.cpp 42-78, MADInterface.h 162-184). -/
def mk (p0 : ℝ) : Interface where
  momentum := p0
  incSR := false
  flat := false
  z := 0
  singleCell := false
  honour := false
  append := false
  zeroLengths := ["RCOLLIMATOR"]
  driftTypes := ["INSTRUMENT", "PLACEHOLDER", "VMONITOR", "HMONITOR", "KICKER", "TKICKER", "MATRIX"]
  constr := .null
  frames := []

/-- A call of the constructor of the model (AcceleratorModelConstructor.cpp 128-140); using a null pointer or freed memory,
or ending the outermost frame, is undefined. -/
def call (a : Act) : Ptr → Outcome Exn Ptr
  | .live acts d =>
    match a with
    | .newFrame k n => .ok (.live (acts ++ [.newFrame k n]) (d + 1))
    | .endFrame =>
      match d with
      | 0 => .ub
      | d + 1 => .ok (.live (acts ++ [.endFrame]) d)
    | .srot t n => .ok (.live (acts ++ [.srot t n]) d)
    | .comp c p => .ok (.live (acts ++ [.comp c p]) d)
  | .null => .ub
  | .dangling => .ub

/-- `TypeOverrides` (MADInterface.cpp 194-207). -/
def overrides (m : Interface) (r : Row) : Outcome Exn Row :=
  (getS r "KEYWORD").bind fun k =>
  let r := if k ∈ m.driftTypes then setKeyword r "DRIFT" else r
  let r := if k = "LCAV" then setKeyword r "RFCAVITY" else r
  let r := if k = "RCOLLIMATOR" ∨ k = "ECOLLIMATOR" then setKeyword r "COLLIMATOR" else r
  (if k = "RBEND" then (getD r "K0L").bind fun k0l => .ok (if k0l ≠ 0 then setKeyword r "SBEND" else r) else .ok r).bind fun r =>
  (getS r "KEYWORD").bind fun k => .ok (if m.singleCell ∧ k = "RFCAVITY" then setKeyword r "RFCAVITY_SingleCell" else r)

/-- The kind of frame of a prefix (MADInterface.cpp 241-264). -/
def frameOf : Char → Option Frame
  | 'F' => some .sequence
  | 'S' => some .mount
  | 'G' => some .girder
  | 'M' => some .mover
  | _ => none

/-- `ConstructNewFrame` (MADInterface.cpp 224-272).  `name[1]` of an empty string is undefined, that of a string of one
character is zero. -/
def newFrame (m : Interface) (name : String) : Outcome Exn Interface :=
  match name.toList with
  | [] => .ub
  | c0 :: rest =>
    if rest.head? ≠ some '_' then
      if m.honour then (call (.newFrame .sequence (c0 :: rest)) m.constr).bind fun p => .ok { m with constr := p } else .ok m
    else
      match frameOf c0 with
      | some k => (call (.newFrame k (rest.drop 1)) m.constr).bind fun p => .ok { m with constr := p }
      | none => .throw .abort

/-- `EndFrame` (MADInterface.cpp 274-289). -/
def endFrame (m : Interface) (name : String) : Outcome Exn Interface :=
  match name.toList with
  | [] => if m.honour then (call .endFrame m.constr).bind fun p => .ok { m with constr := p } else .ub
  | _ :: rest =>
    if ¬ m.honour ∧ rest.head? ≠ some '_' then .ok m
    else (call .endFrame m.constr).bind fun p => .ok { m with constr := p }

/-- A row of type LINE (MADInterface.cpp 133-151). -/
def lineRow (m : Interface) (r : Row) : Outcome Exn Interface :=
  if m.flat then .ok m
  else
    (getS r "NAME").bind fun name =>
    if m.frames.head? = some name then endFrame { m with frames := m.frames.tail } name
    else newFrame { m with frames := name :: m.frames } name

/-- `SRdE` (MADInterface.cpp 88-93). -/
def srLoss (h len e : ℝ) : ℝ := 8.85e-5 / (2 * π) * e ^ 4 * h * h * len

/-- The loop over the components of a row (MADInterface.cpp 167-172). -/
def appendAll (m : Interface) : List Comp → Outcome Exn Interface
  | [] => .ok m
  | x :: xs => (call (.comp x m.z) m.constr).bind fun p => appendAll { m with constr := p, z := m.z + x.len } xs

/-- `brho` (MADInterface.cpp 118, 164). -/
def brhoOf (p : ℝ) : ℝ := p / eV / c

/-- The losses by radiation (MADInterface.cpp 161-165). -/
def radiate (m : Interface) (type : String) (length : ℝ) (r : Row) : Outcome Exn Interface :=
  if m.incSR ∧ (type = "SBEND" ∨ type = "RBEND") then
    (getD r "ANGLE").bind fun a => (quot a length).bind fun h => .ok { m with momentum := m.momentum - srLoss h length m.momentum }
  else .ok m

/-- One row (MADInterface.cpp 121-173); `brho` always belongs to the momentum the interface has. -/
def row (m : Interface) (r : Row) : Outcome Exn Interface :=
  (getS r "KEYWORD").bind fun type => (getD r "L").bind fun length =>
  if length = 0 ∧ type ∈ m.zeroLengths then (getS r "NAME").bind fun _ => .ok m
  else
    (overrides m r).bind fun r =>
    if type = "LINE" then lineRow m r
    else if type = "SROT" then
      (getS r "NAME").bind fun name => (call (.srot length name) m.constr).bind fun p => .ok { m with constr := p }
    else
      (instances r (brhoOf m.momentum)).bind fun comps =>
      (radiate m type length r).bind fun m => appendAll m comps

/-- The loop over the rows (MADInterface.cpp 121-173): an exception leaves the interface as it was before the row. -/
def rows (m : Interface) : List Row → Outcome Exn Unit × Interface
  | [] => (.ok (), m)
  | r :: rs =>
    match row m r with
    | .ok m => rows m rs
    | .throw e => (.throw e, m)
    | .ub => (.ub, m)

/-- `AcceleratorModelConstructor::GetModel` (AcceleratorModelConstructor.cpp 116-126): the model. -/
def finish : Ptr → Outcome Exn (List Act)
  | .live acts 0 => .ok acts
  | .live _ (_ + 1) => .ub
  | .null => .ub
  | .dangling => .ub

/-- `modelconstr` before the loop (MADInterface.cpp 108-115). -/
def prepare (m : Interface) : Ptr :=
  let p : Ptr := match m.constr, m.append with
    | .live _ _, false => .dangling
    | p, _ => p
  match p, m.append with
  | .null, false => .live [] 0
  | p, _ => p

/-- `ConstructModel` (MADInterface.cpp 95-192) with the table that is read, or `none` if it has a bad format. -/
def constructModel (m : Interface) (table : Option (List Row)) : Outcome Exn (List Act) × Interface :=
  match table with
  | none => (.throw .format, m)
  | some t =>
    let r := rows { m with constr := prepare m } t
    match r.1 with
    | .ok _ => (finish r.2.constr, { r.2 with constr := .null })
    | .throw e => (.throw e, r.2)
    | .ub => (.ub, r.2)

/-- `AppendModel` (MADInterface.cpp 291-314); `file` is `none` if the file cannot be opened. -/
def appendModel (m : Interface) (file : Option (Option (List Row))) (pref : ℝ) : Outcome Exn Unit × Interface :=
  match file with
  | none => (.throw .abort, m)
  | some t =>
    let p : Ptr := match m.constr with
      | .null => .live [] 0
      | p => p
    let r := constructModel { m with constr := p, momentum := pref, append := true } t
    (r.1.bind fun _ => .ok (), r.2)

/-- `GetModel` (MADInterface.cpp 316-334). -/
def getModel (m : Interface) : Outcome Exn (List Act) × Interface :=
  match m.constr with
  | .null => (.ub, m)
  | p => (finish p, { m with constr := .null })

/-- `GetMutipoleType` (MADInterface.cpp 209-222). -/
def multipoleType (r : Row) : Outcome Exn String :=
  (getD r "K0L").bind fun k => if k = 0 then .ok "SBEND" else
  (getD r "K1L").bind fun k => if k = 0 then .ok "QUADRUPOLE" else
  (getD r "K2L").bind fun k => if k = 0 then .ok "SEXTUPOLE" else
  (getD r "K3L").bind fun k => if k = 0 then .ok "OCTUPOLE" else
  (getD r "K4L").bind fun k => if k = 0 then .ok "DECAPOLE" else .ok "DRIFT"

end

end Verif.MAD
