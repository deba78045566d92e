import Verif.MAD.Model
import Verif.Range.Model

/-!
# Model of the XTFF interface

`XTFFInterface` (Merlin++/XTFFInterface.cpp), which makes a model from a tape file of MAD.  Doubles are real numbers and
`int` has no bounds; a division by zero, whose result would be kept in a component, is undefined behaviour here.  Log
output and warnings are left out.  The conversion `atof` is a parameter.  The constructor of the model
(AcceleratorModelConstructor.cpp) is represented by the list of the calls it receives and the number of open frames, as
in the model of the MAD interface.  What the header says about the optics is not modelled: its three lines are skipped.
-/

namespace Verif.XTFF
open Verif Verif.Multipole Real
open Verif.MAD (eV c MV Frame frameOf brhoOf)

noncomputable section

/-- Exceptions: `out_of_range` of `substr`, a file that cannot be opened (XTFFInterface.cpp 568-573, 632-637), a crab cavity
of unknown orientation (325), and a frame of unknown kind (553). -/
inductive Exn
  | range
  | open
  | crab
  | frame

/-- A stream of characters as its lines: those not read yet, whether the last of them ends with a newline, and the bits
`eofbit` and `failbit`. -/
structure Stream where
  lines : List (List Char)
  newline : Bool
  eof : Bool
  fail : Bool

/-- A file that has been opened. -/
def openFile (lines : List (List Char)) (newline : Bool) : Stream := ⟨lines, newline, false, false⟩

/-- `getline` of the standard library into a string with a given value: the string is left alone if the stream cannot be
read at all, and emptied if there is nothing left. -/
def getline (old : List Char) (s : Stream) : List Char × Stream :=
  if s.eof ∨ s.fail then (old, { s with fail := true })
  else
    match s.lines with
    | [] => ([], { s with eof := true, fail := true })
    | [l] => (l, { s with lines := [], eof := !s.newline })
    | l :: t => (l, { s with lines := t })

/-- `SkipLines` (XTFFInterface.cpp 58-65). -/
def skipLines : Nat → Stream → Stream
  | 0, s => s
  | n + 1, s => if s.fail then s else skipLines n (getline [] s).2

/-- `substr(c1 - 1, c2 - c1 + 1)` (XTFFInterface.cpp 70, 76). -/
def columns (line : List Char) (c1 c2 : Nat) : Outcome Exn (List Char) :=
  if line.length < c1 - 1 then .throw .range else .ok ((line.drop (c1 - 1)).take (c2 - c1 + 1))

/-- `RealValue` (XTFFInterface.cpp 68-71). -/
def realValue (atof : List Char → ℝ) (line : List Char) (c1 c2 : Nat) : Outcome Exn ℝ :=
  (columns line c1 c2).bind fun t => .ok (atof t)

/-- `StringValue` (XTFFInterface.cpp 74-79). -/
def stringValue (line : List Char) (c1 c2 : Nat) : Outcome Exn (List Char) :=
  (columns line c1 c2).bind fun t => .ok (t.takeWhile (· ≠ ' '))

/-- `XTFF_Data` (XTFFInterface.cpp 32-44) without `fdn`, which is not used. -/
structure Data where
  kw : String
  label : List Char
  type : List Char
  real : Nat → ℝ

/-- `ParseXTFF` (XTFFInterface.cpp 82-112); reading `fdn` cannot fail. -/
def parseXTFF (atof : List Char → ℝ) (s : Stream) : Outcome Exn (Data × Stream) :=
  let p := getline [] s
  (stringValue p.1 1 4).bind fun kw => (stringValue p.1 5 20).bind fun label => (stringValue p.1 98 113).bind fun type =>
  (realValue atof p.1 21 32).bind fun r0 => (realValue atof p.1 33 48).bind fun r1 => (realValue atof p.1 49 64).bind fun r2 =>
  (realValue atof p.1 65 80).bind fun r3 => (realValue atof p.1 81 96).bind fun r4 => (realValue atof p.1 115 130).bind fun r5 =>
  let q := getline p.1 p.2
  (realValue atof q.1 1 16).bind fun r6 => (realValue atof q.1 17 32).bind fun r7 => (realValue atof q.1 33 48).bind fun r8 =>
  (realValue atof q.1 49 64).bind fun r9 => (realValue atof q.1 65 80).bind fun r10 =>
  .ok (⟨String.ofList kw, label, type, fun n => [r0, r1, r2, r3, r4, r5, r6, r7, r8, r9, r10].getD n 0⟩, q.2)

/-- The classes of multipole magnets (StandardMultipoles.h, CorrectorDipoles.h). -/
inductive Kind
  | quadrupole | skewQuadrupole | sextupole | skewSextupole | octupole | decapole | xcor | ycor
  deriving DecidableEq

/-- Apertures: half width and half height of a rectangle (Aperture.cpp 99-104), radius of a circle. -/
inductive Aper
  | rect (hx hy : ℝ)
  | circle (r : ℝ)

/-- The components the interface makes. -/
inductive Comp
  | drift (name : List Char) (len : ℝ)
  | bend (name : List Char) (len h : ℝ) (field : MField ℝ) (tilt e1 e2 hgap : ℝ)
  | magnet (kind : Kind) (name : List Char) (len : ℝ) (field : MField ℝ)
  | solenoid (name : List Char) (len bz : ℝ)
  | cavity (name : List Char) (len freq amplitude phase : ℝ)
  | crab (name : List Char) (len freq amplitude phase roll : ℝ)
  | bpm (name : List Char) (len : ℝ)
  | profile (name : List Char) (uphi len : ℝ)
  | marker (name : List Char)

/-- `GetLength` of the components; that of a marker is zero (Marker.h). -/
def Comp.len : Comp → ℝ
  | .drift _ l | .bend _ l _ _ _ _ _ _ | .magnet _ _ l _ | .solenoid _ l _ | .cavity _ l _ _ _ | .crab _ l _ _ _ _ | .bpm _ l
  | .profile _ _ l => l
  | .marker _ => 0

/-- The machine epsilon, tolerance of `fequal` (utils.h 16-19). -/
def eps : ℝ := 2 ^ (-52 : ℤ)

/-- `fequal(x, 0.0)` (utils.h 16-19). -/
def isZero (x : ℝ) : Bool := Range.fequal eps x 0

/-- `GeV` (PhysicalUnits.cpp 40). -/
def GeV : ℝ := 1e9 * eV

/-- `Volt` (PhysicalUnits.cpp 44). -/
def Volt : ℝ := 1e-9

/-- `MHz` (PhysicalUnits.cpp 53), in Hz. -/
def MHz : ℝ := 1e6

/-- `ElectronCharge` (PhysicalConstants.cpp 34). -/
def electronCharge : ℝ := 1.602176487e-19

/-- Division; by zero undefined. -/
def quot (a b : ℝ) : Outcome Exn ℝ := if b = 0 then .ub else .ok (a / b)

/-- `SetB1` for a mixed function dipole (XTFFInterface.cpp 161-164, 200-203, SectorBend.cpp 100-103), where an assertion fails
for a field of zero scale. -/
def mixed (f : MField ℝ) (k1 brho : ℝ) : Outcome Exn (MField ℝ) :=
  if isZero k1 then .ok f
  else
    match setComponent f 1 (brho * k1) 0 1 with
    | .ok f => .ok f
    | .throw _ => .ub
    | .ub => .ub

/-- The rest of a bend (XTFFInterface.cpp 159-176, 198-215).  `SetPoleFaceInfo` is always called, and `SetInfo` writes to both
faces (SectorBend.h 97-104), so that a face that has not been made is a null pointer written to.  A tilt that is taken for
zero is not set. -/
def bendOf (name : List Char) (len h k1 tilt e1 e2 hgap brho : ℝ) : Outcome Exn Comp :=
  (mixed (mkRadius 0 (brho * h) 1 false) k1 brho).bind fun f =>
  if isZero e1 || isZero e2 then .ub
  else .ok (.bend name len h f (if isZero tilt then 0 else tilt) e1 e2 hgap)

/-- `ConstructSectorBend` (XTFFInterface.cpp 146-177). -/
def sectorBend (d : Data) (energy : ℝ) : Outcome Exn Comp :=
  (quot (d.real 1) (d.real 0)).bind fun h =>
  bendOf d.label (d.real 0) h (d.real 2) (d.real 6) (d.real 7) (d.real 8) (d.real 4) (brhoOf energy)

/-- Curvature and length of a rectangular bend (XTFFInterface.cpp 191-196). -/
def rectShape (len angle : ℝ) : Outcome Exn (ℝ × ℝ) :=
  if isZero angle then .ok (0, len)
  else (quot (2 * sin (angle / 2)) len).bind fun h => (quot angle h).bind fun l => .ok (h, l)

/-- `ConstructRectBend` (XTFFInterface.cpp 179-216). -/
def rectBend (d : Data) (energy : ℝ) : Outcome Exn Comp :=
  (rectShape (d.real 0) (d.real 1)).bind fun s =>
  bendOf d.label s.2 s.1 (d.real 2) (d.real 6) (d.real 1 / 2) (d.real 1 / 2) (d.real 4) (brhoOf energy)

/-- The multipole magnets (XTFFInterface.cpp 218-274; StandardMultipoles.cpp; RectMultipole.cpp 19-23). -/
def magnet (kind : Kind) (np : Nat) (skew : Bool) (k : ℝ) (d : Data) (energy : ℝ) : Comp :=
  .magnet kind d.label (d.real 0) (mkGrad np (brhoOf energy * k) skew)

/-- The assertion on the tilt of a normal magnet (XTFFInterface.cpp 223, 242, 261, 271). -/
def normal (d : Data) (x : Comp) : Outcome Exn Comp := if isZero (d.real 6) then .ok x else .ub

/-- `is_skewquad` (XTFFInterface.cpp 352-358). -/
def isSkewQuad (tilt : ℝ) : Bool := decide (|tilt / 0.78539816 - 1| < 1e-3)

/-- `is_skewsext` (XTFFInterface.cpp 353-362). -/
def isSkewSext (tilt : ℝ) : Bool := decide (|tilt / 0.52359878 - 1| < 1e-3)

/-- The variables of the file (XTFFInterface.cpp 51-55), which all interfaces share. -/
structure Globals where
  energy : ℝ
  beamload : ℝ
  z : ℝ
  q : ℝ

/-- `ConstructCavity` (XTFFInterface.cpp 286-306). -/
def cavity (d : Data) (g : Globals) : Outcome Exn (Comp × Globals) :=
  let volt := d.real 8 * MV
  let phase := 2 * π * d.real 9
  let bloading := d.real 10 * Volt * g.q
  let dE := volt * cos phase
  (quot volt (d.real 0)).bind fun e =>
  .ok (.cavity d.label (d.real 0) (d.real 7 * MHz) e phase,
    { g with energy := g.energy + (dE - bloading) / GeV, beamload := g.beamload + bloading / GeV })

/-- `ConstructCrabCavity` (XTFFInterface.cpp 308-329) with the fifth character of the label. -/
def crab (d : Data) (ch : Option Char) : Outcome Exn Comp :=
  let make (roll : ℝ) : Outcome Exn Comp := (quot (d.real 8 * MV) (d.real 0)).bind fun e =>
    .ok (.crab d.label (d.real 0) (d.real 7 * MHz) e (2 * π * d.real 9) roll)
  match ch with
  | some 'H' => make 0
  | some 'V' => make (π / 2)
  | _ => .throw .crab

/-- A call of the constructor of the model; a component comes with its aperture and its place. -/
inductive Act
  | newFrame (kind : Frame) (name : List Char)
  | endFrame
  | srot (angle : ℝ) (name : List Char)
  | xrot (name : List Char)
  | comp (x : Comp) (aper : Option Aper) (pos : ℝ)

/-- `mc`: null, an object which has received calls and has a number of open frames, or one whose model has been taken
(AcceleratorModelConstructor.cpp 116-126). -/
inductive Ptr
  | null
  | live (acts : List Act) (depth : Nat)
  | spent

/-- A call of the constructor of the model (AcceleratorModelConstructor.cpp 128-140); using a null pointer or a constructor
without model, or ending the outermost frame, is undefined. -/
def call (a : Act) : Ptr → Outcome Exn Ptr
  | .live acts d =>
    match a with
    | .newFrame k n => .ok (.live (acts ++ [.newFrame k n]) (d + 1))
    | .endFrame =>
      match d with
      | 0 => .ub
      | d + 1 => .ok (.live (acts ++ [.endFrame]) d)
    | .srot t n => .ok (.live (acts ++ [.srot t n]) d)
    | .xrot n => .ok (.live (acts ++ [.xrot n]) d)
    | .comp x a p => .ok (.live (acts ++ [.comp x a p]) d)
  | .null => .ub
  | .spent => .ub

/-- `ifs`: null, an open file, or freed memory. -/
inductive File
  | null
  | open (s : Stream)
  | freed

/-- `BeamData`, as far as modelled. -/
structure Beam where
  p0 : ℝ
  charge : ℝ

/-- `XTFFInterface` (XTFFInterface.h 83-100). -/
structure Interface where
  driftTypes : List String
  file : File
  mc : Ptr
  beam : Option Beam
  nb : ℝ
  apertures : Bool
  girders : Bool
  frames : List (List Char)

/-- The constructor without a file (XTFFInterface.cpp 576-580). -/
def mk (nb : ℝ) : Interface := ⟨[], .null, .null, none, nb, true, false, []⟩

/-- The constructor with a file (XTFFInterface.cpp 564-574), `none` if it cannot be opened. -/
def mkFile (file : Option Stream) (nb : ℝ) : Outcome Exn Interface :=
  match file with
  | some s => .ok { mk nb with file := .open s }
  | none => .throw .open

/-- A component with its apertures, and the length it adds (XTFFInterface.cpp 512-519); `rect` is the aperture it has been
given before. -/
def append (x : Comp) (rect : Option Aper) (d : Data) (i : Interface) (g : Globals) : Outcome Exn (Interface × Globals) :=
  let aper := if i.apertures && !isZero (d.real 4) then some (.circle (d.real 4)) else rect
  (call (.comp x aper g.z) i.mc).bind fun p => .ok ({ i with mc := p }, { g with z := g.z + x.len })

/-- `ConstructNewFrame` (XTFFInterface.cpp 533-562), for a name with an underscore at its second place. -/
def newFrame (name : List Char) (i : Interface) : Outcome Exn Interface :=
  match name with
  | [] => .ub
  | k :: rest =>
    match frameOf k with
    | some k => (call (.newFrame k (rest.drop 1)) i.mc).bind fun p => .ok { i with mc := p }
    | none => .throw .frame

/-- A marker (XTFFInterface.cpp 458-491).  `label[1]` of an empty string is undefined, that of a string of one character is
zero. -/
def mark (d : Data) (i : Interface) (g : Globals) : Outcome Exn (Interface × Globals) :=
  let plain : Outcome Exn (Interface × Globals) :=
    if d.label = ['V', 'P', 'I', 'V'] then
      (call (.xrot d.label) i.mc).bind fun p => append (.marker d.label) none d { i with mc := p } g
    else append (.marker d.label) none d i g
  if i.girders then
    match d.label with
    | [] => .ub
    | _ :: rest =>
      if rest.head? = some '_' then
        if i.frames.head? = some d.label then
          (call .endFrame i.mc).bind fun p => .ok ({ i with mc := p, frames := i.frames.tail }, g)
        else (newFrame d.label { i with frames := d.label :: i.frames }).bind fun i => .ok (i, g)
      else plain
  else plain

/-- The first part of `ConstructComponent` (XTFFInterface.cpp 370-381): the keyword that is used. -/
def keyword (i : Interface) (kw : String) : String :=
  let kw := if kw = "HMON" ∨ kw = "VMON" then "MONI" else kw
  if kw ∈ i.driftTypes then "DRIF" else kw

/-- `ConstructComponent` (XTFFInterface.cpp 368-531). -/
def construct (d : Data) (i : Interface) (g : Globals) : Outcome Exn (Interface × Globals) :=
  let put (x : Comp) : Outcome Exn (Interface × Globals) := append x none d i g
  match keyword i d.kw with
  | "DRIF" => put (.drift d.label (d.real 0))
  | "QUAD" =>
    if isSkewQuad (d.real 6) then put (magnet .skewQuadrupole 1 true (d.real 2) d g.energy)
    else (normal d (magnet .quadrupole 1 false (d.real 2) d g.energy)).bind put
  | "SBEN" => (sectorBend d g.energy).bind put
  | "RBEN" => (rectBend d g.energy).bind put
  | "SEXT" =>
    if isSkewSext (d.real 6) then put (magnet .skewSextupole 2 true (d.real 3) d g.energy)
    else (normal d (magnet .sextupole 2 false (d.real 3) d g.energy)).bind put
  | "OCTU" => (normal d (magnet .octupole 3 false (d.real 7) d g.energy)).bind put
  | "DECA" => (normal d (magnet .decapole 4 false (d.real 7) d g.energy)).bind put
  | "LCAV" =>
    if d.label.take 4 = ['C', 'R', 'A', 'B'] then (crab d d.label[4]?).bind put
    else (cavity d g).bind fun p => append p.1 none d i p.2
  | "SOLE" => put (.solenoid d.label (d.real 0) (brhoOf g.energy * d.real 7))
  | "HKIC" => put (.magnet .xcor d.label (d.real 0) (mkGrad 0 0 false))
  | "VKIC" => put (.magnet .ycor d.label (d.real 0) (mkGrad 0 0 true))
  | "MONI" => put (.bpm d.label (d.real 0))
  | "WIRE" => put (.profile d.label (d.real 0) 0)
  | "MARK" => mark d i g
  | "RCOL" =>
    append (.drift d.label (d.real 0)) (if i.apertures then some (.rect (2 * d.real 6) (2 * d.real 7)) else none) d i g
  | "SROT" => (call (.srot (d.real 7) d.label) i.mc).bind fun p => .ok ({ i with mc := p }, g)
  | _ => put (.drift d.label (d.real 0))

/-- A double as `int`: towards zero. -/
def truncC (x : ℝ) : Int := if 0 ≤ x then ⌊x⌋ else ⌈x⌉

/-- `ParseHeader` (XTFFInterface.cpp 701-744): the data of the beam, the number of elements, and the stream. -/
def parseHeader (atof : List Char → ℝ) (nb : ℝ) (s : Stream) : Outcome Exn (Beam × Int × Stream) :=
  let p := getline [] s
  (realValue atof p.1 57 65).bind fun n =>
  (parseXTFF atof (getline p.1 p.2).2).bind fun d =>
  .ok (⟨d.1.real 5, nb⟩, truncC n - 1, skipLines 3 d.2)

/-- The loop of `Parse1` (XTFFInterface.cpp 673-679).  Every turn reads a line or throws, so that the fuel, one more than the
number of lines, does not run out. -/
def loop (atof : List Char → ℝ) : Nat → Int → Stream → Interface → Globals → Outcome Exn (Stream × Interface × Globals)
  | 0, _, _, _, _ => .ub
  | fuel + 1, n, s, i, g =>
    if s.fail ∨ n = 0 then .ok (s, i, g)
    else
      (parseXTFF atof s).bind fun d => (construct d.1 i g).bind fun r => loop atof fuel (n - 1) (skipLines 3 d.2) r.1 r.2

/-- `Parse1` (XTFFInterface.cpp 654-680), with the stream the header leaves; `beam0` is not null here. -/
def parse1 (atof : List Char → ℝ) (b : Beam) (n : Int) (new : Bool) (s : Stream) (i : Interface) (g : Globals) :
    Outcome Exn (Interface × Globals) :=
  let fresh : Bool := new || (match i.mc with
    | .null => true
    | _ => false)
  let i1 := if fresh then { i with mc := .live [] 0 } else i
  let g1 : Globals := if fresh then { g with z := 0, beamload := 0, energy := b.p0 } else g
  (loop atof (s.lines.length + 1) n s i1 g1).bind fun r => .ok ({ r.2.1 with file := .open r.1 }, r.2.2)

/-- `XTFFInterface::GetModel` (XTFFInterface.cpp 682-699): the model and the beam, which are handed out; frames that are still open
make an assertion fail (AcceleratorModelConstructor.cpp 116-126). -/
def getModel (i : Interface) : Outcome Exn ((List Act × Option Beam) × Interface) :=
  match i.mc with
  | .live acts 0 => .ok ((acts, i.beam), { i with mc := .spent, beam := none })
  | .live _ (_ + 1) => .ub
  | .null => .ub
  | .spent => .ub

/-- The charge for beam loading (XTFFInterface.cpp 715-716). -/
def charge (nb : ℝ) : ℝ := nb * electronCharge

/-- `Parse()` (XTFFInterface.cpp 598-609), and `Parse(double)` (611-622) with a momentum. -/
def parse (atof : List Char → ℝ) (pref : Option ℝ) (i : Interface) (g : Globals) :
    Outcome Exn ((List Act × Option Beam) × Interface × Globals) :=
  match i.file with
  | .open s =>
    (parseHeader atof i.nb s).bind fun h =>
    let g : Globals := { g with q := charge i.nb }
    let g : Globals := match pref with
      | some p => { g with energy := p }
      | none => g
    (parse1 atof h.1 h.2.1 true h.2.2 { i with beam := some h.1 } g).bind fun r =>
    (getModel r.1).bind fun m => .ok (m.1, m.2, r.2)
  | .null => .ub
  | .freed => .ub

/-- `AppendModel` (XTFFInterface.cpp 624-652) with the file, `none` if it cannot be opened.  The interface is given with
the outcome where an exception is of interest: for a file that cannot be opened the stream is deleted, but the pointer to it
stays. -/
def appendModel (atof : List Char → ℝ) (file : Option Stream) (i : Interface) (g : Globals) :
    Outcome Exn (Interface × Globals) × Interface :=
  match i.file, file with
  | .freed, _ => (.ub, i)
  | _, none => (.throw .open, { i with file := .freed })
  | _, some s =>
    ((parseHeader atof i.nb s).bind fun h =>
      let b := i.beam.getD h.1
      parse1 atof b h.2.1 false h.2.2 { i with beam := some b } { g with q := charge i.nb }, { i with file := .open s })

/-- The destructor (XTFFInterface.cpp 582-596): freed memory is freed again. -/
def destroy (i : Interface) : Outcome Exn Unit :=
  match i.file with
  | .freed => .ub
  | _ => .ok ()

/-- `toupper`. -/
def upper (ch : Char) : Char := if 'a' ≤ ch ∧ ch ≤ 'z' then Char.ofNat (ch.toNat - 32) else ch

/-- `TreatTypeAsDrift` (XTFFInterface.cpp 746-755); reading past the terminating zero is undefined, and the zero ends the
name. -/
def treatAsDrift (dt : List Char) (i : Interface) : Outcome Exn Interface :=
  if dt.length < 3 then .ub
  else
    let name := String.ofList ((dt.take 4).map upper)
    .ok { i with driftTypes := if name ∈ i.driftTypes then i.driftTypes else name :: i.driftTypes }

/-- `IncludeApertures` (XTFFInterface.h 59-62). -/
def includeApertures (flag : Bool) (i : Interface) : Interface := { i with apertures := flag }

/-- `ConstructGirders` (XTFFInterface.h 72-75). -/
def constructGirders (flag : Bool) (i : Interface) : Interface := { i with girders := flag }

end

end Verif.XTFF
