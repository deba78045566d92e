import Verif.XTFF.Model
import Verif.MAD.Spec

/-!
# Specification for the XTFF interface

What a tape file says about a beam line: energies, strengths, shapes, apertures, frames, and the layout of its lines.
-/

namespace Verif.XTFF.Spec
open Verif Verif.Multipole Verif.Multipole.Spec Verif.XTFF Real
open Verif.MAD (Frame)
open Verif.MAD.Spec (field rigidity I)

noncomputable section

/-- The elements of a beam line, one after the other. -/
def constructs : List Data → Interface → Globals → Outcome Exn (Interface × Globals)
  | [], i, g => .ok (i, g)
  | d :: ds, i, g => (construct d i g).bind fun r => constructs ds r.1 r.2

/-- The energy in GeV which a particle of unit charge gains in an element: that of an accelerating cavity of a voltage in MV
with a phase in turns, less the loss in volts per coulomb for the charge of the bunch. -/
def gain (driftTypes : List String) (q : ℝ) (d : Data) : ℝ :=
  if d.kw = "LCAV" ∧ "LCAV" ∉ driftTypes ∧ d.label.take 4 ≠ ['C', 'R', 'A', 'B'] then
    d.real 8 / 1000 * cos (2 * π * d.real 9) - d.real 10 * q / 1000000000
  else 0

/-- The energy gained in a beam line. -/
def gained (driftTypes : List String) (q : ℝ) (ds : List Data) : ℝ := (ds.map (gain driftTypes q)).sum

/-- A dipole with a gradient on a curve, for a momentum. -/
def Dipole (p h k1 : ℝ) (f : MField ℝ) : Prop := ∀ z, field f z = ofReal (rigidity p) * (ofReal h + ofReal k1 * z)

/-- The magnet of an element is matched to a momentum: its field gives the strengths of the file, `1/n!` times the n-th
derivative for the higher multipoles. -/
def Matched (p : ℝ) (d : Data) (x : Comp) : Prop :=
  match d.kw with
  | "QUAD" => ∃ f, (x = .magnet .quadrupole d.label (d.real 0) f ∧ ∀ z, field f z = ofReal (rigidity p * d.real 2) * z) ∨
      (x = .magnet .skewQuadrupole d.label (d.real 0) f ∧ ∀ z, field f z = ofReal (rigidity p * d.real 2) * I * z)
  | "SEXT" => ∃ f, (x = .magnet .sextupole d.label (d.real 0) f ∧ ∀ z, field f z = ofReal (rigidity p * d.real 3 / 2) * z ^ 2) ∨
      (x = .magnet .skewSextupole d.label (d.real 0) f ∧ ∀ z, field f z = ofReal (rigidity p * d.real 3 / 2) * I * z ^ 2)
  | "OCTU" => ∃ f, x = .magnet .octupole d.label (d.real 0) f ∧ ∀ z, field f z = ofReal (rigidity p * d.real 7 / 6) * z ^ 3
  | "DECA" => ∃ f, x = .magnet .decapole d.label (d.real 0) f ∧ ∀ z, field f z = ofReal (rigidity p * d.real 7 / 24) * z ^ 4
  | "SOLE" => x = .solenoid d.label (d.real 0) (rigidity p * d.real 7)
  | "SBEN" | "RBEN" => ∃ len h f tilt e1 e2 hgap, x = .bend d.label len h f tilt e1 e2 hgap ∧ Dipole p h (d.real 2) f
  | _ => False

/-- The keywords of the magnets. -/
def magnets : List String := ["QUAD", "SEXT", "OCTU", "DECA", "SOLE", "SBEN", "RBEN"]

/-- The element adds one component with its aperture to the end of the line. -/
def Makes (d : Data) (i : Interface) (g : Globals) (x : Comp) (aper : Option Aper) : Prop := ∀ acts n, i.mc = .live acts n →
  ∃ g', construct d i g = .ok ({ i with mc := .live (acts ++ [.comp x aper g.z]) n }, g') ∧ g'.z = g.z + x.len

/-- A field, vertical component and horizontal component as imaginary part, of a magnet turned by an angle from the
horizontal to the vertical axis. -/
def turn (t : ℝ) (f : Cx ℝ → Cx ℝ) (z : Cx ℝ) : Cx ℝ := ⟨cos t, -sin t⟩ * f (⟨cos t, -sin t⟩ * z)

/-- The distance of the ends of an arc of given curvature and length. -/
def chord (h len : ℝ) : ℝ := 2 / h * sin (h * len / 2)

/-- A point is inside an aperture. -/
def Inside : Aper → ℝ → ℝ → Prop
  | .rect hx hy, x, y => |x| < hx ∧ |y| < hy
  | .circle r, x, y => x ^ 2 + y ^ 2 < r ^ 2

/-- The components among the calls, with their places. -/
def comps (acts : List Act) : List (Comp × ℝ) := acts.filterMap fun
  | .comp x _ p => some (x, p)
  | _ => none

/-- The apertures among the calls. -/
def apers (acts : List Act) : List Aper := acts.filterMap fun
  | .comp _ a _ => a
  | _ => none

/-- The length of all components. -/
def total (acts : List Act) : ℝ := ((comps acts).map fun x => x.1.len).sum

/-- Every component is where those before it end. -/
def Placed (z : ℝ) (acts : List Act) : Prop := ∀ i x p, (comps acts)[i]? = some (x, p) →
  p = z + (((comps acts).take i).map fun x => x.1.len).sum

/-- Calls that open or close no frame. -/
def NoFrame : Act → Prop
  | .newFrame _ _ => False
  | .endFrame => False
  | _ => True

/-- A marker that begins or ends a frame. -/
def isFrameMark (d : Data) : Prop := d.kw = "MARK" ∧ ∃ k n, d.label = k :: '_' :: n

/-- A beam line with nested frames: a frame begins and ends with a marker that has its name. -/
inductive Forest
  | nil
  | elem (d : Data) (rest : Forest)
  | frame (d1 d2 : Data) (inside rest : Forest)

/-- The elements of the line. -/
def Forest.elems : Forest → List Data
  | .nil => []
  | .elem d rest => d :: rest.elems
  | .frame d1 d2 inside rest => d1 :: inside.elems ++ d2 :: rest.elems

/-- The frame of a name. -/
def frameOf : List Char → Option (Frame × List Char)
  | 'F' :: '_' :: n => some (.sequence, n)
  | 'S' :: '_' :: n => some (.mount, n)
  | 'G' :: '_' :: n => some (.girder, n)
  | 'M' :: '_' :: n => some (.mover, n)
  | _ => none

/-- Elements are no markers of frames, or markers without a name; both markers of a frame have its name, which is not that of
the frame around it. -/
def Named : Option (List Char) → Forest → Prop
  | _, .nil => True
  | p, .elem d rest => d.kw ≠ "MARK" ∧ Named p rest ∨ (d.kw = "MARK" ∧ d.label ≠ [] ∧ (∀ k n, d.label ≠ k :: '_' :: n)) ∧ Named p rest
  | p, .frame d1 d2 inside rest => d1.kw = "MARK" ∧ d2.kw = "MARK" ∧ d1.label = d2.label ∧ (frameOf d1.label).isSome ∧
      p ≠ some d1.label ∧ Named (some d1.label) inside ∧ Named p rest

/-- What the line stands for: the calls for every element in turn, those of a frame inside it. -/
inductive Builds : Interface → Globals → Forest → List Act → Interface → Globals → Prop
  | nil (i g) : Builds i g .nil [] i g
  | elem {i g i1 g1 i2 g2 d rest as A} : construct d { i with mc := .live [] 0 } g = .ok (i1, g1) → i1.mc = .live as 0 →
      Builds i1 g1 rest A i2 g2 → Builds i g (.elem d rest) (as ++ A) i2 g2
  | frame {i g i1 g1 i2 g2 d1 d2 inside rest k n A B} : frameOf d1.label = some (k, n) →
      Builds i g inside A i1 g1 → Builds i1 g1 rest B i2 g2 →
      Builds i g (.frame d1 d2 inside rest) (.newFrame k n :: A ++ .endFrame :: B) i2 g2

/-- The text of an element: keyword, label and type, filled up with blanks, and eleven numbers. -/
structure Text where
  kw : List Char
  label : List Char
  type : List Char
  num : Nat → List Char

/-- Fill up with blanks. -/
def pad (n : Nat) (l : List Char) : List Char := l ++ List.replicate (n - l.length) ' '

/-- The texts fit into their columns: no blanks in names, and numbers as wide as their columns. -/
structure Text.Fits (t : Text) : Prop where
  kw : t.kw.length ≤ 4 ∧ ' ' ∉ t.kw
  label : t.label.length ≤ 16 ∧ ' ' ∉ t.label
  type : t.type.length ≤ 16 ∧ ' ' ∉ t.type
  num0 : (t.num 0).length = 12
  num : ∀ n, 0 < n → n < 11 → (t.num n).length = 16

/-- The two lines with the data of an element. -/
def Text.lines (t : Text) : List (List Char) :=
  [pad 4 t.kw ++ (pad 16 t.label ++ (t.num 0 ++ (t.num 1 ++ (t.num 2 ++ (t.num 3 ++ (t.num 4 ++ (' ' :: (pad 16 t.type ++
    (' ' :: t.num 5))))))))),
   t.num 6 ++ (t.num 7 ++ (t.num 8 ++ (t.num 9 ++ t.num 10)))]

/-- The data of an element. -/
def Text.data (atof : List Char → ℝ) (t : Text) : Data :=
  ⟨String.ofList t.kw, t.label, t.type, fun n => if n < 11 then atof (t.num n) else 0⟩

/-- An element of a file: its data and three lines on the optics. -/
structure Record where
  text : Text
  optics : List (List Char)

/-- The element is as it should be. -/
def Record.Good (r : Record) : Prop := r.text.Fits ∧ r.optics.length = 3

/-- The lines of an element. -/
def Record.lines (r : Record) : List (List Char) := r.text.lines ++ r.optics

/-- A file: two lines, of which the first has the number of elements in columns 57 to 65, and the elements, of which the first
is the beginning of the line. -/
structure Tape where
  before : List Char
  count : List Char
  second : List Char
  initial : Record
  elems : List Record

/-- The layout is as it should be. -/
structure Tape.Good (t : Tape) : Prop where
  before : t.before.length = 56
  count : t.count.length = 9
  initial : t.initial.Good
  elems : ∀ r ∈ t.elems, r.Good

/-- The lines of a file. -/
def Tape.lines (t : Tape) : List (List Char) :=
  (t.before ++ t.count) :: t.second :: (t.initial.lines ++ t.elems.flatMap Record.lines)

/-- The elements of a file. -/
def Tape.data (atof : List Char → ℝ) (t : Tape) : List Data := t.elems.map fun r => r.text.data atof

/-- The energy of the beam at the beginning of a file. -/
def Tape.energy (atof : List Char → ℝ) (t : Tape) : ℝ := atof (t.initial.text.num 5)

end

end Verif.XTFF.Spec
