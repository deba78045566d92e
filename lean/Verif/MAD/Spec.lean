import Verif.MAD.Model
import Verif.Multipole.Spec
import Verif.Symplectic.Model

/-!
# Specification for the MAD interface

What a table says about a lattice: names and lengths, integrated strengths, places, nested lines, energy losses.
-/

namespace Verif.MAD.Spec
open Verif Verif.Multipole Verif.Multipole.Spec Verif.MAD Real

noncomputable section

/-- The columns every row has. -/
structure Has (r : Row) (kw name : String) (l : ℝ) : Prop where
  kw : r.str "KEYWORD" = some kw
  name : r.str "NAME" = some name
  len : r.num "L" = some l

/-- The row is turned into one component, which is put at the end. -/
def Makes (m : Interface) (r : Row) (x : Comp) : Prop := ∀ acts d, m.constr = .live acts d →
  ∃ m', row m r = .ok m' ∧ m'.constr = .live (acts ++ [.comp x m.z]) d ∧ m'.z = m.z + x.len

/-- The row is left out. -/
def Skips (m : Interface) (r : Row) : Prop := row m r = .ok m

/-- The field: vertical component, and horizontal component as imaginary part. -/
def field (f : MField ℝ) (z : Cx ℝ) : Cx ℝ := ofReal f.b0 * series f.terms (-1) z

/-- The imaginary unit. -/
def I : Cx ℝ := ⟨0, 1⟩

/-- The magnetic rigidity in tesla metres of a particle of unit charge with a momentum in GeV/c. -/
def rigidity (p : ℝ) : ℝ := p * 1e9 / 299792458

/-- The components among the calls, with their places. -/
def comps (acts : List Act) : List (Comp × ℝ) := acts.filterMap fun
  | .comp x p => some (x, p)
  | _ => none

/-- The length of all components. -/
def total (acts : List Act) : ℝ := ((comps acts).map fun x => x.1.len).sum

/-- Every component is where those before it end. -/
def Placed (z : ℝ) (acts : List Act) : Prop := ∀ i x p, (comps acts)[i]? = some (x, p) →
  p = z + (((comps acts).take i).map fun x => x.1.len).sum

/-- Rows whose components have together the length of the table. -/
def KeepsLength (m : Interface) (r : Row) (l : ℝ) : Prop := ∃ kw, Has r kw (((r.str "NAME").getD "")) l ∧
  (kw ∈ m.driftTypes ∧ kw ∉ ["LCAV", "RBEND", "RFCAVITY", "LINE", "SROT"] ∨
   kw ∈ ["DRIFT", "SBEND", "QUADRUPOLE", "SKEWQUAD", "SEXTUPOLE", "SKEWSEXT", "OCTUPOLE", "XCOR", "YCOR", "HKICKER", "VKICKER",
     "SOLENOID", "CRABMARKER", "CRABRF", "COLLIMATOR", "RCOLLIMATOR", "ECOLLIMATOR", "HEL"] ∨
   kw = "MONITOR" ∧ ((r.str "NAME").getD "").toList.take 2 ≠ ['W', 'S'] ∨ kw = "MARKER" ∧ l = 0 ∨
   kw = "RFCAVITY" ∧ m.singleCell = true)

/-- Half of the wave length of a frequency in MHz. -/
def halfWave (f : ℝ) : ℝ := 299792458 / (f * 1000000) / 2

/-- The energy gain in GeV of a particle on the crest of the wave at phase zero (RFStructure::GetBeamVoltage). -/
def beamVoltage (amplitude phase len : ℝ) : ℝ := amplitude * cos phase * len

/-- The energy loss of an electron in GeV by radiation in a bend of given angle and length at the energy `e`. -/
def loss (angle l e : ℝ) : ℝ := 8.85e-5 / (2 * π) * e ^ 4 * angle ^ 2 / l

/-- The momentum after the bends of given angles and lengths. -/
def after (p : ℝ) : List (ℝ × ℝ) → ℝ
  | [] => p
  | (a, l) :: t => after (p - loss a l p) t

/-- Angles and lengths of the bends of a table. -/
def bends (t : List Row) : List (ℝ × ℝ) := t.filterMap fun r =>
  if r.str "KEYWORD" = some "SBEND" ∨ r.str "KEYWORD" = some "RBEND" then some ((r.num "ANGLE").getD 0, (r.num "L").getD 0) else none

/-- A table with nested lines: a line begins and ends with a row which has its name. -/
inductive Forest
  | nil
  | elem (r : Row) (rest : Forest)
  | line (name : String) (r1 r2 : Row) (inside rest : Forest)

/-- The rows of the table. -/
def Forest.rows : Forest → List Row
  | .nil => []
  | .elem r rest => r :: rest.rows
  | .line _ r1 r2 inside rest => r1 :: inside.rows ++ r2 :: rest.rows

/-- The frame of a line: by prefix, otherwise a sequence if the structure is to be kept. -/
def frameOf (honour : Bool) (name : List Char) : Option (Frame × List Char) :=
  match name with
  | 'F' :: '_' :: n => some (.sequence, n)
  | 'S' :: '_' :: n => some (.mount, n)
  | 'G' :: '_' :: n => some (.girder, n)
  | 'M' :: '_' :: n => some (.mover, n)
  | n => if honour then some (.sequence, n) else none

/-- Names that are not empty and have none but the known prefixes. -/
def GoodName (name : List Char) : Prop := name ≠ [] ∧ ∀ x n, name = x :: '_' :: n → x ∈ ['F', 'S', 'G', 'M']

/-- The rows of elements are no lines; the rows of a line carry its name, which is not that of the line around it. -/
def Named : Option String → Forest → Prop
  | _, .nil => True
  | p, .elem r rest => r.str "KEYWORD" ≠ some "LINE" ∧ Named p rest
  | p, .line name r1 r2 inside rest => (∃ l, Has r1 "LINE" name l) ∧ (∃ l, Has r2 "LINE" name l) ∧ GoodName name.toList ∧
      p ≠ some name ∧ Named (some name) inside ∧ Named p rest

/-- What the table stands for: the components of every element in turn, those of a line inside its frame. -/
inductive Builds (honour : Bool) : Interface → Forest → List Act → Interface → Prop
  | nil (m) : Builds honour m .nil [] m
  | elem {m m' m'' r rest as A} : row { m with constr := .live [] 0 } r = .ok m' → m'.constr = .live as 0 →
      Builds honour m' rest A m'' → Builds honour m (.elem r rest) (as ++ A) m''
  | frame {m m' m'' name r1 r2 inside rest k n A B} : frameOf honour name.toList = some (k, n) →
      Builds honour m inside A m' → Builds honour m' rest B m'' →
      Builds honour m (.line name r1 r2 inside rest) (.newFrame k n :: A ++ .endFrame :: B) m''
  | plain {m m' m'' name r1 r2 inside rest A B} : frameOf honour name.toList = none →
      Builds honour m inside A m' → Builds honour m' rest B m'' →
      Builds honour m (.line name r1 r2 inside rest) (A ++ B) m''

/-- The slopes changed by given angles for a particle of the reference momentum, less for a stiffer one. -/
def turnSlopes (ax ay : ℝ) (v : Symplectic.PS) : Symplectic.PS :=
  { v with px := v.px + ax / (1 + v.dp), py := v.py + ay / (1 + v.dp) }

/-- The same for coordinates that are momenta. -/
def turnMomenta (ax ay : ℝ) (v : Symplectic.PS) : Symplectic.PS := { v with px := v.px + ax, py := v.py + ay }

/-- Calls that open or close no frame. -/
def NoFrame : Act → Prop
  | .newFrame _ _ => False
  | .endFrame => False
  | _ => True

/-- A row with all columns, zero unless given. -/
def full (kw name : String) (l : ℝ) (cols : List (String × ℝ)) : Row where
  str x := if x = "KEYWORD" then some kw else if x = "NAME" then some name else none
  num x := if x = "L" then some l else some ((cols.lookup x).getD 0)

end

end Verif.MAD.Spec
