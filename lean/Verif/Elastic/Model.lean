import Mathlib.Analysis.SpecialFunctions.Sqrt
import Mathlib.Analysis.SpecialFunctions.Trigonometric.Basic
import Mathlib.Analysis.SpecialFunctions.Pow.Real
import Verif.Interpolation.Model

/-!
# Model of proton-proton elastic scattering

Merlin++/ElasticScatter.h and ElasticScatter.cpp.  Doubles are real numbers; a quotient by zero is undefined where it would be used.  Output to
the console and the files of the debug mode are left out.  Interpolation is that of `Verif.Interpolation`.
-/

namespace Verif.Elastic
open Real Verif Verif.Interpolation

/-- The exceptions: those of the interpolation. -/
abbrev Res (α : Type) := Outcome (BadRange ℝ) α

/-- The members set by the user (ElasticScatter.h 115-131). -/
structure Setup where
  tmin : ℝ
  tmax : ℝ
  step : ℝ

/-- The number of steps (ElasticScatter.cpp 154): conversion of a double to an unsigned integer, undefined outside of its range.  With the
largest unsigned number the loops do not end. -/
noncomputable def nSteps (c : Setup) : Res Nat :=
  open Classical in
  if c.step = 0 then .ub
  else
    let r := (c.tmax - c.tmin) / c.step
    if r ≤ -1 ∨ 2 ^ 32 - 1 ≤ r then .ub else .ok ⌊r⌋.toNat

/-- The values of t (ElasticScatter.cpp 171-179). -/
noncomputable def ts (c : Setup) (n : Nat) : List ℝ := (List.range (n + 1)).map fun k : Nat => (k : ℝ) * c.step + c.tmin

/-- The running sums and the sum (ElasticScatter.cpp 214-225). -/
noncomputable def running (step : ℝ) : ℝ → List ℝ → List ℝ × ℝ
  | s, [] => ([], s)
  | s, d :: l =>
    let s' := s + d * step
    let r := running step s' l
    (s' :: r.1, r.2)

/-- What remains of a call: the cross sections and the table for the choice of t. -/
structure Table where
  sigElastic : ℝ
  sigElasticN : ℝ
  lin : Equal ℝ

/-- The values of t for the targets 1/n, 2/n, ... (ElasticScatter.cpp 276-298). -/
noncomputable def inverse (inv : Arb ℝ) (n : Nat) : List Nat → Res (List ℝ)
  | [] => .ok []
  | k :: l => (valueAt inv ((k : ℝ) / (n : ℝ))).bind fun v => (inverse inv n l).bind fun r => .ok (v.1 :: r)

/-- `IntegrateDsigDt` (ElasticScatter.cpp 197-313). -/
noncomputable def integrate (c : Setup) (t dsig dsigN : List ℝ) : Res Table :=
  open Classical in
  match dsig, dsigN with
  | _ :: d, _ :: dN =>
    let r := running c.step 0 d
    if r.1 ≠ [] ∧ r.2 = 0 then .ub
    else
      (mkArb (0 :: r.1.map (· / r.2)) t 1).bind fun inv =>
      (inverse inv t.length (List.range' 1 (t.length - 1))).bind fun v =>
      (mkEqual (c.tmin :: v ++ [c.tmax]) 0 (1 / (t.length : ℝ))).bind fun lin =>
      .ok ⟨r.2, (running c.step 0 dN).2, lin⟩
  | _, _ => .ub

/-- `GenerateDsigDt` and `IntegrateDsigDt` for one differential cross section, with and without the Coulomb part
(ElasticScatter.cpp 112-128, 135-191). -/
noncomputable def build (c : Setup) (ds : Bool → ℝ → ℝ) : Res Table :=
  (nSteps c).bind fun n => integrate c (ts c n) ((ts c n).map (ds true)) ((ts c n).map (ds false))

/-- `ProtonMassMeV * MeV` (PhysicalConstants.h, PhysicalUnits.h). -/
noncomputable def mp : ℝ := 938272013 / 1000000000

/-- The energy in the centre of mass (ElasticScatter.cpp 165-168). -/
noncomputable def sqrtS (energy : ℝ) : ℝ := √(2 * mp * energy + 2 * mp ^ 2)

/-- A `ppElasticScatter` (ElasticScatter.h 26-234). -/
structure Obj where
  setup : Setup
  table : Option Table
  configured : Bool

/-- The operations. -/
inductive Op
  | setTMin (v : ℝ)
  | setTMax (v : ℝ)
  | setStep (v : ℝ)
  | generate (energy : ℝ)

/-- One operation (ElasticScatter.cpp 40-58, 112-128), for the cross section `cross` at the energy of the centre of mass. -/
noncomputable def Obj.op (cross : ℝ → Bool → ℝ → ℝ) (o : Obj) : Op → Res Obj
  | .setTMin v => .ok ⟨⟨v, o.setup.tmax, o.setup.step⟩, o.table, o.configured⟩
  | .setTMax v => .ok ⟨⟨o.setup.tmin, v, o.setup.step⟩, o.table, o.configured⟩
  | .setStep v => .ok ⟨⟨o.setup.tmin, o.setup.tmax, v⟩, o.table, o.configured⟩
  | .generate e =>
    if o.configured then .ok o
    else (build o.setup (cross (sqrtS e))).bind fun t => .ok ⟨o.setup, some t, true⟩

/-- Several operations. -/
noncomputable def Obj.run (cross : ℝ → Bool → ℝ → ℝ) (o : Obj) : List Op → Res Obj
  | [] => .ok o
  | a :: l => (o.op cross a).bind fun o' => Obj.run cross o' l

/-- `SelectT` for one random number (ElasticScatter.cpp 318-323): without a table a null pointer is followed. -/
noncomputable def Obj.selectT (o : Obj) (v : ℝ) : Res ℝ :=
  match o.table with
  | none => .ub
  | some t => equalValueAt t.lin v

end Verif.Elastic
