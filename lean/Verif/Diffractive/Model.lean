import Mathlib.Analysis.SpecialFunctions.Sqrt
import Verif.Common.Outcome

/-!
# Model of single diffractive scattering: tables and choice of t and mass

Merlin++/DiffractiveScatter.h and DiffractiveScatter.cpp.  Doubles are real numbers.  Output to the console is left out.  The sizes of the
arrays, `N` = 500 for the tables and 10 N for the histograms, are a parameter.  The differential cross section `PomeronScatter` is a parameter here
and modelled in `Verif.Diffractive.Cross`.
-/

namespace Verif.Diffractive
open Real Verif

/-- No exceptions are thrown. -/
abbrev Res (α : Type) := Outcome Empty α

/-- The bounds (DiffractiveScatter.h 163-181). -/
structure Setup where
  tmin : ℝ
  tmax : ℝ
  ximin : ℝ
  ximax : ℝ

/-- `N` (DiffractiveScatter.h 210). -/
def size : Nat := 500

/-- A point of the grid (DiffractiveScatter.cpp 174-177, 188, 191). -/
noncomputable def point (lo hi : ℝ) (NN i : Nat) : ℝ := lo + (i : ℝ) * ((hi - lo) / (NN : ℝ))

/-- The loop `dist[k] += d k` for one bin, in order (DiffractiveScatter.cpp 186-197). -/
noncomputable def accumulate (d : Nat → ℝ) (NN : Nat) : ℝ := (List.range NN).foldl (fun S k => S + d k) 0

/-- The running sum (DiffractiveScatter.cpp 203-207). -/
noncomputable def running (d : Nat → ℝ) : Nat → ℝ
  | 0 => d 0
  | i + 1 => d (i + 1) + running d i

/-- The normalised sum (DiffractiveScatter.cpp 210-214). -/
noncomputable def normalised (d : Nat → ℝ) (NN i : Nat) : ℝ := running d i / running d (NN - 1)

/-- The search (DiffractiveScatter.cpp 224-227, 231-234): reading past the end is undefined. -/
noncomputable def seek (c : Nat → ℝ) (NN : Nat) (target : ℝ) (k : Nat) : Res Nat :=
  open Classical in
  if k + 1 < NN then (if c (k + 1) < target then seek c NN target (k + 1) else .ok k) else .ub
termination_by NN - k

/-- An entry of a table (DiffractiveScatter.cpp 228-229, 235-237). -/
noncomputable def entry (c : Nat → ℝ) (NN : Nat) (target : ℝ) (k : Nat) : Res ℝ :=
  open Classical in
  if c (k + 1) - c k = 0 then .ub else .ok (((k : ℝ) + min 1 ((target - c k) / (c (k + 1) - c k))) / (NN : ℝ))

/-- The loop over the table (DiffractiveScatter.cpp 217-238), for one of the two: `m` entries from `i` on. -/
noncomputable def fill (c : Nat → ℝ) (N NN : Nat) : Nat → Nat → Nat → Res (List ℝ)
  | 0, _, _ => .ok []
  | m + 1, i, k => (seek c NN ((i : ℝ) / (N : ℝ)) k).bind fun k' => (entry c NN ((i : ℝ) / (N : ℝ)) k').bind fun v =>
      (fill c N NN m (i + 1) k').bind fun l => .ok (v :: l)

/-- One of the tables; the first entry is zero (DiffractiveScatter.cpp 218). -/
noncomputable def table (d : Nat → ℝ) (N NN : Nat) : Res (List ℝ) :=
  open Classical in
  if running d (NN - 1) = 0 then .ub else (fill (normalised d NN) N NN (N - 1) 1 0).bind fun l => .ok (0 :: l)

/-- What a generation leaves: s, the cross section and the tables. -/
structure Tables where
  s : ℝ
  sig : ℝ
  tarr : List ℝ
  xarr : List ℝ

/-- `GenerateDsigDtDxi` (DiffractiveScatter.cpp 166-244) for one cross section. -/
noncomputable def build (N : Nat) (c : Setup) (s : ℝ) (f : ℝ → ℝ → ℝ) : Res Tables :=
  let NN := 10 * N
  let tp := point c.tmin c.tmax NN
  let xp := point c.ximin c.ximax NN
  let tdist := fun i => accumulate (fun j => f (tp i) (xp j)) NN
  let xdist := fun j => accumulate (fun i => f (tp i) (xp j)) NN
  let sum := accumulate tdist NN
  let sig := 1 / 1000 * sum * ((c.ximax - c.ximin) / (NN : ℝ)) * ((c.tmax - c.tmin) / (NN : ℝ))
  (table xdist N NN).bind fun xa => (table tdist N NN).bind fun ta => .ok ⟨s, sig, ta, xa⟩

/-- `ProtonMassMeV * MeV` (PhysicalConstants.h, PhysicalUnits.h). -/
noncomputable def mp : ℝ := 938272013 / 1000000000

/-- `s` (DiffractiveScatter.cpp 170-172). -/
noncomputable def sOf (energy : ℝ) : ℝ := 2 * mp * energy + 2 * mp ^ 2

/-- A `ppDiffractiveScatter`. -/
structure Obj where
  setup : Setup
  tables : Option Tables
  configured : Bool

/-- The operations. -/
inductive Op
  | setTMin (v : ℝ)
  | setTMax (v : ℝ)
  | setXiMin (v : ℝ)
  | setXiMax (v : ℝ)
  | generate (energy : ℝ)

/-- One operation (DiffractiveScatter.cpp 26-62, 134-141). -/
noncomputable def Obj.op (N : Nat) (cross : ℝ → ℝ → ℝ → ℝ) (o : Obj) : Op → Res Obj
  | .setTMin v => .ok ⟨⟨v, o.setup.tmax, o.setup.ximin, o.setup.ximax⟩, o.tables, o.configured⟩
  | .setTMax v => .ok ⟨⟨o.setup.tmin, v, o.setup.ximin, o.setup.ximax⟩, o.tables, o.configured⟩
  | .setXiMin v => .ok ⟨⟨o.setup.tmin, o.setup.tmax, v, o.setup.ximax⟩, o.tables, o.configured⟩
  | .setXiMax v => .ok ⟨⟨o.setup.tmin, o.setup.tmax, o.setup.ximin, v⟩, o.tables, o.configured⟩
  | .generate e =>
    if o.configured then .ok o
    else (build N o.setup (sOf e) fun t x => cross t x (sOf e)).bind fun t => .ok ⟨o.setup, some t, true⟩

/-- Several operations. -/
noncomputable def Obj.run (N : Nat) (cross : ℝ → ℝ → ℝ → ℝ) (o : Obj) : List Op → Res Obj
  | [] => .ok o
  | a :: l => (o.op N cross a).bind fun o' => Obj.run N cross o' l

/-- The cell of a random number: `int(N * v)`, for numbers of [0, 1) below N (DiffractiveScatter.cpp 277-278, 296-297). -/
noncomputable def cell (N : Nat) (v : ℝ) : Nat := ⌊(N : ℝ) * v⌋₊

/-- The width of a cell (DiffractiveScatter.cpp 280-288, 299-307). -/
noncomputable def delta (N : Nat) (a : List ℝ) (i : Nat) : ℝ :=
  if (i : Int) < (N : Int) - 1 then a.getD (i + 1) 0 - a.getD i 0 else 1 - a.getD i 0

/-- The place within the bounds, as a fraction (DiffractiveScatter.cpp 279, 289, 298, 308). -/
noncomputable def place (N : Nat) (a : List ℝ) (v : ℝ) : ℝ := a.getD (cell N v) 0 + ((N : ℝ) * v - (cell N v : ℝ)) * delta N a (cell N v)

/-- t of a random number (DiffractiveScatter.cpp 290). -/
noncomputable def tOf (N : Nat) (c : Setup) (b : Tables) (v : ℝ) : ℝ := c.tmin + place N b.tarr v * (c.tmax - c.tmin)

/-- xi of a random number (DiffractiveScatter.cpp 309). -/
noncomputable def xOf (N : Nat) (c : Setup) (b : Tables) (v : ℝ) : ℝ := c.ximin + place N b.xarr v * (c.ximax - c.ximin)

/-- `rat` (DiffractiveScatter.cpp 311-316).  A cell of width zero makes `ds2` infinite and `rat` zero; here the quotients are zero. -/
noncomputable def ratio (N : Nat) (c : Setup) (b : Tables) (f : ℝ → ℝ → ℝ) (fudge v1 v2 : ℝ) : ℝ :=
  let deltat := delta N b.tarr (cell N v1)
  let deltax := delta N b.xarr (cell N v2)
  let ds := f (tOf N c b v1) (xOf N c b v2) * (1 / 1000)
  let ds2 := b.sig / ((N : ℝ) * (N : ℝ) * deltax * (c.ximax - c.ximin) * deltat * (c.tmax - c.tmin))
  fudge * ds / ds2

/-- The retry after the choice of t (DiffractiveScatter.cpp 291-294). -/
def refused (N : Nat) (c : Setup) (b : Tables) (v1 : ℝ) : Prop := tOf N c b v1 < 0 ∨ delta N b.tarr (cell N v1) < 0

/-- The factor after a comparison (DiffractiveScatter.cpp 318-321). -/
noncomputable def lowered (fudge rat : ℝ) : ℝ := open Classical in if rat > 1 then fudge / rat else fudge

/-- `Select` (DiffractiveScatter.cpp 265-330): the random numbers as a list; the result are t, the mass, the factor `fudge` that all objects share
and the remaining numbers; none if the numbers do not suffice. -/
noncomputable def select (N : Nat) (c : Setup) (b : Tables) (f : ℝ → ℝ → ℝ) (fudge : ℝ) : List ℝ → Option ((ℝ × ℝ) × ℝ × List ℝ)
  | [] => none
  | v1 :: l => open Classical in
    if refused N c b v1 then select N c b f fudge l
    else match l with
      | v2 :: v3 :: l' =>
        let rat := ratio N c b f fudge v1 v2
        if v3 > rat then select N c b f (lowered fudge rat) l'
        else some ((tOf N c b v1, √(b.s * xOf N c b v2)), lowered fudge rat, l')
      | _ => none

/-- `SelectT` and `SelectXi` (DiffractiveScatter.cpp 248-263): the pointer to the interpolation is set nowhere. -/
def selectT : Res ℝ := .ub

end Verif.Diffractive
