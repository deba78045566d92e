import Mathlib.Algebra.Order.Field.Basic
import Mathlib.Algebra.BigOperators.Group.List.Basic
import Verif.Common.Outcome

/-!
# Model of `MaterialProperties`, `Mixture` and `MaterialData`

Source: `Merlin++/MaterialProperties.cpp`, `MaterialProperties.h`, `MaterialData.cpp`, `MaterialData.h`.

Doubles and floats are exact numbers of an ordered field (a quotient by zero is zero; infinite in C++).  `sigma_E` and
`sigma_D`, which nothing sets, and the heap are left out.  `property[name] = new Mixture(property, ..)` is taken to
evaluate the right side first (not specified in C++14).
-/

namespace Verif.Material
open Verif

abbrev Str := List Char

inductive Exn where
  /-- `MerlinException` -/
  | merlin
  /-- `std::out_of_range` of `map::at` -/
  | range
  deriving DecidableEq

section
variable {K : Type} [Field K] [LinearOrder K]

/-- `MaterialProperties` (MaterialProperties.h 26-50), without the mean free path. -/
structure Props (K : Type) where
  A : K
  sT : K
  sI : K
  sR : K
  dEdx : K
  X0 : K
  density : K
  Z : K
  deriving DecidableEq

/-- A material: properties, `lambda` (`none`: not initialised), `extra`, and for mixtures `V_A`, `V_R`, `V_H`. -/
structure Mat (K : Type) where
  p : Props K
  lam : Option K
  extra : Str → Option K
  vA : List K
  vR : List K
  vH : List K

/-- `1.E-28 * 6.022E23`. -/
def avogadroBarn : K := 6022 / 100000000

/-- `Update` (MaterialProperties.cpp 41-44). -/
def Props.lambda (p : Props K) : K := p.A / 1000 / ((p.sT + p.sR) * p.density * avogadroBarn)

def update (m : Mat K) : Mat K := { m with lam := some m.p.lambda }

/-- The constructor from numbers (MaterialProperties.cpp 26-39). -/
def new (p : Props K) : Mat K := update ⟨p, none, fun _ => none, [], [], []⟩

/-- The copy constructor (MaterialProperties.cpp 54-65): `lambda` is not copied. -/
def copy (m : Mat K) : Mat K := ⟨m.p, none, m.extra, [], [], []⟩

/-- Assignment between different objects (MaterialProperties.cpp 67-84): `lambda` is kept. -/
def assign (target source : Mat K) : Mat K := { target with p := source.p, extra := source.extra }

/-- `EnergyScale` (MaterialProperties.cpp 46-52). -/
def energyScale (m : Mat K) (_E : K) : Mat K := update (new m.p)

/-- `SetExtra` (MaterialProperties.cpp 102-119), with as many numbers as names. -/
def setExtra (m : Mat K) : List (Str × K) → Mat K
  | [] => m
  | (k, v) :: l => setExtra { m with extra := fun s => if s = k then some v else m.extra s } l

/-- `GetExtra` (MaterialProperties.cpp 121-124): a missing entry is made. -/
def getExtra (m : Mat K) (k : Str) : K × Mat K :=
  match m.extra k with
  | some v => (v, m)
  | none => (0, { m with extra := fun s => if s = k then some 0 else m.extra s })

/-- `HaveExtra` (MaterialProperties.cpp 126-131). -/
def haveExtra (m : Mat K) (k : Str) : Bool := (m.extra k).isSome

/-- `MaterialData::property`: `none` without an entry, `some none` for a null pointer. -/
abbrev Dict (K : Type) := Str → Option (Option (Mat K))

/-- Dereference of an entry of the dictionary. -/
def Dict.mat (d : Dict K) (k : Str) : Outcome Exn (Mat K) :=
  match d k with
  | none => .throw .merlin
  | some none => .ub
  | some (some m) => .ok m

/-- The first loop of the constructor: components in order, up to the first failure (MaterialProperties.cpp 170-183). -/
def components (d : Dict K) : List Str → List K → Outcome Exn (List (K × Mat K))
  | n :: ns, q :: qs => (d.mat n).bind fun m => (components d ns qs).bind fun l => .ok ((q, m) :: l)
  | _, _ => .ok []

/-- The sums of the second loop (MaterialProperties.cpp 184-205). -/
def mix (l : List (K × Mat K)) (density : K) : Props K :=
  let sum := (l.map fun x => x.1).sum
  let suma := (l.map fun x => x.1 * x.2.p.A).sum
  { Z := (l.map fun x => x.2.p.Z * x.1 / sum).sum
    A := (l.map fun x => x.2.p.A * x.1 / sum).sum
    sT := (l.map fun x => x.2.p.sT * x.1 / sum).sum
    sR := (l.map fun x => x.2.p.sR * x.1 / sum).sum
    sI := (l.map fun x => x.2.p.sI * x.1 / sum).sum
    dEdx := (l.map fun x => x.2.p.dEdx * x.1 * x.2.p.A / suma).sum
    X0 := 1 / (l.map fun x => 1 / x.2.p.X0 * x.1 * x.2.p.A / suma).sum
    density := density }

/-- `Mixture::Mixture` (MaterialProperties.cpp 162-211). -/
def mixture (d : Dict K) (names : List Str) (props : List K) (density : K) : Outcome Exn (Mat K) :=
  if names.length ≠ props.length then .throw .merlin
  else (components d names props).bind fun l =>
    let sumR := (l.map fun x => x.2.p.sR).sum
    let sumH := (l.map fun x => x.2.p.sT).sum
    .ok (update ⟨mix l density, none, fun _ => none, l.map fun x => x.2.p.A, l.map fun x => x.2.p.sR / sumR,
      l.map fun x => x.2.p.sT / sumH⟩)

/-- The loop of `A_H` and `A_R` (MaterialProperties.cpp 140-160): all but the last component are tried; the number of the
component is returned. -/
def pick (r : K) : List K → Nat
  | [] => 0
  | [_] => 0
  | v :: w :: l => if r - v ≤ 0 then 0 else pick (r - v) (w :: l) + 1

/-- `A_H()` for a random number: for a material that is no mixture its `A`. -/
def aH (m : Mat K) (r : K) : K := if m.vA = [] then m.p.A else m.vA.getD (pick r m.vH) 0

/-- `A_R()`. -/
def aR (m : Mat K) (r : K) : K := if m.vA = [] then m.p.A else m.vA.getD (pick r m.vR) 0

/-- The names of a list (MaterialData.cpp 104-115): `find(" ")`, `substr(0, i)`, `substr(i + 1)` until no blank is found, as
a recursion over the characters. -/
def splitNames : Str → List Str
  | [] => [[]]
  | c :: s =>
    match c == ' ', splitNames s with
    | true, ws => [] :: ws
    | false, w :: ws => (c :: w) :: ws
    | false, [] => [[c]]

/-- `property[name] = ..`. -/
def Dict.put (d : Dict K) (k : Str) (m : Mat K) : Dict K := fun s => if s = k then some (some m) else d s

/-- `MakeMixture` with a vector (MaterialData.cpp 120-133). -/
def makeMixture (d : Dict K) (name s : Str) (props : List K) (density : K) : Outcome Exn (Dict K) :=
  (mixture d (splitNames s) props density).bind fun m => .ok (d.put name m)

/-- The loop of `MakeMixtureByWeight` (MaterialData.cpp 160-171): `wproportions[c]` behind the end is undefined behaviour,
`property.at` throws. -/
def byWeight (d : Dict K) : List Str → List K → Outcome Exn (List K)
  | [], _ => .ok []
  | n :: ns, ws =>
    match ws, d n with
    | [], _ => .ub
    | _, none => .throw .range
    | _, some none => .ub
    | w :: ws', some (some m) => (byWeight d ns ws').bind fun l => .ok (w / m.p.A :: l)

/-- `MakeMixtureByWeight` with a vector (MaterialData.cpp 155-173). -/
def makeByWeight (d : Dict K) (name s : Str) (ws : List K) (density : K) : Outcome Exn (Dict K) :=
  (byWeight d (splitNames s) ws).bind fun q => (mixture d (splitNames s) q density).bind fun m => .ok (d.put name m)

end

/-! ## The standard table -/

section
variable {K : Type} [Field K] [LinearOrder K]

/-- The elements (MaterialData.cpp 28-42): name, A, sigma_T, sigma_I, sigma_R, dE/dx, X0, density in g/cc (a thousand in
the units of the code), Z. -/
def elements : List (String × Props K) :=
  [("Al", ⟨269815 / 10000, 634 / 1000, 421 / 1000, 34 / 100000, 1724 / 1000, 2401 / 100, 1204, 13⟩),
   ("Be", ⟨901218 / 100000, 268 / 1000, 199 / 1000, 35 / 1000000, 1594 / 1000, 6519 / 100, 1848, 4⟩),
   ("C", ⟨12011 / 1000, 331 / 1000, 231 / 1000, 76 / 1000000, 1745 / 1000, 427 / 10, 2265, 6⟩),
   ("Cu", ⟨63546 / 1000, 1232 / 1000, 782 / 1000, 153 / 100000, 1403 / 1000, 1286 / 100, 8960, 29⟩),
   ("Pb", ⟨2072 / 10, 296 / 100, 171 / 100, 907 / 100000, 1123 / 1000, 637 / 100, 11350, 82⟩),
   ("Si", ⟨281 / 10, 653 / 1000, 432 / 1000, 39 / 100000, 1664 / 1000, 2182 / 100, 2330, 14⟩),
   ("W", ⟨18384 / 100, 2767 / 1000, 165 / 100, 768 / 100000, 1145 / 1000, 676 / 100, 19300, 74⟩),
   ("O", ⟨159994 / 10000, -1, -1, 133766 / 10000000, -1, -1, 1140, 8⟩),
   ("Fe", ⟨55845 / 1000, -1, -1, -1, -1, -1, 7879, 26⟩),
   ("Ni", ⟨586934 / 10000, -1, -1, -1, -1, -1, 8900, 28⟩),
   ("Mo", ⟨9596 / 100, -1, -1, -1, -1, -1, 10200, 42⟩)]

/-- The dictionary of the elements, without the extra values. -/
def elementDict : Dict K := fun s => ((elements (K := K)).find? fun x => x.1.toList == s).map fun x => some (new x.2)

/-- The constructor of `StandardMaterialData` (MaterialData.cpp 26-67), without the extra values: the elements, `AC150K` as
a changed copy of carbon, and two mixtures. -/
def standard : Outcome Exn (Dict K) :=
  let d1 : Dict K := match (elementDict (K := K)) "C".toList with
    | some (some c) => elementDict.put "AC150K".toList
        { copy c with p := { c.p with dEdx := 68 / 100, density := 1650 } }
    | _ => elementDict
  (makeMixture d1 "IT180".toList "W Ni Cu".toList [95 / 100, 35 / 100, 15 / 100] 18060).bind fun d2 =>
    makeByWeight d2 "Glidcop".toList "Cu Al O".toList [9972 / 10000, 15 / 10000, 13 / 10000] 8930

/-- One loop of `UseSixTrackValues` over an array of names with an array of values: reading behind the end of the values is
undefined behaviour; so is the use of the null pointer that `property[name]` makes for a new name. -/
def setValues (f : Props K → K → Props K) : List String → List K → Dict K → Outcome Exn (Dict K)
  | [], _, d => .ok d
  | n :: ns, vs, d =>
    match vs, d n.toList with
    | v :: vs', some (some m) => setValues f ns vs' (d.put n.toList { m with p := f m.p v })
    | _, _ => .ub

/-- `UseSixTrackValues` (MaterialData.cpp 69-90). -/
def useSixTrack (d : Dict K) : Outcome Exn (Dict K) :=
  (setValues (fun p v => { p with sT := v }) ["Be", "C", "Al", "Fe", "Cu", "W", "Pb"]
    [268 / 1000, 331 / 1000, 1232 / 1000, 2767 / 1000, 2960 / 1000] d).bind fun d =>
  (setValues (fun p v => { p with sI := v }) ["C", "Al", "Cu", "W"] [231 / 1000, 421 / 1000, 782 / 1000, 165 / 100] d).bind
    fun d =>
  (setValues (fun p v => { p with sR := v }) ["C", "O", "Al", "Cu", "W"]
    [76 / 1000000, 133766 / 10000000, 34 / 100000, 153 / 100000, 768 / 100000] d).bind fun d =>
  setValues (fun p v => { p with dEdx := v }) ["C", "Al", "Cu", "W", "AC150K"] [68 / 100, 81 / 100, 269 / 100, 579 / 100,
    68 / 100] d

end

end Verif.Material
