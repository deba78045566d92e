import Verif.Wake.Model

/-!
# Model of the wake field process with couplers

Merlin++/CouplerWakeFieldProcess.cpp and CombinedWakeRF.h, on top of the model of WakeFieldProcess.cpp (Verif/Wake).  Doubles are
elements of an ordered field.  A division by zero, whose result is no number, is `ub`.  Wake potentials are known by the number
of their object; pointers are such numbers.
-/

namespace Verif.Coupler
open Verif Verif.Wake

variable {K : Type} [Field K] [LinearOrder K] [IsStrictOrderedRing K]

/-- `CombinedWakeRF` (CombinedWakeRF.h 32-59): the potentials, the wake and the kick of the couplers. -/
structure Combined (K : Type) where
  base : Potentials K
  wxy : K → K → K × K
  rf : K → K → K → K × K

/-- The members `phi`, `V`, `k` (CouplerWakeFieldProcess.h 36). -/
structure Rf (K : Type) where
  phi : K
  V : K
  k : K
  deriving DecidableEq

/-- `CalculateWakeT` (CouplerWakeFieldProcess.cpp 105-171) at boundary `i` of `nb + 1` for one coordinate: `pick` selects it,
`u` is the centroid of slices in it, and `xc`, `yc` the centroids in both.  `q` is `fabs(GetTotalCharge()) * ElectronCharge * Volt`. -/
def wakeT (c : Combined K) (m : Rf K) (q dz zmin clen : K) (nb : Nat) (Qd xc yc : Nat → K) (pick : K × K → K) (u : Nat → K) (i : Nat) : K :=
  let a0 := dz * q
  let cxy := if i < nb then pick (c.wxy (xc i) (yc i)) else 0
  let start := if i < nb then pick (c.rf (xc i) (yc i) (|m.phi| + m.k * (zmin + (i + 1 / 2) * dz))) * m.V / clen / a0 else 0
  ((List.range' i (nb - i)).foldl (fun s (j : Nat) =>
    let wxy := Qd j * c.base.trans (((j - i : Nat) + 1 / 2) * dz)
    s + wxy * u j + Qd j * cxy / clen) start) * a0

/-- The wakes at the boundaries (CouplerWakeFieldProcess.cpp 105-171). -/
def wakes (e : Env K) (c : Combined K) (m : Rf K) (clen : K) (s : Proc K) : Wakes K :=
  let q := |s.charge| * e.unit
  let xc := fun j => centroid Part.x (part s.ps s.bins j)
  let yc := fun j => centroid Part.y (part s.ps s.bins j)
  if s.inc then
    ⟨s.wz, wakeT c m q s.dz s.zmin clen s.nbins (fun j => s.Qd.getD j 0) xc yc Prod.fst xc,
      wakeT c m q s.dz s.zmin clen s.nbins (fun j => s.Qd.getD j 0) xc yc Prod.snd yc⟩
  else ⟨s.wz, fun _ => 0, fun _ => 0⟩

/-- The rest of `ApplyWakefield` (WakeFieldProcess.cpp 260-302) after the slices are up to date, with these wakes; the divisions by
the length and by `a0` (CouplerWakeFieldProcess.cpp 149-150, 163-164) may be by zero. -/
def kicks (e : Env K) (c : Combined K) (m : Rf K) (clen : K) (s : Proc K) : Outcome Unit (Proc K) :=
  if s.inc = true ∧ (clen = 0 ∨ s.dz * (|s.charge| * e.unit) = 0) then .ub
  else
    let l := (List.range s.nbins).foldl (turn clen s.p0 s.dz s.inc (wakes e c m clen s) s.bins) ⟨s.ps, 0, s.zmin⟩
    if c.base.csr then .ok { s with ps := l.ps }
    else
      let r := adjustRef (l.bload / l.ps.length) s.p0 l.ps
      .ok { s with ps := r.1, p0 := r.2 }

/-- `ApplyWakefield` (WakeFieldProcess.cpp 237-303) with these wakes. -/
def apply (e : Env K) (c : Combined K) (m : Rf K) (clen : K) (s : Proc K) : Outcome Unit (Proc K) :=
  (if s.recalc ∨ s.oldLen ≠ s.ps.length then s.init e c.base else .ok s).bind fun s => kicks e c m clen s

/-- `DoProcess` at the position of the impulse (WakeFieldProcess.cpp 206-218) with these wakes. -/
def impulse (e : Env K) (c : Combined K) (m : Rf K) (clen : K) (s : Proc K) : Outcome Unit (Proc K) :=
  (Proc.init e c.base { s with ps := e.sort s.ps }).bind fun s => apply e c m clen s

/-- The kinds of components that matter (CouplerWakeFieldProcess.cpp 80, 98). -/
inductive Kind (K : Type)
  | tw (rf : Rf K)
  | sw (rf : Rf K)
  | bend
  | other

/-- A component: its length, its wake potentials (number of the object, whether it is a `CombinedWakeRF`, and the process it
expects, by name) and its kind. -/
structure Component (K : Type) where
  length : K
  wake : Option (Nat × Bool × Option String)
  kind : Kind K

/-- The process: members of WakeFieldProcess.h 55-94 and CouplerWakeFieldProcess.h 35-36.  `own` is the pointer of the derived
class, `none` before it is set, `base` that of the base class, `none` for the null pointer. -/
structure State (K : Type) where
  proc : Proc K
  own : Option Nat
  base : Option Nat
  active : Bool
  clen : K
  impulseAt : K
  pos : K
  rf : Rf K
  centre : Bool

/-- The `CombinedWakeRF` of a component, if it has one (CouplerWakeFieldProcess.cpp 59). -/
def Component.combined (comp : Component K) : Option Nat :=
  match comp.wake with
  | some (n, true, _) => some n
  | _ => none

/-- The phase, voltage and wave number taken from a component (CouplerWakeFieldProcess.cpp 80-91). -/
def Kind.members : Kind K → Rf K
  | .tw rf => rf
  | _ => ⟨0, 0, 0⟩

/-- `SetCurrentComponent` (CouplerWakeFieldProcess.cpp 56-103), with a bunch.  The pointer of the derived class is only read when
`recalc` is false. -/
def setCurrent (e : Env K) (table : Nat → Combined K) (s : State K) (comp : Component K) : Outcome Unit (State K) :=
  match comp.combined with
  | some n =>
    let t := { s with clen := comp.length, impulseAt := if s.centre then comp.length / 2 else comp.length, pos := 0, active := true, rf := comp.kind.members }
    if s.proc.recalc then (s.proc.init e (table n).base).bind fun p => .ok { t with own := some n, base := some n, proc := p }
    else
      match s.own with
      | none => .ub
      | some o =>
        if n ≠ o then (s.proc.init e (table n).base).bind fun p => .ok { t with own := some n, base := some n, proc := p }
        else .ok t
  | none =>
    match comp.kind with
    | .bend => .ok { s with active := false, proc := { s.proc with recalc := true } }
    | _ => .ok { s with active := false }

/-- `InitialiseProcess` (WakeFieldProcess.cpp 422-427), which the derived class does not replace. -/
def initialise (s : State K) (ps : List (Part K)) (p0 qPer : K) : State K :=
  { s with base := none, proc := { s.proc with recalc := true, ps := ps, p0 := p0, qPer := qPer } }

/-- `DoProcess` (WakeFieldProcess.cpp 206-218): the long wake is that of the pointer of the base class, all others of the derived one;
`fequal` is taken as equality. -/
def doProcess (e : Env K) (table : Nat → Combined K) (ds : K) (s : State K) : Outcome Unit (State K) :=
  let s := { s with pos := s.pos + ds }
  if s.pos = s.impulseAt then
    match s.own, s.base with
    | some o, some b =>
      (impulse e { table o with base := ⟨(table b).base.long, (table o).base.trans, (table b).base.csr⟩ } s.rf s.clen s.proc).bind fun p =>
        .ok { s with proc := p, active := false }
    | _, _ => .ub
  else .ok s

/-- `WakeFieldProcess::SetCurrentComponent` (WakeFieldProcess.cpp 159-204): whether the plain process becomes active. -/
def plainActive (comp : Component K) : Bool :=
  match comp.wake with
  | some (_, _, none) => true
  | some (_, _, some n) => n == "WakeFieldProcess"
  | none => false

/-- The constructors (CouplerWakeFieldProcess.cpp 51-54, WakeFieldProcess.cpp 85-98). -/
def mk (nbins : Nat) (nsig : K) (filter : Option (List K)) : State K :=
  ⟨⟨nbins, nsig, filter, true, true, 0, 0, 0, [], [], [], fun _ => 0, [], 0, 0⟩, none, none, false, 0, 0, 0, ⟨0, 0, 0⟩, false⟩

end Verif.Coupler
