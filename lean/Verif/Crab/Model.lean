import Mathlib.Analysis.SpecialFunctions.Trigonometric.Basic
import Mathlib.Analysis.SpecialFunctions.Sqrt
import Verif.Common.Outcome

/-!
# Model of the crab cavity failure process

`CCFailureProcess` (Merlin++/CCFailureProcess.cpp).  Doubles are real numbers and `int` has no bounds; a division by zero is
undefined behaviour here, and so is an index outside an array.  The optics are parameters: the number of an element by its
name (`FindElementLatticePosition`, AcceleratorModel.cpp 384-396), the phase advance up to an element in units of 2π
(`PhaseAdvance::CalcIntegerPart`) and the beta functions of the table, which are taken as positive.  The output and what is
never read again (`Gamma_p`, `Beta_p`, `testn`, `Upstream_M12`) are left out, as is the bunch that is leaked.
-/

namespace Verif.Crab
open Verif Real

noncomputable section

/-- The optics the process is given. -/
structure Optics where
  find : String → Int
  mu : Int → ℝ × ℝ
  betaX : Int → ℝ
  betaY : Int → ℝ

/-- A marker of a crab cavity: its name and its place in the ring. -/
structure Marker where
  name : String
  pos : ℝ

/-- The counters of the cavities at one interaction point (CCFailureProcess.h 168-176). -/
structure Counter where
  up : Bool
  down : Bool
  upCount : Nat
  downCount : Nat
  deriving DecidableEq

/-- What is stored for the cavities before an interaction point (CCFailureProcess.h 178-189). -/
structure Store where
  v1 : Nat → ℝ
  elno : Nat → Int
  deltamu : Nat → ℝ

/-- `CCFailureProcess` (CCFailureProcess.h 156-206). -/
structure State where
  atlasOn : Bool
  cmsOn : Bool
  horizontal : Bool
  upstream : Bool
  atlas : Bool
  ip1 : Counter
  ip5 : Counter
  atlasStore : Store
  cmsStore : Store
  omega : ℝ
  theta : ℝ
  phi : ℝ
  nonFailTurns : Int
  failTurns : Int
  failureOn : Bool
  turn : Int

/-- Coordinates of a particle. -/
structure Particle where
  x : ℝ
  xp : ℝ
  y : ℝ
  yp : ℝ
  ct : ℝ
  dp : ℝ

/-- `SpeedOfLight` (PhysicalConstants.cpp 24). -/
def c : ℝ := 2.99792458e8

/-- `EnergyCC` (CCFailureProcess.cpp 62, 90, 128). -/
def energy : ℝ := 7e12

/-- `n` (CCFailureProcess.cpp 66, 91, 129). -/
def crabs : ℝ := 4

/-- Counters at the start (CCFailureProcess.cpp 38-45). -/
def Counter.zero : Counter := ⟨false, false, 0, 0⟩

/-- Arrays at the start (CCFailureProcess.cpp 50-60). -/
def Store.zero : Store := ⟨fun _ => 0, fun _ => 0, fun _ => 0⟩

/-- The constructor with all arguments (CCFailureProcess.cpp 109-142). -/
def mkTurns (freq crossing phase : ℝ) (nonFail fail : Int) : State :=
  ⟨true, true, false, false, false, .zero, .zero, .zero, .zero, freq, crossing, phase, nonFail, fail, true, 1⟩

/-- The constructor without the turns (CCFailureProcess.cpp 71-107). -/
def mkFreq (freq crossing phase : ℝ) : State := mkTurns freq crossing phase 10 3

/-- The constructor without cavity data (CCFailureProcess.cpp 30-69). -/
def mk : State := mkTurns (400.79e6 * 2 * π) (590e-6 / 2) 0 10 3

/-- `SetFailurePlanes` (CCFailureProcess.h 149-154). -/
def setPlanes (hor ver : Bool) (s : State) : State := { s with atlasOn := hor, cmsOn := ver }

/-- `SetFailureTurns` (CCFailureProcess.h 131-135). -/
def setFailTurns (n : Int) (s : State) : State := { s with failTurns := n }

/-- `SetNonFailureTurns` (CCFailureProcess.h 140-144). -/
def setNonFailTurns (n : Int) (s : State) : State := { s with nonFailTurns := n }

/-- `SetFailureOnOff` (CCFailureProcess.h 122-126). -/
def setFailure (b : Bool) (s : State) : State := { s with failureOn := b }

/-- Whether all cavities in use have been passed, and a new turn begins (CCFailureProcess.cpp 162-217). -/
def newTurn (s : State) : State :=
  if !s.atlasOn && !s.cmsOn then s
  else if s.atlasOn && s.cmsOn then
    if s.ip1.up && s.ip1.down && s.ip5.up && s.ip5.down then { s with turn := s.turn + 1, ip1 := .zero, ip5 := .zero } else s
  else if !s.atlasOn && s.cmsOn then
    if s.ip5.up && s.ip5.down then { s with turn := s.turn + 1, ip5 := .zero } else s
  else
    if s.ip1.up && s.ip1.down then { s with turn := s.turn + 1, ip1 := .zero } else s

/-- One more cavity before the interaction point (CCFailureProcess.cpp 227-236). -/
def Counter.goUp (k : Counter) : Counter := { k with upCount := k.upCount + 1, up := decide (k.upCount + 1 = 4) }

/-- One more cavity behind the interaction point (CCFailureProcess.cpp 244-253). -/
def Counter.goDown (k : Counter) : Counter := { k with downCount := k.downCount + 1, down := decide (k.downCount + 1 = 4) }

/-- The set a cavity belongs to, by its place (CCFailureProcess.cpp 219-287). -/
def place (pos : ℝ) (s : State) : State :=
  if 10000 ≤ pos ∧ pos ≤ 13200 then { s with upstream := true, atlas := false, horizontal := true, ip5 := s.ip5.goUp }
  else if 13300 ≤ pos ∧ pos ≤ 15000 then { s with upstream := false, atlas := false, horizontal := true, ip5 := s.ip5.goDown }
  else if pos ≤ 200 then { s with upstream := false, atlas := true, horizontal := false, ip1 := s.ip1.goDown }
  else if 20000 ≤ pos ∧ pos ≤ 30000 then { s with upstream := true, atlas := true, horizontal := false, ip1 := s.ip1.goUp }
  else s

/-- `SetCurrentComponent` (CCFailureProcess.cpp 153-296) at a marker of a cavity. -/
def setComponent (m : Marker) (s : State) : State := place m.pos (newTurn s)

/-- Division; by zero undefined. -/
def quot (a b : ℝ) : Outcome Unit ℝ := if b = 0 then .ub else .ok (a / b)

/-- The index `count - 1` into an array of four. -/
def index (count : Nat) : Outcome Unit Nat := if 1 ≤ count ∧ count ≤ 4 then .ok (count - 1) else .ub

/-- The beta function of a plane (CCFailureProcess.cpp 731-740). -/
def Optics.beta (o : Optics) (horizontal : Bool) (n : Int) : ℝ := if horizontal then o.betaX n else o.betaY n

/-- A pair by plane. -/
def plane (horizontal : Bool) (p : ℝ × ℝ) : ℝ := if horizontal then p.1 else p.2

/-- `sqrt(pow(x, 2)) * 2 * pi`, the phase of a phase advance (CCFailureProcess.cpp 346-347). -/
def phase (x : ℝ) : ℝ := √(x ^ 2) * 2 * π

/-- `CalcDeltaMu` (CCFailureProcess.cpp 818-829). -/
def Optics.deltaMu (o : Optics) (n1 n2 : Int) : ℝ × ℝ := ((o.mu n2).1 - (o.mu n1).1, (o.mu n2).2 - (o.mu n1).2)

/-- `CalcM_12` (CCFailureProcess.cpp 727-743) with a phase. -/
def m12 (o : Optics) (start «end» : Int) (deltamu : ℝ) (horizontal : Bool) : ℝ :=
  √(o.beta horizontal start * o.beta horizontal «end») * sin deltamu

/-- `CalcM_12` (CCFailureProcess.cpp 764-785) with the phase of the optics. -/
def m12' (o : Optics) (start «end» : Int) (horizontal : Bool) : ℝ :=
  m12 o start «end» (phase (plane horizontal (o.deltaMu start «end»))) horizontal

/-- `CalcM_22` (CCFailureProcess.cpp 745-762). -/
def m22 (o : Optics) (start «end» : Int) (deltamu : ℝ) (horizontal : Bool) : Outcome Unit ℝ :=
  (quot (o.beta horizontal start) (o.beta horizontal «end»)).bind fun q => .ok (√q * cos deltamu)

/-- `CalcV1` (CCFailureProcess.cpp 831-834). -/
def calcV1 (s : State) (m12 : ℝ) : Outcome Unit ℝ := quot (c * energy * tan s.theta) (s.omega * m12 * crabs)

/-- `CalcV2` (CCFailureProcess.cpp 850-853). -/
def calcV2 (v1 m22 : ℝ) : ℝ := -1 * m22 * v1

/-- `ApplyPreCCKick` and `ApplyPostCCKick` (CCFailureProcess.cpp 855-887), which are the same. -/
def kick (s : State) (v : ℝ) (p : Particle) : Particle :=
  let k := v * sin (s.phi + p.ct * (s.omega / c)) / energy
  if s.horizontal then { p with xp := p.xp - k } else { p with yp := p.yp - k }

/-- Set one entry of an array. -/
def put {α : Type} (f : Nat → α) (i : Nat) (x : α) : Nat → α := fun j => if j = i then x else f j

/-- Store what belongs to a cavity before the interaction point (CCFailureProcess.cpp 399-402). -/
def Store.put (t : Store) (i : Nat) (n1 : Int) (v1 deltamu : ℝ) : Store :=
  ⟨Crab.put t.v1 i v1, Crab.put t.elno i n1, Crab.put t.deltamu i deltamu⟩

/-- The voltage while it fails (CCFailureProcess.cpp 423-428); a failure of zero turns does not get here. -/
def failing (s : State) (v1 : ℝ) : ℝ := v1 * (1 - ((s.turn + 1 - s.nonFailTurns : Int) : ℝ) * (1 / (s.failTurns : ℝ)))

/-- The interaction point of a set of cavities (CCFailureProcess.cpp 333-340). -/
def Optics.ip (o : Optics) (atlas : Bool) : Int := if atlas then o.find "IP1.L1" else o.find "IP5" + 1

/-- `DoProcess` with both planes (CCFailureProcess.cpp 310-488). -/
def doBoth (o : Optics) (m : Marker) (s : State) (ps : List Particle) : Outcome Unit (State × List Particle) :=
  let n1 := o.find m.name
  let n2 := o.ip s.atlas
  if s.upstream then
    let deltamu := phase (plane s.horizontal (o.deltaMu n1 n2))
    (calcV1 s (m12' o n1 n2 s.horizontal)).bind fun v1 =>
    (index (if s.atlas then s.ip1.upCount else s.ip5.upCount)).bind fun i =>
    let s' := if s.atlas then { s with atlasStore := s.atlasStore.put i n1 v1 deltamu }
      else { s with cmsStore := s.cmsStore.put i n1 v1 deltamu }
    let v := if s.atlas && decide (s.nonFailTurns ≤ s.turn) && s.failureOn then failing s v1 else v1
    .ok (s', if s.atlas then ps.map (kick s v) else ps)
  else if s.atlas then
    (index s.ip1.downCount).bind fun i =>
    let deltamu := phase (o.mu n1).2 + s.atlasStore.deltamu i
    (m22 o (s.atlasStore.elno i) n1 deltamu s.horizontal).bind fun m22 =>
    .ok (s, ps.map (kick s (calcV2 (s.atlasStore.v1 i) m22)))
  else
    (index s.ip1.downCount).bind fun j =>
    (index s.ip5.downCount).bind fun i =>
    let deltamu := phase (o.deltaMu n1 n2).1 + s.cmsStore.deltamu j
    (m22 o (s.cmsStore.elno i) n1 deltamu s.horizontal).bind fun _ => .ok (s, ps)

/-- `DoProcess` with ATLAS only (CCFailureProcess.cpp 490-611). -/
def doAtlas (o : Optics) (m : Marker) (s : State) (ps : List Particle) : Outcome Unit (State × List Particle) :=
  let n1 := o.find m.name
  let n2 := o.ip true
  if s.upstream then
    (calcV1 s (m12' o n1 n2 s.horizontal)).bind fun v1 =>
    (index s.ip1.upCount).bind fun i =>
    .ok ({ s with atlasStore := s.atlasStore.put i n1 v1 (phase (o.deltaMu n1 n2).2), phi := 0 }, ps.map (kick s v1))
  else
    (index s.ip1.downCount).bind fun i =>
    let deltamu := phase (o.mu n1).2 + s.atlasStore.deltamu i
    (m22 o (s.atlasStore.elno i) n1 deltamu s.horizontal).bind fun m22 =>
    let phi := if decide (s.nonFailTurns ≤ s.turn) && s.failureOn then
        ((s.turn - (s.nonFailTurns - 1) : Int) : ℝ) * (1 / (s.failTurns : ℝ)) * (90 * (2 * π) / 360) else s.phi
    .ok ({ s with phi := 0 }, ps.map (kick { s with phi := phi } (calcV2 (s.atlasStore.v1 i) m22)))

/-- `DoProcess` with CMS only (CCFailureProcess.cpp 613-724). -/
def doCms (o : Optics) (m : Marker) (s : State) (ps : List Particle) : Outcome Unit (State × List Particle) :=
  let n1 := o.find m.name
  let n2 := o.ip false
  if s.upstream then
    (calcV1 s (m12' o n1 n2 s.horizontal)).bind fun v1 =>
    (index s.ip5.upCount).bind fun i =>
    let v := if decide (s.nonFailTurns ≤ s.turn) && s.failureOn then failing s v1 else v1
    .ok ({ s with cmsStore := s.cmsStore.put i n1 v1 (phase (o.deltaMu n1 n2).1) }, ps.map (kick s v))
  else
    (index s.ip5.downCount).bind fun i =>
    let deltamu := phase (o.deltaMu n1 n2).1 + s.cmsStore.deltamu i
    (m22 o (s.cmsStore.elno i) n1 deltamu s.horizontal).bind fun m22 =>
    .ok (s, ps.map (kick s (calcV2 (s.cmsStore.v1 i) m22)))

/-- `DoProcess` (CCFailureProcess.cpp 303-725). -/
def doProcess (o : Optics) (m : Marker) (s : State) (ps : List Particle) : Outcome Unit (State × List Particle) :=
  if s.turn < s.nonFailTurns + s.failTurns then
    if s.atlasOn && s.cmsOn then doBoth o m s ps
    else if s.atlasOn && s.atlas then doAtlas o m s ps
    else if s.cmsOn && !s.atlasOn && !s.atlas then doCms o m s ps
    else .ok (s, ps)
  else .ok (s, ps)

/-- A bunch passes a cavity. -/
def pass (o : Optics) (m : Marker) (r : State × List Particle) : Outcome Unit (State × List Particle) :=
  doProcess o m (setComponent m r.1) r.2

end

end Verif.Crab
