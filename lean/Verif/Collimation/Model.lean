import Mathlib.Algebra.Order.Field.Basic
import Verif.Common.Outcome

/-!
# Model of collimation

Merlin++/CollimateParticleProcess.cpp and CollimateProtonProcess.cpp.  Doubles are elements of an ordered field, and
`fequal` is equality.
-/

namespace Verif.Collimation
open Verif

variable {K : Type} [Field K] [LinearOrder K]

/-- A particle (PSvector.h). -/
structure Part (K : Type) where
  x : K
  xp : K
  y : K
  yp : K
  ct : K
  dp : K
  id : Int
  deriving DecidableEq

/-- A call of `Dispose` of the outputs: position in the component and particle. -/
structure Disposal (K : Type) where
  pos : K
  p : Part K
  deriving DecidableEq

/-- `CheckWithinApertureBoundaries(x, y, s)`. -/
abbrev Aper (K : Type) := K → K → K → Bool

/-- State of the process (CollimateParticleProcess.h 168-230) with its bunch. -/
structure State (K : Type) where
  bunch : List (Part K)
  pindex : Option (List Nat)
  nstart : Nat
  nlost : Nat
  lossThreshold : K
  inputArray : List (Part K)
  binSize : K
  disposed : List (Disposal K)
  deriving DecidableEq

/-- What `DoCollimation` uses of the current component and the step; `scatter` is the `k`-th call of `DoScatter`: the
particle afterwards, whether it is absorbed, and the calls of `Dispose`; `track` is the motion by `TrackStep` from a
position in the component over a length. -/
structure Ctx (K : Type) where
  ap : Aper K
  isCollimator : Bool
  s : K
  length : K
  scatter : Nat → Part K → Part K × Bool × List (Disposal K)
  track : K → K → Part K → Part K

/-- `InitialiseProcess` (CollimateParticleProcess.cpp 68-85). -/
def initialise (st : State K) (bunch : List (Part K)) : State K :=
  { st with
    bunch := bunch, nstart := bunch.length, nlost := 0
    pindex := st.pindex.map fun _ => List.range bunch.length }

/-- The copy made by `SetCurrentComponent` (CollimateParticleProcess.cpp 128-134). -/
def enter (c : Ctx K) (st : State K) : State K :=
  if !c.isCollimator then { st with inputArray := st.bunch } else st

/-- Is the particle inside, where it is checked (CollimateParticleProcess.cpp 215-238). -/
def inside (c : Ctx K) (binSize : K) (p : Part K) : Bool :=
  if c.isCollimator then c.ap (p.x - binSize * p.xp) (p.y - binSize * p.yp) c.s else c.ap p.x p.y c.s

/-- The first particle outside (CollimateParticleProcess.cpp 208-241). -/
def firstLoss (c : Ctx K) (binSize : K) (ps : List (Part K)) : Option Nat := ps.findIdx? fun p => !inside c binSize p

/-- The drift back at collimators (CollimateParticleProcess.cpp 264-272). -/
def back (c : Ctx K) (binSize : K) (p : Part K) : Part K :=
  if c.isCollimator then { p with x := p.x - binSize * p.xp, y := p.y - binSize * p.yp } else p

/-- The drift forward of particles that pass (CollimateParticleProcess.cpp 319-323). -/
def forward (c : Ctx K) (binSize : K) (p : Part K) : Part K :=
  if c.isCollimator then { p with x := p.x + binSize * p.xp, y := p.y + binSize * p.yp } else p

/-- What the loop over the particles computes. -/
structure Sorted (K : Type) where
  kept : List (Part K)
  lost : List (Part K)
  positions : List Nat
  pindex : Option (List Nat)
  lostIndex : List Nat
  disposed : List (Disposal K)
  deriving DecidableEq

/-- `*ip` and the rest of the index list; undefined at the end. -/
def popIndex : Option (List Nat) → Outcome Unit (Option (Nat × List Nat))
  | none => .ok none
  | some [] => .ub
  | some (i :: l) => .ok (some (i, l))

/-- The loop that sorts particles (CollimateParticleProcess.cpp 274-331), from the particle `n` on. -/
def sortLoop (c : Ctx K) (binSize : K) (first : Nat) : Nat → List (Part K) → Option (List Nat) → Outcome Unit (Sorted K)
  | _, [], idx => .ok ⟨[], [], [], idx, [], []⟩
  | n, p :: ps, idx =>
    (popIndex idx).bind fun top =>
      (sortLoop c binSize first (n + 1) ps (top.map (·.2))).bind fun r =>
        let keep (q : Part K) (d : List (Disposal K)) : Sorted K :=
          { r with kept := q :: r.kept, pindex := r.pindex.map fun l => (top.map (·.1)).toList ++ l,
                   disposed := d ++ r.disposed }
        let lose (q : Part K) (d : List (Disposal K)) : Sorted K :=
          { r with lost := q :: r.lost, positions := n :: r.positions,
                   lostIndex := (top.map (·.1)).toList ++ r.lostIndex, disposed := d ++ r.disposed }
        if first ≤ n ∧ ¬ c.ap p.x p.y c.s then
          if !c.isCollimator then .ok (lose p [])
          else
            let t := c.scatter n p
            if t.2.1 then .ok (lose { t.1 with ct := t.1.ct + (c.s - binSize) } t.2.2) else .ok (keep t.1 t.2.2)
        else .ok (keep (forward c binSize p) [])

/-- `InputArray[*p]` for the particles lost (CollimateParticleProcess.cpp 356-359); an index beyond the end is
undefined. -/
def pick (input : List (Part K)) : List Nat → Outcome Unit (List (Part K))
  | [] => .ok []
  | n :: l => match input[n]? with
    | none => .ub
    | some p => (pick input l).bind fun q => .ok (p :: q)

/-- Length along the element, within it (CollimateParticleProcess.cpp 401-411). -/
def clamp (length : K) (p : Part K) (z : K) : Part K :=
  let ct := p.ct + z
  let ct := if ct < 0 then 0 else ct
  { p with ct := if ct > length then length else ct }

/-- The loop that tracks the lost particles again (CollimateParticleProcess.cpp 369-435): remaining length, length
tracked, particles.  Results: calls of `Dispose` and particles left.  `none` when `fuel` does not suffice. -/
def retrack (c : Ctx K) (binSize : K) : Nat → K → K → List (Part K) → Option (List (Disposal K) × List (Part K))
  | 0, _, _, _ => none
  | fuel + 1, r, z, ps =>
    if 0 ≤ r ∧ ps.length ≠ 0 then
      let step := if r - binSize < 0 then r else binSize
      let out := (ps.filter fun p => !c.ap p.x p.y z).map fun p => (⟨z, clamp c.length p z⟩ : Disposal K)
      let ps := ps.filter fun p => c.ap p.x p.y z
      let t := if r > 0 then (r - step, z + step, ps.map (c.track z step)) else (r, z, ps)
      if t.1 = 0 then some (out, t.2.2)
      else (retrack c binSize fuel t.1 t.2.1 t.2.2).map fun q => (out ++ q.1, q.2)
    else some ([], ps)

/-- `ExcessiveParticleLoss`. -/
structure Excessive where
  nlost : Nat
  nstart : Nat
  deriving DecidableEq

/-- Result of `DoCollimation`: the state, and the exception thrown if there is one. -/
abbrev Result (K : Type) := State K × Option Excessive

/-- `DoCollimation` (CollimateParticleProcess.cpp 203-478). -/
def doCollimation (fuel : Nat) (c : Ctx K) (st : State K) : Outcome Unit (Result K) :=
  match firstLoss c st.binSize st.bunch with
  | none => .ok (st, none)
  | some first =>
    (sortLoop c st.binSize first 0 (st.bunch.map (back c st.binSize)) st.pindex).bind fun r =>
      let finish (n : Nat) (d : List (Disposal K)) : Outcome Unit (Result K) :=
        let nlost := st.nlost + n
        let st := { st with bunch := r.kept, pindex := r.pindex, inputArray := [], nlost := nlost,
                            disposed := st.disposed ++ r.disposed ++ d }
        .ok (st, if (nlost : K) / (st.nstart : K) ≥ st.lossThreshold then some ⟨nlost, st.nstart⟩ else none)
      if r.positions.length ≠ 0 ∧ !c.isCollimator ∧ c.length ≠ 0 then
        (pick st.inputArray r.positions).bind fun ps =>
          match retrack c st.binSize fuel c.length 0 ps with
          | none => .ub
          | some q => finish (q.1.length + q.2.length) q.1
      else finish r.lost.length []

/-! ## Index lists -/

/-- What `pindex` points to: nothing, the `k`-th list the process allocated, or a list of the user. -/
inductive Ptr | null | own (k : Nat) | user
  deriving DecidableEq

/-- The pointer, the number of lists allocated, and the lists deleted. -/
structure Heap where
  ptr : Ptr
  made : Nat
  freed : List Ptr
  deriving DecidableEq

/-- Calls that change the pointer. -/
inductive IdxOp | on | off | give
  deriving DecidableEq

/-- `IndexParticles(bool)` and `IndexParticles(list&)` (CollimateParticleProcess.cpp 175-197). -/
def idxStep (h : Heap) : IdxOp → Heap
  | .on => if h.ptr = .null then { h with ptr := .own h.made, made := h.made + 1 } else h
  | .off => if h.ptr ≠ .null then { h with ptr := .null, freed := h.freed ++ [h.ptr] } else h
  | .give => { h with ptr := .user }

/-- The destructor (CollimateParticleProcess.cpp 60-66). -/
def destroy (h : Heap) : Heap := if h.ptr ≠ .null then { h with freed := h.freed ++ [h.ptr] } else h

/-- A process from its constructor to its destructor. -/
def lifetime (l : List IdxOp) : Heap := destroy (l.foldl idxStep ⟨.null, 0, []⟩)

/-! ## Turns -/

/-- Counting of turns in `SetCurrentComponent` (CollimateParticleProcess.cpp 89-99): the first element, if it is set, and
the turn. -/
def countTurn (st : Option (String × K) × Nat) (c : String × K) : Option (String × K) × Nat :=
  match st.1 with
  | none => (some c, 1)
  | some f => if c.1 = f.1 ∧ c.2 = f.2 then (some f, st.2 + 1) else (some f, st.2)

/-! ## Positions -/

/-- The flags and the next position of hard-edge collimation. -/
structure Points (K : Type) where
  entr : Bool
  cent : Bool
  exit : Bool
  nextS : K
  active : Bool
  deriving DecidableEq

/-- `SetNextS` (CollimateParticleProcess.cpp 480-504) where there is no scattering. -/
def setNextS (length : K) (p : Points K) : Points K :=
  if p.entr then { p with nextS := 0, entr := false }
  else if p.cent then { p with nextS := length / 2, cent := false }
  else if p.exit then { p with nextS := length, exit := false }
  else { p with active := false }

/-- `SetCurrentComponent` for the positions asked for (CollimateParticleProcess.cpp 101-118). -/
def begin_ (length : K) (e m x : Bool) (old : K) : Points K := setNextS length ⟨e, m, x, old, true⟩

/-- `DoProcess` (CollimateParticleProcess.cpp 143-161): position, points, and whether collimation was done. -/
def doProcess (length : K) (s : K) (p : Points K) (ds : K) : K × Points K × Bool :=
  let s := s + ds
  if s = p.nextS then (s, setNextS length p, true) else (s, p, false)

/-- Steps of the process while it is active, none of which is longer than `GetMaxAllowedStepSize`
(CollimateParticleProcess.cpp 163-173): the positions where collimation was done; `none` for a step too long. -/
def runSteps (length : K) : K → Points K → List K → Option (List K)
  | _, _, [] => some []
  | s, p, ds :: l =>
    if !p.active then some []
    else if p.nextS - s < ds then none
    else
      let t := doProcess length s p ds
      (runSteps length t.1 t.2.1 l).map fun q => if t.2.2 then t.1 :: q else q

/-! ## Scattering in collimators -/

/-- The scattering model: draws of `PathLength`, `EnergyLoss`, `Straggle`, and `ParticleScatter`, which gives `none` for
a particle that is lost.  `zfac` is `sqrt(1 - xp² - yp²)`. -/
structure Medium (K : Type) where
  e0 : K
  pathLength : Nat → K
  energyLoss : Nat → Part K → K → Part K
  straggle : Nat → Part K → K → Part K
  scatter : Nat → Part K → Option (Part K)
  zfac : Part K → K

/-- The loop of `CollimateProtonProcess::DoScatter` (CollimateProtonProcess.cpp 88-200): draw, position, length to go and
particle.  Results: the particle, whether it is absorbed, the calls of `Dispose`.  `none` when `fuel` does not
suffice. -/
def scatterLoop (md : Medium K) (ap : Aper K) : Nat → Nat → K → K → Part K → Option (Part K × Bool × List (Disposal K))
  | 0, _, _, _, _ => none
  | fuel + 1, k, z, togo, p =>
    if togo > 0 then
      let xlen := md.pathLength k
      let interacted := togo > xlen
      let step := if interacted then xlen else togo
      let zstep := step * md.zfac p
      let p := { p with x := p.x + step * p.xp, y := p.y + step * p.yp }
      let p := md.energyLoss k p step
      let e2 := md.e0 * (1 + p.dp)
      if e2 ≤ 1 then
        let p := { p with ct := z }
        some (p, true, [⟨z + zstep, p⟩])
      else
        let p := md.straggle k p step
        if e2 < md.e0 / 100 then some (p, true, [])
        else
          let z := z + zstep
          let extrax := p.x + p.xp * togo
          let extray := p.y + p.yp * togo
          if ap p.x p.y z ∧ ap extrax extray (z + togo) then some ({ p with x := extrax, y := extray }, false, [])
          else if xlen > togo then some (p, false, [])
          else
            match (if interacted then md.scatter k p else some p) with
            | none =>
              let p := { p with ct := z }
              some (p, true, [⟨z + zstep, p⟩])
            | some p =>
              if p.dp < -(95 / 100) ∨ p.dp < -1 then
                let p := { p with ct := z }
                some (p, true, [⟨z + zstep, p⟩])
              else scatterLoop md ap fuel (k + 1) z (togo - step) p
    else some (p, false, [])

end Verif.Collimation
