import Verif.Collimation.Model

/-!
# Specification of collimation
-/

namespace Verif.Collimation.Spec
open Verif Verif.Collimation

variable {K : Type} [Field K] [LinearOrder K]

/-- The index list belongs to the bunch. -/
def Aligned (st : State K) : Prop := ∀ l, st.pindex = some l → l.length = st.bunch.length

/-- A straight path over the length `l`. -/
def straight (l : K) (p : Part K) : Part K := { p with x := p.x + l * p.xp, y := p.y + l * p.yp }

/-- A particle as it is recorded: the length along the element, within it. -/
def recorded (length : K) (p : Part K) (z : K) : Part K := { p with ct := min length (max 0 (p.ct + z)) }

/-- The particles at entry of those outside now. -/
def lostInputs (c : Ctx K) (st : State K) : List (Part K) :=
  ((st.inputArray.zip st.bunch).filter fun q => !c.ap q.2.x q.2.y c.s).map (·.1)

/-- Where collimation is asked for. -/
def requested (length : K) (e m x : Bool) : List K :=
  (if e then [0] else []) ++ (if m then [length / 2] else []) ++ (if x then [length] else [])

/-- A medium that leaves the direction alone. -/
structure Undeflecting (md : Medium K) : Prop where
  loss : ∀ k p s, (md.energyLoss k p s).x = p.x ∧ (md.energyLoss k p s).y = p.y ∧
    (md.energyLoss k p s).xp = p.xp ∧ (md.energyLoss k p s).yp = p.yp
  straggle : ∀ k p s, md.straggle k p s = p
  scatter : ∀ k p q, md.scatter k p = some q → q = p
  parallel : ∀ p, md.zfac p = 1

/-- A medium that does nothing at all. -/
structure Transparent (md : Medium K) : Prop where
  loss : ∀ k p s, md.energyLoss k p s = p
  straggle : ∀ k p s, md.straggle k p s = p
  scatter : ∀ k p, md.scatter k p = some p

/-- A particle after `n` steps of `h` through the component. -/
def after (track : K → K → Part K → Part K) (h : K) : Nat → Part K → Part K
  | 0, p => p
  | n + 1, p => track (n * h) h (after track h n p)

/-- Inside the aperture after `n` steps. -/
def insideAfter (c : Ctx K) (h : K) (n : Nat) (p : Part K) : Bool :=
  c.ap (after c.track h n p).x (after c.track h n p).y (n * h)

/-- Outside the aperture after fewer than `N` steps. -/
def lostWithin (c : Ctx K) (h : K) (N : Nat) (p : Part K) : Bool := !((List.range N).all fun n => insideAfter c h n p)

end Verif.Collimation.Spec
