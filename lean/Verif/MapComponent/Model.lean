import Mathlib.Algebra.Group.Defs
import Verif.Common.Outcome

/-!
# Model of components that are given by a map

Source: `Merlin++/ParticleMapComponent.h`, `ParticleMapComponent.cpp`, `ParticleMap.h`, `LinearParticleMap.cpp` and `ParticleMapPI.cpp`.  What maps do to a
particle is an element of a group.  A failing assertion is undefined, as is the use of a component that there is not.
-/

namespace Verif.MapComponent

open Verif

variable {G P : Type}

/-- A `ParticleMap` (ParticleMap.h 22-38): one of the user, whose `Invert` does what its name says, or a `LinearParticleMap` (LinearParticleMap.h 20-30). -/
inductive PMap (G : Type) where
  | user (g : G)
  | linear (g : G)
deriving DecidableEq

/-- What the map does. -/
def PMap.val : PMap G → G
  | .user g => g
  | .linear g => g

/-- `Invert` (ParticleMap.h 33; LinearParticleMap.cpp 21-25 with `assert(false)`). -/
def PMap.invert [Group G] : PMap G → Outcome Empty (PMap G)
  | .user g => .ok (.user g⁻¹)
  | .linear _ => .ub

/-- All maps that were made, and for each component the address in `itsMap` (ParticleMapComponent.h 82). -/
structure St (G : Type) where
  maps : List (PMap G)
  comps : List Nat

/-- The constructor (ParticleMapComponent.cpp 21-25) with a new map. -/
def make (s : St G) (m : PMap G) : St G := ⟨s.maps ++ [m], s.comps ++ [s.maps.length]⟩

/-- `Copy` (ParticleMapComponent.cpp 32-35): the pointer is copied. -/
def copy (s : St G) (i : Nat) : Outcome Empty (St G) :=
  match s.comps[i]? with
  | none => .ub
  | some a => .ok ⟨s.maps, s.comps ++ [a]⟩

/-- `RotateY180` (ParticleMapComponent.cpp 42-45). -/
def rotate [Group G] (s : St G) (i : Nat) : Outcome Empty (St G) :=
  match s.comps[i]? with
  | none => .ub
  | some a =>
    match s.maps[a]? with
    | none => .ub
    | some m => m.invert.bind fun m' => .ok ⟨s.maps.set a m', s.comps⟩

/-- The map of a component. -/
def mapOf (s : St G) (i : Nat) : Option (PMap G) := s.comps[i]?.bind fun a => s.maps[a]?

/-- `ParticleMapCI::TrackStep` (ParticleMapPI.cpp 13-18) and `Apply` (ParticleMapComponent.h 91-94; LinearParticleMap.cpp 15-19) on the particles of a bunch. -/
def trackStep [SMul G P] (s : St G) (i : Nat) (ds : Int) (bunch : List P) : Outcome Empty (List P) :=
  if ds = 0 then
    match mapOf s i with
    | none => .ub
    | some m => .ok (bunch.map (m.val • ·))
  else .ub

/-- What a user can do with components. -/
inductive Op (G : Type) where
  | make (m : PMap G)
  | copy (i : Nat)
  | rotate (i : Nat)

def step [Group G] (s : St G) : Op G → Outcome Empty (St G)
  | .make m => .ok (make s m)
  | .copy i => copy s i
  | .rotate i => rotate s i

def run [Group G] (s : St G) : List (Op G) → Outcome Empty (St G)
  | [] => .ok s
  | o :: l => (step s o).bind fun s' => run s' l

end Verif.MapComponent
