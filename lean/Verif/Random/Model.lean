/-!
# Model of `RandomNG`

Source: `Merlin++/RandomNG.cpp`, `Merlin++/RandomNG.h`.

Simplifications: the generator (`std::mt19937_64`) is an arbitrary type `G` with a function that
seeds it from a list of numbers and a function that produces the next number; distributions are
functions of these numbers, so only the numbers are modelled.  The automatic seed of `init()` and
`not_seeded` (RandomNG.cpp 16-26, RandomNG.h 119-124) is a given list.
-/

namespace Verif.Random

/-- A random number engine. -/
structure Engine (G : Type) where
  seed : List Nat → G
  next : G → Nat × G

/-- The static members (RandomNG.cpp 11-14). -/
structure State (G : Type) where
  masterSeed : List Nat
  generator : Option G
  store : List (Nat × G)

/-- At program start. -/
def State.start (G : Type) : State G := ⟨[], none, []⟩

variable {G : Type}

/-- `RandomNG::reset()` (RandomNG.cpp 40-44). -/
def reset (E : Engine G) (s : State G) : State G := { s with generator := some (E.seed s.masterSeed) }

/-- `RandomNG::init(seed)` and `reset(seed)` (RandomNG.cpp 28-38, 46-56). -/
def resetSeed (E : Engine G) (s : State G) (seed : List Nat) : State G :=
  reset E { s with masterSeed := seed }

/-- `if(!generator) not_seeded();` with the automatic seed `auto`. -/
def ensure (E : Engine G) (auto : List Nat) (s : State G) : State G :=
  match s.generator with
  | some _ => s
  | none => resetSeed E s auto

/-- A number from the main generator, as used by `normal`, `uniform`, `poisson`, `landau`
(RandomNG.cpp 63-120). -/
def drawMain (E : Engine G) (auto : List Nat) (s : State G) : Nat × State G :=
  let s := ensure E auto s
  match s.generator with
  | some g => let r := E.next g; (r.1, { s with generator := some r.2 })
  | none => (0, s)

/-- Conversion of `name_hash` to the element type of the seed vector (RandomNG.cpp 142, 158). -/
def hash32 (h : Nat) : Nat := h % 2 ^ 32

/-- Replace or add an entry of the `unordered_map`. -/
def put (h : Nat) (g : G) (l : List (Nat × G)) : List (Nat × G) :=
  (h, g) :: l.filter (fun p => p.1 ≠ h)

/-- `RandomNG::resetLocalGenerator` (RandomNG.cpp 151-163). -/
def resetLocal (E : Engine G) (auto : List Nat) (s : State G) (h : Nat) : State G :=
  let s := ensure E auto s
  { s with store := put h (E.seed (s.masterSeed ++ [hash32 h])) s.store }

/-- `RandomNG::getLocalGenerator` (RandomNG.cpp 127-149): the generator found or created. -/
def getLocal (E : Engine G) (auto : List Nat) (s : State G) (h : Nat) : State G × G :=
  let s := ensure E auto s
  match s.store.lookup h with
  | some g => (s, g)
  | none =>
    let g := E.seed (s.masterSeed ++ [hash32 h])
    ({ s with store := put h g s.store }, g)

/-- A number drawn from a local generator through the reference returned by `getLocalGenerator`. -/
def drawLocal (E : Engine G) (auto : List Nat) (s : State G) (h : Nat) : Nat × State G :=
  let p := getLocal E auto s h
  let r := E.next p.2
  (r.1, { p.1 with store := put h r.2 p.1.store })

/-- The calls of a program. -/
inductive Op where
  | main
  | loc (h : Nat)
  | resetLocal (h : Nat)
  | reset
  | resetSeed (seed : List Nat)
  deriving DecidableEq

/-- A call with its output, if any. -/
def step (E : Engine G) (auto : List Nat) (s : State G) : Op → Option Nat × State G
  | .main => let r := drawMain E auto s; (some r.1, r.2)
  | .loc h => let r := drawLocal E auto s h; (some r.1, r.2)
  | .resetLocal h => (none, resetLocal E auto s h)
  | .reset => (none, reset E s)
  | .resetSeed seed => (none, resetSeed E s seed)

/-- A program: the numbers it sees and the final state. -/
def run (E : Engine G) (auto : List Nat) : State G → List Op → List (Option Nat) × State G
  | s, [] => ([], s)
  | s, o :: os =>
    let r := step E auto s o
    let t := run E auto r.2 os
    (r.1 :: t.1, t.2)

end Verif.Random
