import Verif.Bunch.Model

/-!
# Model of the exchange of particles between processes

Merlin++/ParticleBunch.cpp 514-785 (built with `ENABLE_MPI`).  Messages arrive unchanged and in order.  The state is the
list of the particles of each process, that of the master (rank 0) first.
-/

namespace Verif.Bunch
open Verif

variable {K : Type}

/-- `coords`: size of a `PSvector` in doubles (ParticleBunch.cpp 141; six doubles and an id of 64 bits,
PSvector.h 150-154). -/
def coordsCode : Nat := 7

/-- A particle in memory: `none` are coordinates and ids that were never set. -/
structure Mem (K : Type) where
  v : Coord → Option K
  pid : Option Int

/-- A particle of a bunch. -/
def mem (p : Particle K) : Mem K := ⟨fun i => some (p.v i), p.pid⟩

/-- One particle in a send buffer (ParticleBunch.cpp 627-640 and 672-686): `coords` cells of which the first six are
written. -/
def pack (coords : Nat) (p : Mem K) : List (Option K) :=
  (List.range coords).map fun j => if h : j < 6 then p.v ⟨j, h⟩ else none

/-- The loop that reads one particle from a buffer (ParticleBunch.cpp 551-554, 605-608, 707-710).  `operator[]` asserts
that the index is below six (PSvector.h 108-112). -/
def unpackLoop (cells : List (Option K)) : Nat → Nat → (Coord → Option K) → Outcome Unit (Coord → Option K)
  | 0, _, v => .ok v
  | fuel + 1, j, v =>
    if h : j < 6 then
      match cells[j]? with
      | some x => unpackLoop cells fuel (j + 1) (Function.update v ⟨j, h⟩ x)
      | none => .ub
    else .ub

/-- One particle from a buffer; its id is not set. -/
def unpack (coords : Nat) (cells : List (Option K)) : Outcome Unit (Mem K) :=
  (unpackLoop cells coords 0 (fun _ => none)).bind fun v => .ok ⟨v, none⟩

/-- A sequence of buffers of one particle each. -/
def unpackAll (coords : Nat) : List (List (Option K)) → Outcome Unit (List (Mem K))
  | [] => .ok []
  | c :: l => (unpack coords c).bind fun p => (unpackAll coords l).bind fun q => .ok (p :: q)

/-- The nodes receive their parts (ParticleBunch.cpp 571-615, 692-696). -/
def sendNodes (coords ppn : Nat) (buf : List (List (Option K))) : List Nat → Outcome Unit (List (List (Mem K)))
  | [] => .ok []
  | n :: l => (unpackAll coords ((buf.drop (ppn * n)).take ppn)).bind fun p =>
    (sendNodes coords ppn buf l).bind fun q => .ok (p :: q)

/-- `distribute` on `size ≥ 1` processes (ParticleBunch.cpp 655-719, 757-785): what the master and the nodes hold
afterwards.  What the nodes held before is cleared. -/
def distribute (coords size : Nat) (master : List (Mem K)) : Outcome Unit (List (Mem K) × List (List (Mem K))) :=
  let ppn := master.length / size
  let buf := master.map (pack coords)
  (sendNodes coords ppn buf (List.range (size - 1))).bind fun nodes =>
    (unpackAll coords (buf.drop (ppn * (size - 1)))).bind fun m => .ok (m, nodes)

/-- What the master receives from the nodes (ParticleBunch.cpp 514-566, 617-653). -/
def gatherLoop (coords : Nat) : List (List (Mem K)) → Outcome Unit (List (Mem K))
  | [] => .ok []
  | node :: l => (unpackAll coords (node.map (pack coords))).bind fun p =>
    (gatherLoop coords l).bind fun q => .ok (p ++ q)

/-- `gather` (ParticleBunch.cpp 722-754): the nodes send what they have, keep it, and the master appends it in the order
of the ranks. -/
def gather (coords : Nat) (s : List (Mem K) × List (List (Mem K))) :
    Outcome Unit (List (Mem K) × List (List (Mem K))) :=
  (gatherLoop coords s.2).bind fun p => .ok (s.1 ++ p, s.2)

end Verif.Bunch
