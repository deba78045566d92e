import Verif.Tracking.Model

/-!
# Specification of tracking runs
-/

namespace Verif.Tracking.Spec
open Verif Verif.Tracking

variable {T C : Type}

/-- What a bunch meets in a frame: the way in, the patch at the entrance, the component, the patch at the exit
and the way out; in a flat lattice only the patches and the component; on the axis not the way in. -/
def visit (flat onAxis : Bool) (f : Frame T C) : List (Event T C) :=
  (if flat || onAxis then [] else [.transform f.entrance]) ++ f.inPatch.toList.map .transform ++
    f.comp.toList.map .track ++ f.outPatch.toList.map .transform ++ (if flat then [] else [.transform f.exit])

/-- A pass over a list of frames. -/
def visits (flat onAxis : Bool) : List (Frame T C) → List (Event T C)
  | [] => []
  | f :: fs => visit flat onAxis f ++ fs.flatMap (visit flat false)

/-- Calls that act on the bunch. -/
def Event.acts : Event T C → Bool
  | .transform _ => true
  | .track _ => true
  | _ => false

/-- The calls that act on the bunch, in order. -/
def action (l : List (Event T C)) : List (Event T C) := l.filter Event.acts

/-- The names recorded, in order. -/
def recorded (l : List (Event T C)) : List (List Char) :=
  l.filterMap (fun e => match e with | .record n => some n | _ => none)

/-- A frame of the output: a component whose name matches. -/
def wanted (o : Output) (f : Frame T C) : Bool :=
  f.comp.isSome && (o.all || o.ids.any (fun p => p.matches f.name))

end Verif.Tracking.Spec
