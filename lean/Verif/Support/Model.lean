import Verif.Transform.Model
import Verif.Common.Outcome

/-!
# Model of support structures

Merlin++/SupportStructure.cpp, SupportStructure.h, AcceleratorSupport.h and AcceleratorSupport.cpp.  Doubles are elements
of an ordered field; the tolerance of `fequal` is the parameter `eps`.
-/

namespace Verif.Support
open Verif Verif.Rotation Verif.Transform

variable {K : Type} [Field K] [LinearOrder K]

/-- `AcceleratorSupport` (AcceleratorSupport.h 97-103): offset and flag.  The positions are in `Fixed`. -/
structure Sup (K : Type) where
  offset : V3 K
  modified : Bool

/-- The constructor (AcceleratorSupport.h 106-109). -/
def Sup.new : Sup K := ⟨⟨0, 0, 0⟩, false⟩

/-- `SetOffset` (AcceleratorSupport.h 128-137). -/
def Sup.set (_ : Sup K) (v : V3 K) : Sup K := ⟨v, true⟩

/-- `IncrementOffset` (AcceleratorSupport.h 144-153). -/
def Sup.increment (s : Sup K) (v : V3 K) : Sup K := ⟨vadd s.offset v, true⟩

/-- `Reset` (AcceleratorSupport.h 155-159). -/
def Sup.reset (_ : Sup K) : Sup K := ⟨⟨0, 0, 0⟩, true⟩

/-- The pointer `sup2`. -/
inductive Second (K : Type) where
  | null
  | uninitialised
  | sup (s : Sup K)

/-- `SupportStructure` (SupportStructure.h 82-103). -/
structure Structure (K : Type) where
  sup1 : Sup K
  sup2 : Second K
  rg : Rep K
  ts : T3 K

/-- What does not change: `GetGeometryTransform(entrance)`, the distance of the supports, and the functions used. -/
structure Fixed (K : Type) where
  tin : T3 K
  dist : K
  eps : K
  cos : K → K
  sin : K → K

/-- The constructor (SupportStructure.cpp 12-17). -/
def new (girder : Bool) : Structure K := ⟨.new, if girder then .sup .new else .null, .ident, .ident⟩

/-- The copy constructor (SupportStructure.cpp 19-27). -/
def copy (s : Structure K) : Structure K :=
  ⟨.new, match s.sup2 with | .sup _ => .sup .new | _ => .uninitialised, .ident, .ident⟩

/-- The transformation computed for a girder (SupportStructure.cpp 110-138). -/
def girderTransform (f : Fixed K) (rg : Rep K) (o1 o2 : V3 K) : T3 K :=
  let x1 := rg.rotate o1
  let x2 := rg.rotate o2
  if eq3 f.eps x1 x2 then T3.translation x1.x x1.y x1.z
  else
    let dx := vsub x2 x1
    let phix := -dx.y / f.dist
    let phiy := dx.x / f.dist
    let r := (rotationX f.cos f.sin phix).dot (rotationY f.cos f.sin phiy)
    let t1 : T3 K := ⟨x1, r⟩
    (f.tin.inv.mul t1).mul f.tin

/-- The transformation computed for a simple mount (SupportStructure.cpp 98-104). -/
def simpleTransform (rg : Rep K) (o1 : V3 K) : T3 K :=
  let x := rg.rotate o1
  T3.translation x.x x.y x.z

/-- `UpdateSupportTransform` (SupportStructure.cpp 83-146). -/
def update (f : Fixed K) (s : Structure K) : Outcome Unit (Structure K) :=
  match s.sup2 with
  | .uninitialised => if s.sup1.modified then .ub else .ok s
  | .null =>
    if !s.sup1.modified then .ok s
    else .ok { s with ts := simpleTransform s.rg s.sup1.offset, sup1 := { s.sup1 with modified := false } }
  | .sup s2 =>
    if !s.sup1.modified || !s2.modified then .ok s
    else .ok { s with ts := girderTransform f s.rg s.sup1.offset s2.offset, sup1 := { s.sup1 with modified := false },
                      sup2 := .sup { s2 with modified := false } }

/-- Operations of a user on the supports, and a look at the transformation of the frame. -/
inductive Op (K : Type) where
  | set1 (v : V3 K)
  | set2 (v : V3 K)
  | inc1 (v : V3 K)
  | inc2 (v : V3 K)
  | reset1
  | reset2
  | look

/-- Change of the second support, if there is one. -/
def Second.map (g : Sup K → Sup K) : Second K → Second K
  | .sup s => .sup (g s)
  | x => x

/-- One operation: the structure afterwards and the transformation `Ts` of `GetLocalFrameTransform` (SupportStructure.cpp
48-52) if it was asked for. -/
def step (f : Fixed K) (s : Structure K) : Op K → Outcome Unit (Structure K × List (T3 K))
  | .set1 v => .ok ({ s with sup1 := s.sup1.set v }, [])
  | .set2 v => .ok ({ s with sup2 := s.sup2.map (·.set v) }, [])
  | .inc1 v => .ok ({ s with sup1 := s.sup1.increment v }, [])
  | .inc2 v => .ok ({ s with sup2 := s.sup2.map (·.increment v) }, [])
  | .reset1 => .ok ({ s with sup1 := s.sup1.reset }, [])
  | .reset2 => .ok ({ s with sup2 := s.sup2.map (·.reset) }, [])
  | .look => (update f s).bind fun s => .ok (s, [s.ts])

/-- A sequence of operations: all transformations seen. -/
def run (f : Fixed K) : Structure K → List (Op K) → Outcome Unit (List (T3 K))
  | _, [] => .ok []
  | s, o :: l => (step f s o).bind fun r => (run f r.1 l).bind fun q => .ok (r.2 ++ q)

end Verif.Support
