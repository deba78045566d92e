import Verif.Constructor.Model

/-!
# Specification of model construction
-/

namespace Verif.Constructor.Spec
open Verif Verif.Constructor

section
variable {K : Type} [Field K] [LinearOrder K]

/-- Brackets: number of frames open after the calls, none if a frame is ended that was not begun. -/
def opened : Nat → List (Op K) → Option Nat
  | n, [] => some n
  | n, .newFrame _ :: os => opened (n + 1) os
  | 0, .endFrame :: _ => none
  | n + 1, .endFrame :: os => opened n os
  | n, .append .. :: os => opened n os
  | n, .appendFrame .. :: os => opened n os
  | n, .add _ :: os => opened n os

mutual
/-- Component frames of a tree from upstream to downstream. -/
def leaves : Tree K → List (CFrame K)
  | .leaf f => [f]
  | .seq _ sub => leavesAll sub

/-- See `leaves`. -/
def leavesAll : List (Tree K) → List (CFrame K)
  | [] => []
  | t :: ts => leaves t ++ leavesAll ts
end

/-- Component frames appended by one call. -/
def appended (eps : K) : Op K → List (CFrame K)
  | .append f d drift => if |d| ≤ eps then [f] else [⟨drift.1, some drift.2, d⟩, f]
  | .appendFrame _ sub => leavesAll sub
  | _ => []

/-- Component frames appended by single calls, not as part of a ready-made sequence. -/
def single (eps : K) : Op K → List (CFrame K)
  | .append f d drift => if |d| ≤ eps then [f] else [⟨drift.1, some drift.2, d⟩, f]
  | _ => []

mutual
/-- Everything in a tree. -/
def members : Tree K → List Elem
  | .leaf f => .frame f.id :: (match f.comp with
    | some c => [.comp c]
    | none => [])
  | .seq id sub => .seq id :: membersAll sub

/-- See `members`. -/
def membersAll : List (Tree K) → List Elem
  | [] => []
  | t :: ts => members t ++ membersAll ts
end

/-- Elements brought in by one call. -/
def elements (eps : K) : Op K → List Elem
  | .newFrame id => [.seq id]
  | .endFrame => []
  | .append f d drift => membersAll ((appended eps (.append f d drift)).map .leaf)
  | .appendFrame id sub => members (.seq id sub)
  | .add e => [.other e]

mutual
/-- The calls that describe a tree: frames are begun and ended around their contents. -/
def calls : Tree K → List (Op K)
  | .leaf f => [.append f 0 (0, 0)]
  | .seq id sub => .newFrame id :: callsAll sub ++ [.endFrame]

/-- See `calls`. -/
def callsAll : List (Tree K) → List (Op K)
  | [] => []
  | t :: ts => calls t ++ callsAll ts
end

end

end Verif.Constructor.Spec
