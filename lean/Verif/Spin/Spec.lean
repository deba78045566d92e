import Verif.Spin.Model

/-!
# Specification of spin tracking
-/

namespace Verif.Spin.Spec
open Verif Verif.Rotation Verif.Spin

/-- The length of a vector, squared. -/
def len2 (v : V3 ℝ) : ℝ := v.x ^ 2 + v.y ^ 2 + v.z ^ 2

def dot (u v : V3 ℝ) : ℝ := u.x * v.x + u.y * v.y + u.z * v.z

def cross (u v : V3 ℝ) : V3 ℝ := ⟨u.y * v.z - u.z * v.y, u.z * v.x - u.x * v.z, u.x * v.y - u.y * v.x⟩

/-- The angular velocity of the Thomas-BMT equation per normalised field, in the frame of the particle: transverse fields
turn the spin by `1 + a γ`, longitudinal ones by `1 + a`; in a bend the frame itself turns with the vertical field. -/
def bmt (a gamma : ℝ) (turning : Bool) (b : V3 ℝ) : V3 ℝ :=
  let t : V3 ℝ := ⟨b.x, b.y, 0⟩
  let l : V3 ℝ := ⟨0, 0, b.z⟩
  ⟨-((1 + a * gamma) * t.x + (1 + a) * l.x),
   -((1 + a * gamma) * t.y + (1 + a) * l.y) + (if turning then b.y else 0),
   -((1 + a * gamma) * t.z + (1 + a) * l.z)⟩

/-- A bunch in which each particle carries its spin. -/
def ideal {P S : Type} (up : S) (le : P → P → Bool) (l : List (P × S)) : Op P S → Option (List (P × S))
  | .add p => some (l ++ [(p, up)])
  | .addWith p s => some (l ++ [(p, s)])
  | .erase i => if i < l.length then some (l.eraseIdx i) else none
  | .transform f g => some (l.map fun x => (f x.1, g x.2))
  | .sort => some (l.insertionSort fun a b => le a.1 b.1 = true)
  | .clear => some []
  | .swap ps => some (ps.map fun p => (p, up))

def idealRun {P S : Type} (up : S) (le : P → P → Bool) : List (P × S) → List (Op P S) → Option (List (P × S))
  | l, [] => some l
  | l, o :: os => (ideal up le l o).bind fun l => idealRun up le l os

/-- Operations that keep particles and spins together. -/
def Keeps {P S : Type} : Op P S → Prop
  | .sort => False
  | .clear => False
  | .swap _ => False
  | _ => True

end Verif.Spin.Spec
