import Verif.Resistive.Model

/-! # What is claimed about tables of collimator wakes -/

namespace Verif.Resistive.Spec

/-- Items with commas between them. -/
def commas : List (List Sym) → List Sym
  | [] => []
  | [x] => x
  | x :: y :: l => x ++ .comma :: commas (y :: l)

/-- A list in braces, after some filling. -/
def braces (fill : List Sym) (items : List (List Sym)) : List Sym := fill ++ .opening :: (commas items ++ [.closing])

/-- An array as nested lists; `n` blanks before each number. -/
def text (fill : List Sym) (n : Nat) (a : List (List (List ℚ))) : List Sym :=
  braces fill (a.map fun b => braces fill (b.map fun c => braces fill (c.map fun q => List.replicate n .blank ++ [.num q])))

/-- The parabola, in each variable, through nine values. -/
def through (v : Int → Int → ℚ) (x y : ℚ) : ℚ :=
  let p (a b c t : ℚ) : ℚ := a * (t * (t - 1) / 2) + b * (1 - t ^ 2) + c * (t * (t + 1) / 2)
  p (p (v (-1) (-1)) (v (-1) 0) (v (-1) 1) y) (p (v 0 (-1)) (v 0 0) (v 0 1) y) (p (v 1 (-1)) (v 1 0) (v 1 1) y) x

end Verif.Resistive.Spec
