/-!
# Specification of string patterns

The language of a pattern: every `'*'` stands for an arbitrary string, every other character for
itself.  Independent of the model.
-/

namespace Verif.StringPattern.Spec

/-- `Glob p s`: `s` is obtained from `p` by replacing each `'*'` by some string. -/
inductive Glob : List Char → List Char → Prop
  | nil : Glob [] []
  | char {c p s} : c ≠ '*' → Glob p s → Glob (c :: p) (c :: s)
  | star {p s} (w : List Char) : Glob p s → Glob ('*' :: p) (w ++ s)

end Verif.StringPattern.Spec
