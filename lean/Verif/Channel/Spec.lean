import Verif.Channel.Model

/-!
# Specification for repositories and channel queries
-/

namespace Verif.Channel.Spec
open Verif Verif.StringPattern Verif.Channel

/-- The channels one element offers for a key pattern: those of all constructors of its type. -/
def offered (tbl : List Ctor) (keypat : Str) (e : Elem) : List (Ctor × Elem) :=
  (tbl.filter (fun c => c.type == e.type && matchStr keypat c.key)).map (fun c => (c, e))

/-- The channels of all matching elements. -/
def wanted (tbl : List Ctor) (idpat keypat : Str) (es : List Elem) : List (Ctor × Elem) :=
  (es.filter (fun e => matchStr idpat e.qualified)).flatMap (offered tbl keypat)

/-- Tables obtainable by registering constructors whose type names contain no dot. -/
inductive Table : List Ctor → Prop where
  | empty : Table []
  | reg {t t' : List Ctor} {c : Ctor} : Table t → '.' ∉ c.type → register t c = .ok t' → Table t'

end Verif.Channel.Spec
