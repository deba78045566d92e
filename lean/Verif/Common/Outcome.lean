/-!
# Outcomes of modelled C++ calls

`ok` is a normal return, `throw` an exception, `ub` undefined behaviour (null or past-the-end
access, read of an uninitialised value, iteration that never ends).  No modelled function maps
undefined behaviour to a convenient value.
-/

namespace Verif

/-- Result of a modelled C++ call: value, exception, or undefined behaviour. -/
inductive Outcome (ε α : Type) where
  | ok (a : α)
  | throw (e : ε)
  | ub
  deriving Repr, DecidableEq

namespace Outcome

variable {ε α β : Type}

/-- Sequencing: an exception or undefined behaviour ends the computation. -/
def bind (x : Outcome ε α) (f : α → Outcome ε β) : Outcome ε β :=
  match x with
  | ok a => f a
  | throw e => throw e
  | ub => ub

instance : Monad (Outcome ε) where
  pure := ok
  bind := bind

@[simp] theorem bind_ok (a : α) (f : α → Outcome ε β) : (ok a >>= f) = f a := rfl
@[simp] theorem bind_throw (e : ε) (f : α → Outcome ε β) : (throw e >>= f) = throw e := rfl
@[simp] theorem bind_ub (f : α → Outcome ε β) : ((ub : Outcome ε α) >>= f) = ub := rfl
@[simp] theorem pure_eq (a : α) : (pure a : Outcome ε α) = ok a := rfl

/-- A decidable way to show that a concrete call returns a value with a given property. -/
theorem exists_ok {x : Outcome ε α} {P : α → Prop}
    (h : match x with | ok a => P a | throw _ => False | ub => False) : ∃ a, x = ok a ∧ P a := by
  cases x with
  | ok a => exact ⟨a, rfl, h⟩
  | throw e => exact h.elim
  | ub => exact h.elim

instance {x : Outcome ε α} {P : α → Prop} [DecidablePred P] :
    Decidable (match x with | ok a => P a | throw _ => False | ub => False) :=
  match x with
  | ok a => inferInstanceAs (Decidable (P a))
  | throw _ => inferInstanceAs (Decidable False)
  | ub => inferInstanceAs (Decidable False)

end Outcome

end Verif
