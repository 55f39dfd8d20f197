/-!
# Outcomes of C++ calls

A call returns, throws, or does something undefined (an access outside an array).
-/

namespace Verif

/-- What a call does. -/
inductive Out (α : Type) where
  /-- returns `a` -/
  | ok (a : α)
  /-- throws an exception -/
  | error
  /-- undefined behaviour -/
  | ub
deriving DecidableEq

namespace Out

/-- Sequencing. -/
def bind {α β : Type} : Out α → (α → Out β) → Out β
  | ok a, f => f a
  | error, _ => error
  | ub, _ => ub

@[simp] theorem bind_ok {α β : Type} (a : α) (f : α → Out β) : (ok a).bind f = f a := rfl

/-- The value of a returning call. -/
def toOption {α : Type} : Out α → Option α
  | ok a => some a
  | _ => none

/-- Whether the call is undefined. -/
def isUb {α : Type} : Out α → Bool
  | ub => true
  | _ => false

theorem isUb_iff {α : Type} {x : Out α} : x.isUb = true ↔ x = ub := by
  cases x <;> simp [isUb]

end Out
end Verif
