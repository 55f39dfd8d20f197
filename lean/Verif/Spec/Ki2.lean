import Verif.Spec.Rules

/-!
# Specification: moves that need little to be told apart
-/

namespace Verif.Spec.Pos

/-- Another piece of the same kind and side as the one on `s`, that could also go to `t` (the safety of its king apart). -/
def Rival (q : Pos) (s t s' : Square) : Prop :=
  s' ≠ s ∧ (∃ k, q.board s = some (q.turn, k) ∧ q.board s' = some (q.turn, k)) ∧ ∃ pro, q.Pseudo (.move s' t pro)

/-- At most one other piece of the kind could go there; and if there is one, no piece of the kind can be dropped there. -/
def Plain (q : Pos) : Mv → Prop
  | .drop _ _ => True
  | .move s t _ => (∀ s', ¬ q.Rival s t s') ∨
      ((∀ s' s'', q.Rival s t s' → q.Rival s t s'' → s' = s'') ∧ ∀ h : HKind, q.board s = some (q.turn, h.kind) → ¬ q.Legal (.drop h t))

end Verif.Spec.Pos
