import Verif.Spec.Rules

/-!
The rules without the promotion rule and without the rule about pieces that cannot move again.
-/

namespace Verif.Spec
namespace Pos

/-- A move on the board that is legal with promotion or without; a drop that would be legal if pieces could be dropped on squares from
which they cannot move. -/
def Loose (q : Pos) : Mv → Prop
  | .move s t _ => ∃ promote, q.Legal (.move s t promote)
  | .drop h t => 1 ≤ q.hand q.turn h ∧ q.board t = none ∧ (h = .pawn → ∀ u, X u = X t → q.board u ≠ some (q.turn, .pawn)) ∧
      ¬ (q.play (.drop h t)).InCheck q.turn ∧ ¬ q.PawnDropMate (.drop h t)

end Pos
end Verif.Spec
