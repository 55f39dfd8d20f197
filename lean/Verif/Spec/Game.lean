import Verif.Spec.Rules

/-!
# Specification: pins, regular positions, boards that differ in one square
-/

namespace Verif.Spec.Pos

/-- The occupied squares with the piece on `f` lifted off. -/
def occLifted (q : Pos) (f : Square) : Square → Bool := fun u => if u = f then false else q.occ u

/-- The piece of colour `c` on `f` is absolutely pinned by the enemy piece on `s`: lifting it off would expose its own
king on `k` to an attack from `s` that is not there now. -/
def PinnedBy (q : Pos) (c : Color) (f s k : Square) : Prop :=
  (∃ kf, q.board f = some (c, kf)) ∧ q.board k = some (c, .king) ∧
    ∃ ks, q.board s = some (c.opp, ks) ∧ ¬ Attacks c.opp ks q.occ s k ∧ Attacks c.opp ks (q.occLifted f) s k

/-- A position as it occurs in play: one king each, the side not to move is not in check, no piece stands where it could
never move again. -/
structure Regular (q : Pos) : Prop where
  kings : ∀ c, ∃ k, ∀ s, q.board s = some (c, .king) ↔ s = k
  waiting : ¬ q.InCheck q.turn.opp
  alive : ∀ s c k, q.board s = some (c, k) → ¬ Dead c k s

end Verif.Spec.Pos
