import Verif.Spec.Rules

/-!
# Specification: the entering-king declaration, and turning a position round
-/

namespace Verif.Spec

/-- Points of a captured piece. -/
def HKind.points : HKind → Nat
  | .bishop | .rook => 5
  | _ => 1

/-- Points of a piece on the board; the king has none. -/
def Kind.points (k : Kind) : Nat := match k.hand with | some h => h.points | none => 0

/-- The seven kinds of captured pieces. -/
def hkinds : List HKind := [.pawn, .lance, .knight, .silver, .gold, .bishop, .rook]

namespace Pos

/-- The piece of colour `c` on `s`, if it is not the king and stands in the far three ranks. -/
def camped (q : Pos) (c : Color) (s : Square) : Option Kind :=
  match q.board s with
  | some (c', k) => if c' = c ∧ k ≠ .king ∧ zone c s then some k else none
  | none => none

/-- Number of pieces of `c` other than the king in the far three ranks. -/
def campCount (q : Pos) (c : Color) : Nat := (List.finRange 81).countP fun s => (q.camped c s).isSome

/-- Points of the piece on a square. -/
def campPoints (q : Pos) (c : Color) (s : Square) : Nat := match q.camped c s with | some k => k.points | none => 0

/-- Points that have to be reached. -/
def needed : Color → Nat
  | .black => 28
  | .white => 27

/-- Points of `c`: pieces in the far three ranks and in hand. -/
def points (q : Pos) (c : Color) : Nat :=
  ((List.finRange 81).map (q.campPoints c)).sum +
    (hkinds.map fun h => h.points * q.hand c h).sum

/-- The side to move may declare a win by the 27-point rule. -/
def CanDeclare (q : Pos) : Prop :=
  ¬ q.InCheck q.turn ∧ (∃ s, q.board s = some (q.turn, .king) ∧ zone q.turn s) ∧ 10 ≤ q.campCount q.turn ∧
    needed q.turn ≤ q.points q.turn

/-- The square opposite `s` through the centre. -/
def opposite (s : Square) : Square := ⟨80 - s.val, by omega⟩

/-- The board turned by 180 degrees with the colours exchanged. -/
def rotate (q : Pos) : Pos where
  board s := (q.board (opposite s)).map fun x => (x.1.opp, x.2)
  hand c := q.hand c.opp
  turn := q.turn.opp

end Pos
end Verif.Spec
