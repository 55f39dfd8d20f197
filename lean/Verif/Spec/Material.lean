import Verif.Spec.Rules

/-!
# Specification: material

Counting the pieces of a position against one shogi set, and the condition under which playing a move makes sense.
-/

namespace Verif.Spec

/-- Pieces of each kind in one shogi set. -/
def HKind.total : HKind → Nat
  | pawn => 18 | lance => 4 | knight => 4 | silver => 4 | gold => 4 | bishop => 2 | rook => 2

namespace Pos

/-- Squares holding a piece that, captured, is a `h`. -/
def onBoard (q : Pos) (h : HKind) : Nat := (List.finRange 81).countP fun s => decide ((q.board s).bind (·.2.hand) = some h)

/-- Pieces of kind `h`, promoted or not, on the board and in both hands. -/
def material (q : Pos) (h : HKind) : Nat := q.onBoard h + q.hand .black h + q.hand .white h

/-- Number of kings of a colour. -/
def kings (q : Pos) (c : Color) : Nat := (List.finRange 81).countP fun s => decide (q.board s = some (c, .king))

/-- No more pieces than one set has. -/
def InSet (q : Pos) : Prop := ∀ h, q.material h ≤ h.total

/-- What making a move relies on: the piece moved is the mover's own, it does not land on an own piece or on a king, it
has a promoted side if it promotes; a dropped piece is in hand and its square is empty. The move need not be legal. -/
def Playable (q : Pos) : Mv → Prop
  | .move s t promote => s ≠ t ∧ (∃ k, q.board s = some (q.turn, k) ∧ (promote = true → k.promoted.isSome = true)) ∧
      (∀ k, q.board t ≠ some (q.turn, k)) ∧ q.board t ≠ some (q.turn.opp, .king)
  | .drop h t => 1 ≤ q.hand q.turn h ∧ q.board t = none

end Pos
end Verif.Spec
