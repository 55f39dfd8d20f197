import Verif.Spec.Declare

/-!
# Specification: the input planes of dlshogi

The board is shown as the side to move sees it: its own pieces come first, and the board is turned round for White.
-/

namespace Verif.Spec

/-- The order of the kinds in the planes. -/
def kindPlanes : List Kind := [.pawn, .lance, .knight, .silver, .bishop, .rook, .gold, .king, .proPawn, .proLance, .proKnight, .proSilver,
  .horse, .dragon]

/-- The number of planes for the pieces of a kind in hand, and the first of them. -/
def HKind.planes : HKind → Nat
  | .pawn => 8 | .lance => 4 | .knight => 4 | .silver => 4 | .gold => 4 | .bishop => 2 | .rook => 2
def HKind.firstPlane : HKind → Nat
  | .pawn => 0 | .lance => 8 | .knight => 12 | .silver => 16 | .gold => 20 | .bishop => 24 | .rook => 26

namespace Pos

/-- 0 for the side to move, 1 for the opponent. -/
def side (q : Pos) (c : Color) : Nat := if c = q.turn then 0 else 1

/-- Where the side to move sees a square. -/
def seen (q : Pos) (s : Square) : Square := match q.turn with | .black => s | .white => opposite s

/-- The number of pieces of `c` that attack `s`. -/
noncomputable def attackerCount (q : Pos) (c : Color) (s : Square) : Nat :=
  open Classical in (List.finRange 81).countP fun t => decide (q.AttacksSq c t s)

/-- The king of a colour stands in the far three ranks. -/
def KingIn (q : Pos) (c : Color) : Prop := ∃ s, q.board s = some (c, .king) ∧ zone c s

/-- Points that are missing for a declaration; 0 when there are enough. -/
def missing (q : Pos) (c : Color) : Nat := needed c - q.points c

open Classical in
/-- What 31 planes of 81 cells, beginning with plane `base`, say about the declaration of `c`: plane 0 whether the king is in the far
three ranks; of planes 1-10 the one for the number of pieces still missing there; of planes 11-30 the one for the points still missing.
(Ten missing pieces and twenty or more missing points have no plane.) -/
def Declaration (q : Pos) (c : Color) (base : Nat) (a : Nat → Int) : Prop :=
  ∀ t, t < 81 →
    a (base * 81 + t) = (if q.KingIn c then 1 else 0) ∧
    (∀ j, j < 10 → a ((base + 1 + j) * 81 + t) = if j = 10 - q.campCount c then 1 else 0) ∧
    ∀ j, j < 20 → a ((base + 11 + j) * 81 + t) = if j = q.missing c then 1 else 0

end Pos
end Verif.Spec
