import Verif.Spec.Rules

/-!
# The 16-bit numbers of a move
-/

namespace Verif.Spec

/-- The number of a hand kind in the codes of drops: pawn 1, lance 2, knight 3, silver 4, bishop 5, rook 6, gold 7. -/
def HKind.dropNo : HKind → Nat
  | .pawn => 1 | .lance => 2 | .knight => 3 | .silver => 4 | .bishop => 5 | .rook => 6 | .gold => 7

/-- The 16-bit number of a move: the destination in the low seven bits, then the origin, or 80 more than the number of the kind
dropped, and 2^14 for a promotion. -/
def number16 : Mv → Nat
  | .move f t pro => t.val + 128 * f.val + (if pro then 2^14 else 0)
  | .drop h t => t.val + 128 * (80 + h.dropNo)

/-- The number of a move in the format of YaneuraOu: 2^14 marks a drop, 2^15 a promotion, and the kind dropped stands for itself. -/
def numberPsv : Mv → Nat
  | .move f t pro => t.val + 128 * f.val + (if pro then 2^15 else 0)
  | .drop h t => t.val + 128 * h.dropNo + 2^14

end Verif.Spec
