import Verif.Spec.Material

/-!
# Specification: the starting position

Used as the concrete case in the examples next to the theorems.
-/

namespace Verif.Spec

/-- Back-rank pieces by file, from the first file. -/
def backRank : Nat → Option Kind
  | 0 => some .lance | 1 => some .knight | 2 => some .silver | 3 => some .gold | 4 => some .king
  | 5 => some .gold | 6 => some .silver | 7 => some .knight | 8 => some .lance
  | _ => none

/-- The board at the start of an even game. Square `9 * file + rank`, files and ranks counted from 0. -/
def startBoard (s : Square) : Option (Color × Kind) :=
  match s.val % 9 with
  | 0 => (backRank (s.val / 9)).map fun k => (.white, k)
  | 1 => if s.val / 9 = 1 then some (.white, .bishop) else if s.val / 9 = 7 then some (.white, .rook) else none
  | 2 => some (.white, .pawn)
  | 6 => some (.black, .pawn)
  | 7 => if s.val / 9 = 7 then some (.black, .bishop) else if s.val / 9 = 1 then some (.black, .rook) else none
  | 8 => (backRank (s.val / 9)).map fun k => (.black, k)
  | _ => none

/-- The starting position. -/
def startPos : Pos where
  board := startBoard
  hand _ _ := 0
  turn := .black

end Verif.Spec
