import Verif.Spec.Start

/-!
# Handicap games

The stronger player plays White, moves first and leaves out some of their pieces.
-/

namespace Verif.Spec

/-- The starting position without the pieces on the given squares; White moves first if something is left out. -/
def handicapPos (off : List Square) : Pos where
  board s := if s ∈ off then none else startBoard s
  hand _ _ := 0
  turn := if off = [] then .black else .white

/-- The handicaps and the squares whose pieces are left out. White's left lance is on 1a, the right one on 9a, the bishop on 2b, the
rook on 8b; the knights are on 2a and 8a, the silvers on 3a and 7a, the golds on 4a and 6a. -/
def handicapSquares : List (String × List Square) := [
  ("平手", []), ("香落ち", [0]), ("右香落ち", [72]), ("角落ち", [10]), ("飛車落ち", [64]), ("飛香落ち", [64, 0]),
  ("二枚落ち", [64, 10]), ("三枚落ち", [64, 10, 0]), ("四枚落ち", [64, 10, 0, 72]), ("五枚落ち", [64, 10, 0, 72, 63]),
  ("左五枚落ち", [64, 10, 0, 72, 9]), ("六枚落ち", [64, 10, 0, 72, 63, 9]), ("八枚落ち", [64, 10, 0, 72, 63, 9, 54, 18]),
  ("十枚落ち", [64, 10, 0, 72, 63, 9, 54, 18, 45, 27])]

end Verif.Spec
