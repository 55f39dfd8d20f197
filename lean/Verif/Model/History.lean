import Verif.Model.Query

/-!
# What `pop` returns (cshogi.h, `class __Board`)
-/

namespace Verif
open Position

/-- What `pop` returns (src/cshogi.h:164-169). `none`: see `Board.pop`. -/
def Board.popped (b : Board) : Option Move :=
  match b.hist with
  | .move m :: _ => some m
  | _ => none

/-- `ply`, Python `move_number` (src/cshogi.h:233). -/
def Board.moveNumber (b : Board) : Int := b.pos.gamePly

end Verif
