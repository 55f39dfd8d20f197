import Verif.Model.Query

/-!
# The ways to hand a move to a board (_cshogi.pyx, `class Board`)

`none` is undefined behaviour. The other result is the board afterwards with what the method returns.
-/

namespace Verif
open Position

/-- The end of `push_usi` and `push_csa`: a move other than 0 is played (cshogi/_cshogi.pyx:511-513, 525-527). -/
def Board.pushTested (Z : Zobrist) (b : Board) (m : Move) : Option (Board × Move) :=
  if m ≠ 0#32 then (b.push Z m).map fun b' => (b', m) else some (b, m)

/-- `push_usi` (cshogi/_cshogi.pyx:501-513). -/
def Board.pushUsi (Z : Zobrist) (b : Board) (s : List Char) : Option (Board × Move) :=
  (b.pos.usiToMove s).bind fun m => b.pushTested Z m

/-- `push_csa` (cshogi/_cshogi.pyx:515-527). -/
def Board.pushCsa (Z : Zobrist) (b : Board) (s : List Char) : Option (Board × Move) :=
  (b.pos.csaToMove s).bind fun m => b.pushTested Z m

/-- `push_move16` (cshogi/_cshogi.pyx:529-541; src/cshogi.h:223-225): the move is played whatever it is. -/
def Board.pushMove16 (Z : Zobrist) (b : Board) (v : BitVec 16) : Option (Board × Move) :=
  (move16toMove b.pos.piece (widen16 v)).bind fun m => (b.push Z m).map fun b' => (b', m)

/-- `push_psv` (cshogi/_cshogi.pyx:543-553; src/cshogi.h:227-229). -/
def Board.pushPsv (Z : Zobrist) (b : Board) (v : BitVec 16) : Option (Board × Move) :=
  (move16toMove b.pos.piece (widen16 (move16FromPsv v))).bind fun m => (b.push Z m).map fun b' => (b', m)

end Verif
