import Verif.Model.CheckGen
import Verif.Model.Repetition

/-!
# The mate search (mate.cpp, cshogi.h)

The C++ functions change the position in place, by `doMove` and `undoMove`; the model passes the position along and returns it with
the answer. `none` marks an undefined step: a missing king, a buffer overrun, a null pointer in `isDraw`, or a recursion that has not
ended after the allowed number of nested calls.
-/

namespace Verif
namespace Position
open Bitboard

/-- `doMove(move, newSt, ci, givesCheck)` (src/position.cpp:482-594): `doMove` with the caller's word on whether the move gives
check. -/
def doMoveGC (Z : Zobrist) (p : Position) (m : Move) (givesCheck : Bool) : Option Position :=
  if doMoveDefined m then some (if m.isDrop then doDrop Z p m givesCheck else doBoard Z p m givesCheck) else none

/-- `MaxCheckMoves` (src/mate.cpp:7). -/
def maxCheckMoves : Nat := 91

/-- Writing a list into `moveList_` (src/mate.cpp:47). Nothing checks the size at run time (the `assert` in line 39 comes after
the writing). -/
def fits (l : List Move) : Option (List Move) := if l.length ≤ maxCheckMoves then some l else none

/-- `MovePicker<true, INCHECK>` (src/mate.cpp:13-26). The generator first writes the board moves, removes some, then writes the
drops; both stages have to fit. -/
def orPicker (p : Position) (inCheck : Bool) : Option (List Move) :=
  match p.kingSquare p.turn.opp with
  | none => none
  | some ksq =>
    (fits (boardChecks p true ksq)).bind fun _ =>
    ((genCheck p true).bind fits).bind fun l =>
      if inCheck then
        (p.kingSquare p.turn).map fun _ => filterSwap (fun m => (p.checkMoveIsEvasion m).getD false) l.length l
      else some l

/-- `MovePicker<false, false>` (src/mate.cpp:27-38). -/
def andPicker (p : Position) : Option (List Move) :=
  ((genEvasion p false).bind fits).map fun l => filterSwap (fun m => p.pseudoLegalMoveIsLegal m p.pinnedBB) l.length l

/-! ### Three plies -/

/-- The replies in `mateMoveIn3Ply` (src/mate.cpp:75-93). -/
def replies3 (Z : Zobrist) : List Move → Position → Option (Bool × Position)
  | [], p => some (true, p)
  | m :: l, p =>
    if p.moveGivesCheck m then some (false, p)
    else (doMoveGC Z p m false).bind fun p' => p'.mateMoveIn1Ply.bind fun r => (undoMove p' m).bind fun p =>
      if r = 0#32 then some (false, p) else replies3 Z l p

/-- The checks in `mateMoveIn3Ply` (src/mate.cpp:60-104). With no reply the loop over the replies does nothing and the answer is
`true` as well (lines 69-73). -/
def checks3 (Z : Zobrist) : List Move → Position → Option (Bool × Position)
  | [], p => some (false, p)
  | m :: l, p =>
    (doMoveGC Z p m true).bind fun p' => (andPicker p').bind fun l2 => (replies3 Z l2 p').bind fun r =>
      (undoMove r.2 m).bind fun p => if r.1 then some (true, p) else checks3 Z l p

/-- `mateMoveIn3Ply<INCHECK>` (src/mate.cpp:52-105). -/
def mateMoveIn3Ply (Z : Zobrist) (inCheck : Bool) (p : Position) : Option (Bool × Position) :=
  (orPicker p inCheck).bind fun l => checks3 Z l p

/-! ### Any number of plies -/

/-- The `switch` after a check (src/mate.cpp:121-137, 165-181): `some true` ends the search with success, `some false` gives the
check up, `none` searches on. -/
def afterCheck : Repetition → Option Bool
  | .none => none
  | .lose => some true
  | .draw => some false
  | .win => some false
  | .superior => some false
  | .inferior => none

/-- The `switch` after a reply (src/mate.cpp:214-231): `some true` goes on to the next reply, `some false` ends the search
without success, `none` searches on. -/
def afterReply : Repetition → Option Bool
  | .none => none
  | .win => some true
  | .draw => some false
  | .lose => some false
  | .inferior => some false
  | .superior => none

/-- The loop of `mateMoveInOddPlyReturnMove` (src/mate.cpp:115-150); `mateMoveInOddPly` (159-197) has the same loop and returns
`true` where this returns a move. `even` is `mateMoveInEvenPly` with the depth given to it. -/
def oddLoop (Z : Zobrist) (even : Position → Option (Bool × Position)) : List Move → Position → Option (Option Move × Position)
  | [], p => some (none, p)
  | m :: l, p =>
    (doMoveGC Z p m true).bind fun p' => (p'.isDraw 16).bind fun d =>
      match afterCheck d with
      | some true => (undoMove p' m).map fun p => (some m, p)
      | some false => (undoMove p' m).bind fun p => oddLoop Z even l p
      | none => (even p').bind fun r => (undoMove r.2 m).bind fun p => if r.1 then some (some m, p) else oddLoop Z even l p

/-- What is asked after a reply (src/mate.cpp:233-265): at depth 4 and 2 special functions, otherwise `mateMoveInOddPly`. -/
def afterEven (Z : Zobrist) (depth : Int) (odd : Bool → Position → Option (Bool × Position)) (givesCheck : Bool) (p : Position) :
    Option (Bool × Position) :=
  if depth = 4 then mateMoveIn3Ply Z givesCheck p
  else if depth = 2 then
    if givesCheck then some (false, p) else p.mateMoveIn1Ply.map fun r => (decide (r ≠ 0#32), p)
  else odd givesCheck p

/-- The loop of `mateMoveInEvenPly` (src/mate.cpp:206-269). -/
def evenLoop (Z : Zobrist) (depth : Int) (odd : Bool → Position → Option (Bool × Position)) :
    List Move → Position → Option (Bool × Position)
  | [], p => some (true, p)
  | m :: l, p =>
    (doMoveGC Z p m (p.moveGivesCheck m)).bind fun p' => (p'.isDraw 16).bind fun d =>
      match afterReply d with
      | some true => (undoMove p' m).bind fun p => evenLoop Z depth odd l p
      | some false => (undoMove p' m).map fun p => (false, p)
      | none => (afterEven Z depth odd (p.moveGivesCheck m) p').bind fun r => (undoMove r.2 m).bind fun p =>
          if r.1 then evenLoop Z depth odd l p else some (false, p)

/-- `mateMoveInEvenPly` (src/mate.cpp:201-271), with at most `fuel` nested calls of itself. The call of `mateMoveInOddPly` with
`depth - 1`, which calls `mateMoveInEvenPly` with `depth - 2`, is unfolded. -/
def evenPly (Z : Zobrist) : Nat → Int → Position → Option (Bool × Position)
  | 0, _, _ => none
  | fuel + 1, depth, p => (andPicker p).bind fun l =>
      evenLoop Z depth (fun inCheck q => (orPicker q inCheck).bind fun l =>
        (oddLoop Z (evenPly Z fuel (depth - 2)) l q).map fun r => (r.1.isSome, r.2)) l p

/-- `mateMove(ply)`, Python `mate_move` (src/cshogi.h:242-247, src/mate.cpp:107-152): `Move::moveNone()` is 0. -/
def mateMove (Z : Zobrist) (fuel : Nat) (ply : Int) (p : Position) : Option (Move × Position) :=
  (orPicker p p.inCheck).bind fun l => (oddLoop Z (evenPly Z fuel (ply - 1)) l p).map fun r => (r.1.getD 0#32, r.2)

/-- Python `is_mate(ply)` (cshogi/_cshogi.pyx:859-869, src/cshogi.h:248-250). -/
def isMate (Z : Zobrist) (fuel : Nat) (ply : Int) (p : Position) : Option (Bool × Position) :=
  if p.inCheck then evenPly Z fuel ply p else some (false, p)

end Position
end Verif
