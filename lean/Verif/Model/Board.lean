import Verif.Model.Position

/-!
# The board object with its history (cshogi.h, `class __Board`)
-/

namespace Verif
open Position

/-- One entry of `history` (src/cshogi.h:474): a move with its state record, or a pass with its backup record. For a
move the record is the current state, which the model keeps in `Position.st` / `Position.prev`. -/
inductive HistEntry where
  | move (m : Move)
  | pass (b : NullBackup)

/-- `class __Board` (src/cshogi.h:86-510). -/
structure Board where
  pos : Position
  hist : List HistEntry

namespace Board

/-- `push` (src/cshogi.h:159-162). -/
def push (Z : Zobrist) (b : Board) (m : Move) : Option Board :=
  (doMove Z b.pos m).map fun p => ⟨p, .move m :: b.hist⟩

/-- `pop` (src/cshogi.h:164-169). `none`: the history is empty (undefined behaviour), or its last entry is a pass
(`undoMove` would then be run with the null move and the wrong state). -/
def pop (b : Board) : Option Board :=
  match b.hist with
  | .move m :: h => (undoMove b.pos m).map fun p => ⟨p, h⟩
  | _ => none

/-- `push_pass` (src/cshogi.h:178-181). The Python wrapper asserts `not is_check()`. -/
def pushPass (b : Board) : Option Board :=
  if b.pos.inCheck then none else some ⟨(doNull b.pos).1, .pass (doNull b.pos).2 :: b.hist⟩

/-- `pop_pass` (src/cshogi.h:182-185). `none`: the last entry is no pass. -/
def popPass (b : Board) : Option Board :=
  match b.hist with
  | .pass bk :: h => some ⟨undoNull b.pos bk, h⟩
  | _ => none

end Board

/-- The operations that change a board after set-up. -/
inductive Op where
  | push (m : Move)
  | pop
  | pushPass
  | popPass

/-- One operation. -/
def Board.step (Z : Zobrist) (b : Board) : Op → Option Board
  | .push m => b.push Z m
  | .pop => b.pop
  | .pushPass => b.pushPass
  | .popPass => b.popPass

/-- A sequence of operations. -/
def Board.run (Z : Zobrist) (b : Board) : List Op → Option Board
  | [] => some b
  | o :: os => (b.step Z o).bind fun b' => b'.run Z os

end Verif
