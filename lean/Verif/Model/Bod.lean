import Verif.Model.Ki2

/-!
# Board diagrams (cshogi/KIF.py, `Board.to_bod`)

The lines of `board_to_bod` are modelled with the KIF exporter. Here: the text of the last move and the method `to_bod`, which takes the
last move back, writes its text and plays it again.
-/

namespace Verif.Bod
open Position

/-- `'\n'.join`. -/
def joinNl : List (List Char) → List Char
  | [] => []
  | [x] => x
  | x :: l => x ++ ('\n' :: joinNl l)

/-- `board_to_bod` (cshogi/KIF.py:345-376). -/
def boardToBod (p : Position) : List Char := joinNl (Kif.bodLines p)

/-- `move_to_bod` (cshogi/KIF.py:378-392): the text of `move_to_ki2`; in place of "同" and the character after it the name of the
square and "同" are written. `none`: a Python exception or undefined behaviour in `move_to_ki2`. -/
def moveToBod (b : Board) (m : Move) : Option (List Char) :=
  (Ki2.moveToKi2 b m).bind fun t =>
    if t[1]? = some '同' then (Kif.squareName m.dst).map fun n => t.take 1 ++ (n ++ ('同' :: t.drop 3)) else some t

/-- The part after the diagram (cshogi/_cshogi.pyx:1106); the move number is the one of the board without the move. -/
def lastLine (n : Int) (t : List Char) : List Char := "\n手数＝".toList ++ (intChars n ++ ('　' :: (t ++ "　まで".toList)))

/-- `Board.to_bod` (cshogi/_cshogi.pyx:1097-1112): the text and the board afterwards. -/
def toBod (Z : Zobrist) (b : Board) : Out (List Char × Board) :=
  match b.hist with
  | [] => .ok (boardToBod b.pos, b)
  | _ :: _ =>
    match b.pop with
    | none => .ub
    | some b0 =>
      match moveToBod b0 (Kif.peek b) with
      | none => .error
      | some t =>
        match b0.push Z (Kif.peek b) with
        | none => .ub
        | some b' => .ok (boardToBod b'.pos ++ lastLine b0.pos.gamePly t, b')

end Verif.Bod
