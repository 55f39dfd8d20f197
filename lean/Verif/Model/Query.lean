import Verif.Model.Board
import Verif.Model.Setup
import Verif.Model.MoveText
import Verif.Model.Rotate

/-!
# Reading a board, checking it and setting it up from a USI `position` text (cshogi.h, position.cpp)
-/

namespace Verif
namespace Position
open Bitboard

/-- `bbToVector` (src/cshogi.h:503-509). -/
def bbToVector (p : Position) (pt : PieceType) (c : Color) (pc : Piece) (v : Square → Nat) : Square → Nat :=
  (p.bbOf pt c).toList.foldl (fun v s => upd v s pc) v

/-- The calls of `bbToVector` (src/cshogi.h:276-305): kind, colour and the number written (`Piece` in src/piece.hpp). -/
def pieceCalls : List (PieceType × Color × Piece) :=
  [(1, .black, 1), (2, .black, 2), (3, .black, 3), (4, .black, 4), (5, .black, 5), (6, .black, 6), (7, .black, 7), (8, .black, 8),
   (9, .black, 9), (10, .black, 10), (11, .black, 11), (12, .black, 12), (13, .black, 13), (14, .black, 14),
   (1, .white, 17), (2, .white, 18), (3, .white, 19), (4, .white, 20), (5, .white, 21), (6, .white, 22), (7, .white, 23),
   (8, .white, 24), (9, .white, 25), (10, .white, 26), (11, .white, 27), (12, .white, 28), (13, .white, 29), (14, .white, 30)]

/-- `pieces`, Python `Board.pieces` (src/cshogi.h:273-308): element `s` of the list. -/
def pieces (p : Position) : Square → Nat := pieceCalls.foldl (fun v x => p.bbToVector x.1 x.2.1 x.2.2 v) fun _ => 0

/-- `pieces_in_hand` (src/cshogi.h:266-271). -/
def piecesInHand (p : Position) (c : Color) : List Nat :=
  [(p.hand c).numOf 0, (p.hand c).numOf 1, (p.hand c).numOf 2, (p.hand c).numOf 3, (p.hand c).numOf 4, (p.hand c).numOf 5,
   (p.hand c).numOf 6]

/-- The numbers of the piece types, `Pawn` to `Dragon` (src/piece.hpp). -/
def allTypes : List PieceType := [1, 2, 3, 4, 5, 6, 7, 8, 9, 10, 11, 12, 13, 14]

/-- First part of `isOK` (src/position.cpp:3116-3133): the bitboards. -/
def okBitboards (p : Position) : Bool :=
  !(p.byColor .black &&& p.byColor .white).isAny &&
  decide ((p.byColor .black ||| p.byColor .white) = p.occupied) &&
  decide ((p.byType 1 ^^^ p.byType 2 ^^^ p.byType 3 ^^^ p.byType 4 ^^^ p.byType 5 ^^^ p.byType 6 ^^^ p.byType 7 ^^^ p.byType 8 ^^^
    p.byType 9 ^^^ p.byType 10 ^^^ p.byType 11 ^^^ p.byType 12 ^^^ p.byType 13 ^^^ p.byType 14) = p.occupied) &&
  allTypes.all fun a => allTypes.all fun b => !(decide (a < b) && (p.byType a &&& p.byType b).isAny)

/-- Second part of `isOK` (src/position.cpp:3136-3153): the kings. -/
def okKings (p : Position) : Bool :=
  !(decide ((p.byType PT.King).popCount = 0) || decide (2 < (p.byType PT.King).popCount)) &&
  !decide (1 < (p.bbOf PT.King .black).popCount) && !decide (1 < (p.bbOf PT.King .white).popCount) &&
  decide ((List.finRange 81).countP (fun s => p.piece s = 8) = (p.bbOf PT.King .black).popCount) &&
  decide ((List.finRange 81).countP (fun s => p.piece s = 24) = (p.bbOf PT.King .white).popCount)

/-- Third part of `isOK` (src/position.cpp:3156-3164): the king of the side not to move cannot be taken. -/
def okCapture (p : Position) : Bool :=
  match p.kingSquare p.turn, p.kingSquare p.turn.opp with
  | some _, some k => !(p.attackersTo p.turn k p.occupied).isAny
  | _, _ => true

/-- Last part of `isOK` (src/position.cpp:3185-3197): the board array against the bitboards. -/
def okArray (p : Position) : Bool :=
  (List.finRange 81).all fun s =>
    if p.piece s = 0 then (p.occupied ^^^ allOne).isSet s
    else (p.bbOf (pieceType (p.piece s)) (pieceColor (p.piece s))).isSet s

/-- `isOK`, Python `is_ok` (src/position.cpp:3103-3208), without what it prints. -/
def isOK (Z : Zobrist) (p : Position) : Bool :=
  p.okBitboards && p.okKings && p.okCapture && !decide (2 < p.st.checkersBB.popCount) &&
  decide (p.getKey = p.computeBoardKey Z + p.computeHandKey Z) && decide (p.st.hand = p.hand p.turn) && p.okArray

end Position

namespace Board
open Position

/-- `peek` (src/cshogi.h:171-176); the null move of a pass is not looked at further. -/
def lastMove (b : Board) : Move :=
  match b.hist with
  | .move m :: _ => m
  | .pass _ :: _ => 129#32
  | [] => 0#32

/-- `get_history`, Python `history` (src/cshogi.h:187-194), oldest move first. -/
def history (b : Board) : List Move :=
  (b.hist.map fun | .move m => m | .pass _ => 129#32).reverse

/-- `set_pieces` (src/cshogi.h:135-138). -/
def setPieces (Z : Zobrist) (b : Board) (pcs : Square → Piece) (inHand : Color → HandPiece → Nat) : Board :=
  ⟨Position.setPieces Z b.pos pcs inHand, []⟩

/-- `setTurn`, Python `turn = …` (src/cshogi.h:236): the history stays. -/
def setTurn (Z : Zobrist) (b : Board) (t : Color) : Board := ⟨Position.setTurn Z b.pos t, b.hist⟩

/-- `setPly`, Python `move_number = …` (src/cshogi.h:238). -/
def setPly (b : Board) (n : Int) : Board := ⟨{ b.pos with gamePly := n }, b.hist⟩

/-- All words that `ssPosCmd >> token` delivers, one after the other (`fuel`: at most as many as there are characters). -/
def readWords : Nat → List Char → List (List Char)
  | 0, _ => []
  | fuel + 1, cs => if (Rotate.nextWord cs).1 = [] then [] else (Rotate.nextWord cs).1 :: readWords fuel (Rotate.nextWord cs).2

/-- The loop over the moves in `set_position` (src/cshogi.h:128-132): text, move, exception, push. -/
def pushWords (Z : Zobrist) : List (List Char) → Board → Out Board
  | [], b => .ok b
  | w :: ws, b =>
    match b.pos.usiToMove w with
    | none => .ub
    | some m => if m = 0#32 then .error else
      match b.push Z m with
      | none => .ub
      | some b => pushWords Z ws b

/-- What is put together as `sfen` (src/cshogi.h:121-122): every word with a blank behind it. -/
def spaced (ws : List (List Char)) : List Char := ws.flatMap fun w => w ++ [' ']

/-- The start position text (src/usi.cpp, `DefaultStartPositionSFEN`). -/
def startSfen : List Char := "lnsgkgsnl/1r5b1/ppppppppp/9/9/9/PPPPPPPPP/1B5R1/LNSGKGSNL b - 1".toList

/-- `pos.set(sfen)`, then the moves (src/cshogi.h:126-132). -/
def setAndPush (Z : Zobrist) (sfen : List Char) (ws : List (List Char)) : Out Board :=
  (Position.setSfen Z sfen).bind fun p => pushWords Z ws ⟨p, []⟩

/-- `set_position` (src/cshogi.h:109-133), the board after it; what is left behind by an exception is the subject of C51. After
`startpos` the next word is read and not looked at (line 119). -/
def setPosition (Z : Zobrist) (text : List Char) : Out Board :=
  match readWords text.length text with
  | [] => .error
  | w :: ws =>
    if w = "startpos".toList then setAndPush Z startSfen (ws.drop 1)
    else if w = "sfen".toList then
      setAndPush Z (spaced (ws.takeWhile fun x => x ≠ "moves".toList)) ((ws.dropWhile fun x => x ≠ "moves".toList).drop 1)
    else .error

end Board
end Verif
