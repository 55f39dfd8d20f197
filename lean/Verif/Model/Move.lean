import Verif.Model.Types

/-!
# 32-bit moves (move.hpp, cshogi.h)
-/

namespace Verif

/-- `class Move` (src/move.hpp:38-123): one `u32`. -/
abbrev Move := BitVec 32

namespace Move
/-- `Move::PromoteFlag` (src/move.hpp:40). -/
def promoteFlag : Move := 1#32 <<< 14
/-- `Move::MoveNull` (src/move.hpp:42). -/
def null : Move := 129#32
/-- `Move::to`, `__move_to` (src/move.hpp:55, src/cshogi.h:739). -/
def dst (m : Move) : Nat := (m >>> 0 &&& 0x7f#32).toNat
/-- `Move::from`, `__move_from` (src/move.hpp:57, src/cshogi.h:741). -/
def src (m : Move) : Nat := (m >>> 7 &&& 0x7f#32).toNat
/-- `Move::cap`, `__move_cap` (src/move.hpp:63, src/cshogi.h:743). -/
def cap (m : Move) : PieceType := (m >>> 20 &&& 0xf#32).toNat
/-- `Move::isPromotion`, `__move_is_promotion` (src/move.hpp:65, src/cshogi.h:745). -/
def isPromotion (m : Move) : Bool := (m &&& promoteFlag) != 0#32
/-- `Move::pieceTypeFrom`, `__move_from_piece_type` (src/move.hpp:67, src/cshogi.h:749). -/
def pieceTypeFrom (m : Move) : PieceType := (m >>> 16 &&& 0xf#32).toNat
/-- `Move::isDrop`, `__move_is_drop` (src/move.hpp:80, src/cshogi.h:747). -/
def isDrop (m : Move) : Bool := decide (81 ≤ m.src)
/-- `Move::isCapture` (src/move.hpp:82). -/
def isCapture (m : Move) : Bool := (m &&& 0xf00000#32) != 0#32
/-- `Move::pieceTypeDropped` (src/move.hpp:87): `from - SquareNum + 1`; meaningful for drops. -/
def pieceTypeDropped (m : Move) : PieceType := m.src - 80
/-- `Move::pieceTypeTo(ptFrom)` (src/move.hpp:72-79): `ptFrom + ((value & PromoteFlag) >> 11)`. -/
def pieceTypeToOf (m : Move) (ptFrom : PieceType) : PieceType :=
  ptFrom + ((m &&& promoteFlag) >>> 11).toNat
/-- `Move::pieceTypeTo()` (src/move.hpp:69). -/
def pieceTypeTo (m : Move) : PieceType :=
  if m.isDrop then m.pieceTypeDropped else m.pieceTypeToOf m.pieceTypeFrom
/-- `Move::handPieceDropped`, `__move_drop_hand_piece` (src/move.hpp:89-92, src/cshogi.h:751). -/
def handPieceDropped (m : Move) : HandPiece := ptToHand m.pieceTypeDropped
end Move

/-- `to2Move` (src/move.hpp:130). -/
def to2Move (t : Nat) : Move := BitVec.ofNat 32 t <<< 0
/-- `from2Move` (src/move.hpp:132). -/
def from2Move (f : Nat) : Move := BitVec.ofNat 32 f <<< 7
/-- `drop2From` (src/move.hpp:136): `SquareNum - 1 + pt`. -/
def drop2From (pt : PieceType) : Nat := 81 - 1 + pt
/-- `pieceType2Move` (src/move.hpp:142). -/
def pieceType2Move (pt : PieceType) : Move := BitVec.ofNat 32 pt <<< 16
/-- `capturedPieceType2Move(PieceType)` (src/move.hpp:148). -/
def captured2Move (pt : PieceType) : Move := BitVec.ofNat 32 pt <<< 20
/-- `makeMove` (src/move.hpp:157-159). -/
def makeMove (pt : PieceType) (f t : Nat) : Move := pieceType2Move pt ||| from2Move f ||| to2Move t
/-- `makeCaptureMove` (src/move.hpp:163-165); the captured type is looked up on the board by the caller
(`capturedPieceType2Move(to, pos)`, src/move.hpp:151-154, is `pieceToPieceType(pos.piece(to))`). -/
def makeCaptureMove (captured : PieceType) (pt : PieceType) (f t : Nat) : Move :=
  captured2Move captured ||| makeMove pt f t
/-- `makeCapturePromoteMove` (src/move.hpp:168-170). -/
def makeCapturePromoteMove (captured : PieceType) (pt : PieceType) (f t : Nat) : Move :=
  makeCaptureMove captured pt f t ||| Move.promoteFlag
/-- `makeDropMove`, `__Board::drop_move` (src/move.hpp:174, src/cshogi.h:211-213). -/
def makeDropMove (pt : PieceType) (t : Nat) : Move := from2Move (drop2From pt) ||| to2Move t

/-- `__Board::move` (src/cshogi.h:204-209): `makePromoteMove<Capture>` / `makeNonPromoteMove<Capture>`
(src/generateMoves.hpp:103-111) with the moving and captured types read off the board. -/
def boardMove (piece : Square → Piece) (f t : Square) (promotion : Bool) : Move :=
  if promotion then
    makeCapturePromoteMove (pieceType (piece t)) (pieceType (piece f)) f.val t.val
  else
    makeCaptureMove (pieceType (piece t)) (pieceType (piece f)) f.val t.val

/-- `move16toMove`, `__Board::move_from_move16` (src/move.hpp:204-212, src/cshogi.h:223-225).
`none` when the source or destination is not a square (out-of-range read of `pos.piece`). -/
def move16toMove (piece : Square → Piece) (m : Move) : Option Move :=
  if m = 0#32 then some 0#32
  else if m.isDrop then some m
  else if hf : m.src < 81 then
    if ht : m.dst < 81 then
      some (m ||| pieceType2Move (pieceType (piece ⟨m.src, hf⟩)) ||| captured2Move (pieceType (piece ⟨m.dst, ht⟩)))
    else none
  else none

/-- `__move16` (src/cshogi.h:753): truncation to `unsigned short`. -/
def move16 (m : Move) : BitVec 16 := m.truncate 16

/-- `Move(move16)`: widening of an unsigned short to the `u32` of a move (src/cshogi.h:224). -/
def widen16 (v : BitVec 16) : Move := v.zeroExtend 32

/-- `__move16_from_psv` (src/cshogi.h:755-765). All arithmetic is on `unsigned short` after truncation. -/
def move16FromPsv (v : BitVec 16) : BitVec 16 :=
  let to := v &&& 0x7f#16
  let from0 := (v >>> 7) &&& 0x7f#16
  let from1 := if (v &&& (1#16 <<< 14)) != 0#16 then from0 + 80#16 else from0
  to ||| (from1 <<< 7) ||| (if (v &&& (1#16 <<< 15)) != 0#16 then 1#16 <<< 14 else 0#16)

/-- `__move16_to_psv` (src/cshogi.h:767-779). -/
def move16ToPsv (v : BitVec 16) : BitVec 16 :=
  let to := v &&& 0x7f#16
  let from0 := (v >>> 7) &&& 0x7f#16
  let isDrop := decide (81 ≤ from0.toNat)
  let from1 := if isDrop then from0 - 80#16 else from0
  let drop := if isDrop then 1#16 <<< 14 else 0#16
  to ||| (from1 <<< 7) ||| drop ||| (if (v &&& (1#16 <<< 14)) != 0#16 then 1#16 <<< 15 else 0#16)

/-- `__move_rotate` (src/cshogi.h:782-789), on the 32-bit pattern of the `int`. `SQ99 - to` is plain `int`
arithmetic: 32-bit two's complement. -/
def moveRotate (m : Move) : Move :=
  let to := 80#32 - (m >>> 0 &&& 0x7f#32)
  let from0 := (m >>> 7 &&& 0x7f#32)
  let from1 := if m.isDrop then from0 else 80#32 - from0
  (m &&& 0xffffC000#32) ||| to ||| (from1 <<< 7)

end Verif
