/-!
# Basic enumerations (square.hpp, color.hpp, piece.hpp)

Piece types, pieces and hand pieces are kept as the numeric codes of the C++ enums, because the code does
arithmetic on them (`pt + 8` to promote, `c << 4 | pt` to build a piece, `& 15` to take it apart).
-/

namespace Verif

/-- `enum Color` (src/color.hpp:27-29): `Black = 0`, `White = 1`. -/
inductive Color where
  | black
  | white
  deriving DecidableEq, Repr, Inhabited

namespace Color
/-- Numeric value of the enum (src/color.hpp:27-29). -/
def idx : Color → Nat
  | black => 0
  | white => 1

/-- `oppositeColor` (src/color.hpp:32-37). -/
def opp : Color → Color
  | black => white
  | white => black

/-- `static_cast<Color>(n)` for the two valid values; other values are not colours (src/piece.hpp:73). -/
def ofIdx (n : Nat) : Color := if n = 0 then black else white
end Color

/-- `enum Square` (src/square.hpp:33-45): `SQ11 = 0 .. SQ99 = 80`, `SquareNum = 81`. Only the on-board
values; places where the code can hold `SquareNum` use `Nat` or `Option`. -/
abbrev Square := Fin 81

/-- `makeFile` / `SquareToFile` (src/square.hpp:145-165). -/
def file (s : Square) : Nat := s.val / 9
/-- `makeRank` / `SquareToRank` (src/square.hpp:133-161). -/
def rank (s : Square) : Nat := s.val % 9
/-- `makeSquare` (src/square.hpp:129-131), for on-board file and rank. -/
def mkSq (f r : Fin 9) : Square := ⟨f.val * 9 + r.val, by omega⟩

/-- `inverse(Square)` (src/square.hpp:236): `SquareNum - 1 - sq`. -/
def invSq (s : Square) : Square := ⟨80 - s.val, by omega⟩

/-- `enum PieceType` (src/piece.hpp:32-41). -/
notation "PieceType" => Nat
namespace PT
/-- src/piece.hpp:35 -/
abbrev Occupied : PieceType := 0
/-- src/piece.hpp:36 -/
abbrev Pawn : PieceType := 1
/-- src/piece.hpp:36 -/
abbrev Lance : PieceType := 2
/-- src/piece.hpp:36 -/
abbrev Knight : PieceType := 3
/-- src/piece.hpp:36 -/
abbrev Silver : PieceType := 4
/-- src/piece.hpp:36 -/
abbrev Bishop : PieceType := 5
/-- src/piece.hpp:36 -/
abbrev Rook : PieceType := 6
/-- src/piece.hpp:36 -/
abbrev Gold : PieceType := 7
/-- src/piece.hpp:36 -/
abbrev King : PieceType := 8
/-- src/piece.hpp:37 -/
abbrev ProPawn : PieceType := 9
/-- src/piece.hpp:37 -/
abbrev ProLance : PieceType := 10
/-- src/piece.hpp:37 -/
abbrev ProKnight : PieceType := 11
/-- src/piece.hpp:37 -/
abbrev ProSilver : PieceType := 12
/-- src/piece.hpp:37 -/
abbrev Horse : PieceType := 13
/-- src/piece.hpp:37 -/
abbrev Dragon : PieceType := 14
end PT

/-- `enum Piece` (src/piece.hpp:44-53): `Empty = 0`, black 1..14, white 17..30, `PieceNone = 31`. -/
notation "Piece" => Nat

/-- `pieceToPieceType` (src/piece.hpp:69): `p & 15`. -/
def pieceType (p : Piece) : PieceType := p % 16
/-- `pieceToColor` (src/piece.hpp:71-74): `p >> 4`. -/
def pieceColor (p : Piece) : Color := Color.ofIdx (p / 16)
/-- `colorAndPieceTypeToPiece` (src/piece.hpp:76): `(c << 4) | pt`, written as a sum since `pt < 16`. -/
def mkPiece (c : Color) (pt : PieceType) : Piece := 16 * c.idx + pt

/-- `enum HandPiece` (src/piece.hpp:60-62): HPawn 0, HLance 1, HKnight 2, HSilver 3, HGold 4, HBishop 5,
HRook 6, HandPieceNum 7. -/
notation "HandPiece" => Nat

/-- `PieceTypeToHandPieceTable` (src/piece.hpp:83-86). `7 = HandPieceNum` is the "not a hand piece" filler. -/
def ptToHand : PieceType → HandPiece
  | 1 => 0 | 2 => 1 | 3 => 2 | 4 => 3 | 5 => 5 | 6 => 6 | 7 => 4
  | 9 => 0 | 10 => 1 | 11 => 2 | 12 => 3 | 13 => 5 | 14 => 6
  | _ => 7

/-- `HandPieceToPieceTypeTable` (src/piece.hpp:88-91). Indices above 6 do not occur in the table; 0 there. -/
def handToPt : HandPiece → PieceType
  | 0 => 1 | 1 => 2 | 2 => 3 | 3 => 4 | 4 => 7 | 5 => 5 | 6 => 6
  | _ => 0

/-- `canPromote(Color, Rank)` (src/square.hpp:246-251): mask test `0x1c00007 & (1 << ((c << 4) + rank))`. -/
def canPromoteRank (c : Color) (r : Nat) : Bool :=
  (0x1c00007#32 &&& (1#32 <<< (c.idx <<< 4 + r))) != 0#32

/-- `canPromote(Color, Square)` (src/square.hpp:257-259). -/
def canPromote (c : Color) (s : Square) : Bool := canPromoteRank c (rank s)

/-- `isInFrontOf<US, BRANK, WRANK>` (src/square.hpp:92-93). -/
def isInFrontOf (us : Color) (brank wrank target : Nat) : Bool :=
  match us with
  | .black => decide (target < brank)
  | .white => decide (wrank < target)

end Verif
