import Verif.Model.Outcome

/-!
# Squares, pieces and colours taken apart and named (cshogi/_cshogi.pyx, src/square.hpp, src/piece.hpp)

The functions of the module `cshogi` that take a number apart, with the tables written out as in the source, and the lists of names. An index outside a C++ table
is undefined behaviour; outside a Python list it raises (negative indices, which count from the end in Python, are left out).
-/

namespace Verif.Names

/-- An entry of a C++ table. -/
def entry {α : Type} (l : List α) (i : Int) : Out α :=
  if i < 0 then .ub else match l[i.toNat]? with
    | some a => .ok a
    | none => .ub

/-- `SquareToRank` (src/square.hpp:133-143). -/
def squareToRank : List Nat :=
  [0, 1, 2, 3, 4, 5, 6, 7, 8,
   0, 1, 2, 3, 4, 5, 6, 7, 8,
   0, 1, 2, 3, 4, 5, 6, 7, 8,
   0, 1, 2, 3, 4, 5, 6, 7, 8,
   0, 1, 2, 3, 4, 5, 6, 7, 8,
   0, 1, 2, 3, 4, 5, 6, 7, 8,
   0, 1, 2, 3, 4, 5, 6, 7, 8,
   0, 1, 2, 3, 4, 5, 6, 7, 8,
   0, 1, 2, 3, 4, 5, 6, 7, 8]

/-- `SquareToFile` (src/square.hpp:145-155). -/
def squareToFile : List Nat :=
  [0, 0, 0, 0, 0, 0, 0, 0, 0,
   1, 1, 1, 1, 1, 1, 1, 1, 1,
   2, 2, 2, 2, 2, 2, 2, 2, 2,
   3, 3, 3, 3, 3, 3, 3, 3, 3,
   4, 4, 4, 4, 4, 4, 4, 4, 4,
   5, 5, 5, 5, 5, 5, 5, 5, 5,
   6, 6, 6, 6, 6, 6, 6, 6, 6,
   7, 7, 7, 7, 7, 7, 7, 7, 7,
   8, 8, 8, 8, 8, 8, 8, 8, 8]

/-- `make_file` (_cshogi.pyx:1136-1144, src/cshogi.h:735, src/square.hpp:162-165). -/
def makeFile (sq : Int) : Out Nat := entry squareToFile sq

/-- `make_rank` (_cshogi.pyx:1147-1155, src/cshogi.h:736, src/square.hpp:158-161). -/
def makeRank (sq : Int) : Out Nat := entry squareToRank sq

/-- `piece_to_piece_type` (_cshogi.pyx:1114-1122, src/cshogi.h:732, src/piece.hpp:69): `p & 15`. -/
def pieceToPieceType (p : Int) : Int := p % 16

/-- `hand_piece_to_piece_type` (_cshogi.pyx:1125-1133, src/cshogi.h:733, src/piece.hpp:88-91): `Pawn, Lance, Knight, Silver, Gold, Bishop, Rook`. -/
def handPieceToPieceType (hp : Int) : Out Nat := entry [1, 2, 3, 4, 7, 5, 6] hp

/-- `opponent` (_cshogi.pyx:1393-1401). -/
def opponent (color : Int) : Int := if color = 1 then 0 else 1

/-- `SQUARE_NAMES` (_cshogi.pyx:63-73). -/
def squareNames : List (List Char) :=
  [['1', 'a'], ['1', 'b'], ['1', 'c'], ['1', 'd'], ['1', 'e'], ['1', 'f'], ['1', 'g'], ['1', 'h'], ['1', 'i'],
   ['2', 'a'], ['2', 'b'], ['2', 'c'], ['2', 'd'], ['2', 'e'], ['2', 'f'], ['2', 'g'], ['2', 'h'], ['2', 'i'],
   ['3', 'a'], ['3', 'b'], ['3', 'c'], ['3', 'd'], ['3', 'e'], ['3', 'f'], ['3', 'g'], ['3', 'h'], ['3', 'i'],
   ['4', 'a'], ['4', 'b'], ['4', 'c'], ['4', 'd'], ['4', 'e'], ['4', 'f'], ['4', 'g'], ['4', 'h'], ['4', 'i'],
   ['5', 'a'], ['5', 'b'], ['5', 'c'], ['5', 'd'], ['5', 'e'], ['5', 'f'], ['5', 'g'], ['5', 'h'], ['5', 'i'],
   ['6', 'a'], ['6', 'b'], ['6', 'c'], ['6', 'd'], ['6', 'e'], ['6', 'f'], ['6', 'g'], ['6', 'h'], ['6', 'i'],
   ['7', 'a'], ['7', 'b'], ['7', 'c'], ['7', 'd'], ['7', 'e'], ['7', 'f'], ['7', 'g'], ['7', 'h'], ['7', 'i'],
   ['8', 'a'], ['8', 'b'], ['8', 'c'], ['8', 'd'], ['8', 'e'], ['8', 'f'], ['8', 'g'], ['8', 'h'], ['8', 'i'],
   ['9', 'a'], ['9', 'b'], ['9', 'c'], ['9', 'd'], ['9', 'e'], ['9', 'f'], ['9', 'g'], ['9', 'h'], ['9', 'i']]

/-- `PIECE_SYMBOLS` (_cshogi.pyx:184-187). -/
def pieceSymbols : List (List Char) :=
  [[], ['p'], ['l'], ['n'], ['s'], ['b'], ['r'], ['g'], ['k'], ['+', 'p'], ['+', 'l'], ['+', 'n'], ['+', 's'], ['+', 'b'], ['+', 'r']]

/-- `HAND_PIECE_SYMBOLS` (_cshogi.pyx:192-194). -/
def handPieceSymbols : List (List Char) := [['p'], ['l'], ['n'], ['s'], ['g'], ['b'], ['r']]

/-- `MAX_PIECES_IN_HAND` (_cshogi.pyx:122-126). -/
def maxPiecesInHand : List Nat := [18, 4, 4, 4, 4, 2, 2]

end Verif.Names
