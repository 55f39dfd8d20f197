import Verif.Model.Sfen
import Verif.Model.Csa

/-!
# PGN records (cshogi/PGN.py)

`Exporter.movetext` and the moves in it. `none` is an exception (an index out of range). Not modelled: files, and the tag pairs apart
from the text of the result.
-/

namespace Verif.Pgn

/-- `PGN_SQUARE_NAMES` (cshogi/PGN.py:5-15), file by file. -/
def squareNames : List (List Char) :=
  ["i9", "i8", "i7", "i6", "i5", "i4", "i3", "i2", "i1",
   "h9", "h8", "h7", "h6", "h5", "h4", "h3", "h2", "h1",
   "g9", "g8", "g7", "g6", "g5", "g4", "g3", "g2", "g1",
   "f9", "f8", "f7", "f6", "f5", "f4", "f3", "f2", "f1",
   "e9", "e8", "e7", "e6", "e5", "e4", "e3", "e2", "e1",
   "d9", "d8", "d7", "d6", "d5", "d4", "d3", "d2", "d1",
   "c9", "c8", "c7", "c6", "c5", "c4", "c3", "c2", "c1",
   "b9", "b8", "b7", "b6", "b5", "b4", "b3", "b2", "b1",
   "a9", "a8", "a7", "a6", "a5", "a4", "a3", "a2", "a1"].map String.toList

/-- `PGN_HAND_PIECES` (cshogi/PGN.py:17-19). -/
def handPieces : List (List Char) := [['P'], ['L'], ['N'], ['S'], ['G'], ['B'], ['R']]

/-- `PGN_PIECE_TYPES` (cshogi/PGN.py:21-25). Adding `None` (index 0) to a text is an exception. -/
def pieceTypes : List (Option (List Char)) :=
  [none, some ['P'], some ['L'], some ['N'], some ['S'], some ['B'], some ['R'], some ['G'], some ['K'],
   some ['+', 'P'], some ['+', 'L'], some ['+', 'K'], some ['+', 'S'], some ['+', 'B'], some ['+', 'R']]

/-- `move_to_san` (cshogi/PGN.py:27-35). -/
def moveToSan (m : Move) : Option (List Char) :=
  squareNames[m.dst]?.bind fun t =>
    if m.isDrop then handPieces[m.handPieceDropped]?.map fun h => h ++ '@' :: t
    else squareNames[m.src]?.bind fun f => (pieceTypes[m.pieceTypeFrom]?.bind id).map fun k =>
      k ++ f ++ t ++ (if m.isPromotion then ['+'] else [])

/-- `self.result_str` (cshogi/PGN.py:81-88). -/
def resultText : Option Csa.Win → List Char
  | some .black => "1-0".toList
  | some .white => "0-1".toList
  | some .draw => "1/2-1/2".toList
  | none => "*".toList

/-- `part` for move `i` of `n` (cshogi/PGN.py:99-105). -/
def part (res : List Char) (n i : Nat) (m : Move) : Option (List Char) :=
  (moveToSan m).map fun t => (if i % 2 = 0 then natChars (i / 2 + 1) ++ ['.', ' '] else []) ++ t ++
    (if i + 1 = n then ' ' :: res else [])

/-- `if line != '': line += ' '; line += part` (cshogi/PGN.py:107-109). -/
def joined (line p : List Char) : List Char := if line ≠ [] then line ++ ' ' :: p else p

/-- The loop of `movetext` from move `i` (cshogi/PGN.py:98-114): what is written from there on, `line` being the line so far. -/
def writeMoves (res : List Char) (n : Nat) : Nat → List Move → List Char → Option (List Char)
  | _, [], line => some (line ++ ['\n', '\n'])
  | i, m :: ms, line => (part res n i m).bind fun p =>
      if line.length + p.length ≤ 80 then writeMoves res n (i + 1) ms (joined line p)
      else (writeMoves res n (i + 1) ms p).map fun out => line ++ '\n' :: out

/-- `Exporter.movetext` (cshogi/PGN.py:92-115) after `tag_pair` with that result. -/
def movetext (ms : List Move) (win : Option Csa.Win) : Option (List Char) := writeMoves (resultText win) ms.length 0 ms []

end Verif.Pgn
