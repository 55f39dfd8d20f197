import Verif.Model.Sfen
import Verif.Model.Gen

/-!
# Moves as text: USI and CSA (move.cpp, usi.cpp)

Strings are lists of characters (bytes below 128: the Python wrapper encodes to ASCII). `none` is undefined behaviour: an
index out of range.
-/

namespace Verif

/-- `squareToStringUSI` (src/square.hpp:214-219); no square: the tables are read out of range. -/
def squareUSI (s : Nat) : Option (List Char) :=
  if s < 81 then some [Char.ofNat (49 + s / 9), Char.ofNat (97 + s % 9)] else none

/-- `squareToStringCSA` (src/square.hpp:223-228). -/
def squareCSA (s : Nat) : Option (List Char) :=
  if s < 81 then some [Char.ofNat (49 + s / 9), Char.ofNat (49 + s % 9)] else none

/-- `HandPieceToStringTable` (src/move.cpp:25). -/
def handPieceChars : HandPiece → Option (List Char)
  | 0 => some ['P', '*'] | 1 => some ['L', '*'] | 2 => some ['N', '*'] | 3 => some ['S', '*'] | 4 => some ['G', '*']
  | 5 => some ['B', '*'] | 6 => some ['R', '*'] | _ => none

/-- `PieceTypeToStringTable` (src/move.cpp:28-30). -/
def pieceTypeChars : PieceType → Option (List Char)
  | 0 => some [] | 1 => some ['F', 'U'] | 2 => some ['K', 'Y'] | 3 => some ['K', 'E'] | 4 => some ['G', 'I']
  | 5 => some ['K', 'A'] | 6 => some ['H', 'I'] | 7 => some ['K', 'I'] | 8 => some ['O', 'U'] | 9 => some ['T', 'O']
  | 10 => some ['N', 'Y'] | 11 => some ['N', 'K'] | 12 => some ['N', 'G'] | 13 => some ['U', 'M'] | 14 => some ['R', 'Y']
  | _ => none

/-- `Move::toUSI`, Python `move_to_usi` (src/move.cpp:34-44). -/
def Move.toUSI (m : Move) : Option (List Char) :=
  if m = 0#32 then some ['N', 'o', 'n', 'e']
  else if m.isDrop then
    (handPieceChars m.handPieceDropped).bind fun h => (squareUSI m.dst).map fun t => h ++ t
  else
    (squareUSI m.src).bind fun f => (squareUSI m.dst).map fun t => f ++ t ++ (if m.isPromotion then ['+'] else [])

/-- `Move::toCSA`, Python `move_to_csa` (src/move.cpp:46-52). -/
def Move.toCSA (m : Move) : Option (List Char) :=
  if m = 0#32 then some ['N', 'o', 'n', 'e']
  else
    (if m.isDrop then some ['0', '0'] else squareCSA m.src).bind fun f =>
      (squareCSA m.dst).bind fun t => (pieceTypeChars m.pieceTypeTo).map fun k => f ++ t ++ k

/-- `moveStr[i]`: the terminator at the end, undefined behind it. -/
def charAt (s : List Char) (i : Nat) : Option Char := if i = s.length then some '\x00' else s[i]?

/-- `makeSquare` of a file and a rank character, if `isInSquare` (src/square.hpp:119-131, 230-233). -/
def squareOf (base : Nat) (f r : Char) : Option Square :=
  if h : (49 ≤ f.toNat ∧ f.toNat < 58) ∧ base ≤ r.toNat ∧ r.toNat < base + 9 then
    some ⟨(f.toNat - 49) * 9 + (r.toNat - base), by omega⟩
  else none

/-- The two characters at `i` and `i + 1` read as a square; the outer `none` is undefined behaviour. Both are read before the
test. -/
def squareAt (base : Nat) (s : List Char) (i : Nat) : Option (Option Square) :=
  (charAt s i).bind fun f => (charAt s (i + 1)).map fun r => squareOf base f r

/-- The legality test at the end of both parsers (src/usi.cpp:99-104, 162-167). -/
def Position.checked (p : Position) (m : Move) : Option Move :=
  (p.isLegal m).map fun b => if b then m else 0#32

/-- The drop branch of `usiToMoveBody` (src/usi.cpp:65-76). -/
def Position.usiDrop (p : Position) (pc : Piece) (s : List Char) : Option Move :=
  (charAt s 1).bind fun c1 =>
    if c1 ≠ '*' then some 0#32
    else (squareAt 97 s 2).bind fun t => match t with
      | none => some 0#32
      | some t => p.checked (makeDropMove (pieceType pc) t.val)

/-- The board-move branch of `usiToMoveBody` (src/usi.cpp:78-97). -/
def Position.usiBoard (p : Position) (s : List Char) : Option Move :=
  (squareAt 97 s 0).bind fun f => match f with
    | none => some 0#32
    | some f => (squareAt 97 s 2).bind fun t => match t with
      | none => some 0#32
      | some t => (charAt s 4).bind fun c4 =>
        if c4 = '\x00' then p.checked (boardMove p.piece f t false)
        else if c4 = '+' then (charAt s 5).bind fun c5 =>
          if c5 ≠ '\x00' then some 0#32 else p.checked (boardMove p.piece f t true)
        else some 0#32

/-- `usiToMoveBody`, Python `move_from_usi` (src/usi.cpp:63-105, src/cshogi.h:215-217). -/
def Position.usiToMove (p : Position) (s : List Char) : Option Move :=
  (charAt s 0).bind fun c0 => match charToPiece c0 with
    | some pc => p.usiDrop pc s
    | none => p.usiBoard s

/-- `StringToPieceTypeCSA` (src/usi.cpp:35-60). -/
def csaPieceType (s : List Char) : Option PieceType :=
  if s = ['F', 'U'] then some 1 else if s = ['K', 'Y'] then some 2 else if s = ['K', 'E'] then some 3
  else if s = ['G', 'I'] then some 4 else if s = ['K', 'A'] then some 5 else if s = ['H', 'I'] then some 6
  else if s = ['K', 'I'] then some 7 else if s = ['O', 'U'] then some 8 else if s = ['T', 'O'] then some 9
  else if s = ['N', 'Y'] then some 10 else if s = ['N', 'K'] then some 11 else if s = ['N', 'G'] then some 12
  else if s = ['U', 'M'] then some 13 else if s = ['R', 'Y'] then some 14 else none

/-- The move part of `csaToMoveBody` (src/usi.cpp:140-160). -/
def Position.csaBoard (p : Position) (f0 f1 : Char) (t : Square) (pt : PieceType) : Option Move :=
  if f0 = '0' ∧ f1 = '0' then p.checked (makeDropMove pt t.val)
  else match squareOf 49 f0 f1 with
    | none => some 0#32
    | some f =>
      if pieceType (p.piece f) = pt then p.checked (boardMove p.piece f t false)
      else if pieceType (p.piece f) + 8 = pt then p.checked (boardMove p.piece f t true)
      else some 0#32

/-- `csaToMoveBody`, Python `move_from_csa` (src/usi.cpp:129-168, src/cshogi.h:219-221). -/
def Position.csaToMove (p : Position) (s : List Char) : Option Move :=
  match s with
  | [f0, f1, t0, t1, k0, k1] =>
    match squareOf 49 t0 t1 with
    | none => some 0#32
    | some t => match csaPieceType [k0, k1] with
      | none => some 0#32
      | some pt => p.csaBoard f0 f1 t pt
  | _ => some 0#32

end Verif
