import Verif.Model.Setup
import Verif.Model.Outcome

/-!
# SFEN text (position.cpp)

Strings are lists of characters; Python passes ASCII only (`encode('ascii')`, cshogi/_cshogi.pyx:355, 385). A character
stream is `some rest`, or `none` once `ss.get` has failed at the end of the text: every later read fails too.

Not modelled: overflow of `sq` (needs a text of more than 20 million slashes).
-/

namespace Verif

/-- `PieceToCharUSITable` (src/position.cpp:198-201). -/
def usiChars : Piece → List Char
  | 1 => ['P'] | 2 => ['L'] | 3 => ['N'] | 4 => ['S'] | 5 => ['B'] | 6 => ['R'] | 7 => ['G'] | 8 => ['K']
  | 9 => ['+', 'P'] | 10 => ['+', 'L'] | 11 => ['+', 'N'] | 12 => ['+', 'S'] | 13 => ['+', 'B'] | 14 => ['+', 'R']
  | 17 => ['p'] | 18 => ['l'] | 19 => ['n'] | 20 => ['s'] | 21 => ['b'] | 22 => ['r'] | 23 => ['g'] | 24 => ['k']
  | 25 => ['+', 'p'] | 26 => ['+', 'l'] | 27 => ['+', 'n'] | 28 => ['+', 's'] | 29 => ['+', 'b'] | 30 => ['+', 'r']
  | _ => []

/-- `CharToPieceUSI` (src/position.hpp:573-587); `none` for `isLegalChar` false. -/
def charToPiece : Char → Option Piece
  | 'P' => some 1 | 'L' => some 2 | 'N' => some 3 | 'S' => some 4 | 'B' => some 5 | 'R' => some 6 | 'G' => some 7 | 'K' => some 8
  | 'p' => some 17 | 'l' => some 18 | 'n' => some 19 | 's' => some 20 | 'b' => some 21 | 'r' => some 22 | 'g' => some 23
  | 'k' => some 24
  | _ => none

/-- The decimal digit `d`. -/
def digitCh (d : Nat) : Char := Char.ofNat (48 + d)

/-- Decimal digits of a number; the fuel is the number of digits allowed. -/
def natCharsF : Nat → Nat → List Char
  | 0, _ => []
  | k + 1, n => if n < 10 then [digitCh n] else natCharsF k (n / 10) ++ [digitCh (n % 10)]

/-- `ss << n` for a non-negative `int` (C++ decimal output). -/
def natChars (n : Nat) : List Char := natCharsF (n + 1) n

/-- `ss << n` for an `int`. -/
def intChars (n : Int) : List Char := if n < 0 then '-' :: natChars n.natAbs else natChars n.natAbs

namespace Position

/-- `if (space) { ss << space; space = 0; }` (src/position.cpp:2965-2968, 2972-2975). -/
def sfenSpace (space : Nat) : List Char := if space ≠ 0 then natChars space else []

/-- One rank (src/position.cpp:2959-2975): the inner loop over the squares `l` with `space` empty squares pending. The
counter is always 0 again at the end of a rank. -/
def sfenRank (piece : Square → Piece) : List Square → Nat → List Char
  | [], space => sfenSpace space
  | s :: l, space =>
    if piece s = 0 then sfenRank piece l (space + 1)
    else sfenSpace space ++ (usiChars (piece s) ++ sfenRank piece l 0)

/-- The squares of rank `r` from file 9 to file 1. -/
def rankSquares (r : Nat) : List Square := [8, 7, 6, 5, 4, 3, 2, 1, 0].map fun f => sqN (9 * f + r)

/-- The board part (src/position.cpp:2958-2978). -/
def sfenBoard (piece : Square → Piece) : List Char :=
  (List.range 9).flatMap fun r => sfenRank piece (rankSquares r) 0 ++ (if r ≠ 8 then ['/'] else [])

/-- One side's hand (src/position.cpp:2985-2993). -/
def sfenHand (h : Hand) (c : Color) : List Char :=
  [6, 5, 4, 3, 2, 1, 0].flatMap fun hp =>
    let num := h.numOf hp
    if num = 0 then [] else (if num ≠ 1 then natChars num else []) ++ usiChars (mkPiece c (handToPt hp))

/-- `toSFEN(ply)` (src/position.cpp:2955-2999). -/
def toSfen (p : Position) (ply : Int) : List Char :=
  sfenBoard p.piece ++ ((if p.turn = .black then [' ', 'b', ' '] else [' ', 'w', ' ']) ++
    ((if p.hand .black = 0#32 ∧ p.hand .white = 0#32 then ['-', ' ']
      else sfenHand (p.hand .black) .black ++ (sfenHand (p.hand .white) .white ++ [' '])) ++ intChars ply))

/-- Value of a digit character. -/
def digitVal (c : Char) : Nat := c.toNat - 48

/-- The loop over the board part (src/position.cpp:3339-3358). `setPiece` with type 15 (`+G`, `+g`) writes `byTypeBB_[15]`
and with code 32 (`+k`) writes `byColorBB_[2]`, both outside their arrays. -/
def readBoard : List Char → Position → Int → Nat → Out (Position × Option (List Char))
  | [], p, _, _ => .ok (p, none)
  | ch :: cs, p, sq, flag =>
    if ch = ' ' then .ok (p, some cs)
    else if ch.isDigit then readBoard cs p (sq + -9 * digitVal ch) flag
    else if ch = '/' then readBoard cs p (sq + (9 * 9 + 1)) flag
    else if ch = '+' then readBoard cs p sq 8
    else match charToPiece ch with
      | none => .error
      | some pc =>
        if 0 ≤ sq ∧ sq < 81 then
          if 15 ≤ pieceType (pc + flag) ∨ 32 ≤ pc + flag then .ub
          else readBoard cs (p.setPiece (pc + flag) (sqN sq.toNat)) (sq + -9) 0
        else .error

/-- The loop over the turn (src/position.cpp:3364-3371). -/
def readTurn : List Char → Position → Out (Position × Option (List Char))
  | [], p => .ok (p, none)
  | ch :: cs, p =>
    if ch = ' ' then .ok (p, some cs)
    else if ch = 'b' then readTurn cs { p with turn := .black }
    else if ch = 'w' then readTurn cs { p with turn := .white }
    else .error

/-- The loop over the hands (src/position.cpp:3374-3389). `digits * 10 + token - '0'` overflows `int` for long digit
strings; a king has no hand piece, so `K` reads `HandPieceShiftBits[7]` outside its table. -/
def readHands : List Char → Position → Nat → Out (Position × Option (List Char))
  | [], p, _ => .ok (p, none)
  | ch :: cs, p, digits =>
    if ch = ' ' then .ok (p, some cs)
    else if ch = '-' then readHands cs { p with hand := fun _ => Hand.empty } digits
    else if ch.isDigit then
      if digits * 10 + ch.toNat ≤ 2147483647 then readHands cs p (digits * 10 + digitVal ch) else .ub
    else match charToPiece ch with
      | none => .error
      | some pc =>
        if 7 ≤ ptToHand (pieceType pc) then .ub
        else readHands cs (p.setHand (ptToHand (pieceType pc)) (pieceColor pc) (if digits = 0 then 1 else digits)) 0

/-- `isspace` in the "C" locale. -/
def isSpace (c : Char) : Bool := c.toNat == 32 || (decide (9 ≤ c.toNat) && decide (c.toNat ≤ 13))

/-- The optional sign of a number: whether it is negative, and the rest. -/
def readSign : List Char → Bool × List Char
  | '-' :: r => (true, r)
  | '+' :: r => (false, r)
  | r => (false, r)

/-- The digits at the front of the text, as a number. -/
def readNat (cs : List Char) : Nat := (cs.takeWhile Char.isDigit).foldl (fun a c => a * 10 + digitVal c) 0

/-- `ss >> gamePly_` (src/position.cpp:3392; C++ `num_get` for `int`): skip blanks, an optional sign, digits; 0 on failure,
clamped to the range of `int`; unchanged, that is 0, when nothing is left. -/
def readInt (cs : List Char) : Int :=
  let x := readSign (cs.dropWhile isSpace)
  if x.1 then max (-(readNat x.2 : Int)) (-2147483648) else min (readNat x.2 : Int) 2147483647

/-- The move number read from the stream. -/
def readPly : Option (List Char) → Int
  | none => 0
  | some cs => readInt cs

/-- Reading on from a stream, if it has not failed yet. -/
def onStream {α : Type} (f : List Char → α → Out (α × Option (List Char))) (x : α × Option (List Char)) :
    Out (α × Option (List Char)) :=
  match x.2 with
  | none => .ok (x.1, none)
  | some cs => f cs x.1

/-- The parsing part of `Position::set(sfen)` (src/position.cpp:3331-3392). -/
def parseSfen (cs : List Char) : Out Position :=
  (readBoard cs clear 72 0).bind fun x =>
  (onStream readTurn x).bind fun x =>
  (onStream (fun cs p => readHands cs p 0) x).bind fun x =>
  .ok { x.1 with gamePly := readPly x.2 }

/-- `Position::set(sfen)` (src/position.cpp:3331-3403), Python `Board(sfen)`, `set_sfen`; `.error` is the exception
"incorrect SFEN string". King squares and golds are computed with the keys at the end, nothing in between uses them. -/
def setSfen (Z : Zobrist) (cs : List Char) : Out Position := (parseSfen cs).bind fun p => .ok (finish Z p)

end Position
end Verif
