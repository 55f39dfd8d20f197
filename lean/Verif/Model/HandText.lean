import Verif.Model.Kif

/-!
# Reading pieces in hand (`KIF.Parser.parse_pieces_in_hand`, `KI2.Parser.parse_pieces_in_hand`)

Both functions have the same text (cshogi/KIF.py:101-123, cshogi/KI2.py:45-67). The result is a dictionary from piece types to numbers.
-/

namespace Verif.Kif

/-- A dictionary is returned, or one of two exceptions is raised. -/
inductive HandRead where
  | dict (d : Nat → Option Nat)
  | parserError
  | valueError

/-- `PIECE_JAPANESE_SYMBOLS.index(c)`; `none` is a ValueError. -/
def pieceIndex (c : Char) : Option Nat := (pieceChars.idxOf? c).map (· + 1)

/-- `NUMBER_JAPANESE_KANJI_SYMBOLS.index(n)`; `none` is a ValueError. -/
def kanjiIndex (n : List Char) : Option Nat := ((List.range 18).find? fun i => kanjiNumber (i + 1) = n).map (· + 1)

/-- `result[k] = n`. -/
def put (d : Nat → Option Nat) (k n : Nat) : Nat → Option Nat := fun j => if j = k then some n else d j

/-- An item is entered (cshogi/KIF.py:113-122), and the loop goes on with the others. -/
def handLoop : List (List Char) → (Nat → Option Nat) → HandRead
  | [], d => .dict d
  | [] :: is, d => handLoop is d
  | [c] :: is, d => match pieceIndex c with
    | none => .valueError
    | some k => handLoop is (put d k 1)
  | (c :: x :: n) :: is, d =>
    if 2 < (x :: n).length then .parserError
    else match pieceIndex c with
      | none => .valueError
      | some k => match kanjiIndex (x :: n) with
        | none => .valueError
        | some m => handLoop is (put d k m)

/-- `parse_pieces_in_hand` (cshogi/KIF.py:101-123). -/
def parseHand (v : List Char) : HandRead := if v = "なし".toList then .dict (fun _ => none) else handLoop (splitAt '　' v) fun _ => none

end Verif.Kif
