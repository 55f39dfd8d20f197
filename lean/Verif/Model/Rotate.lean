import Verif.Model.Sfen

/-!
# rotate_sfen (cshogi.h)

Strings are lists of characters with codes below 128. Cells of an expanded rank are `unsigned char` values, modelled as numbers
below 256. Every index used is in range: `result[pos]` is reached only with `pos < 9`.
-/

namespace Verif
namespace Rotate

/-- `flipPiece` (src/cshogi.h:516-524), on character codes. -/
def flipPiece (c : Nat) : Nat :=
  if 65 ≤ c ∧ c ≤ 90 then c - 65 + 97
  else if 97 ≤ c ∧ c ≤ 122 then c - 97 + 65
  else c

/-- `expandRank` (src/cshogi.h:527-552): the characters still to read, `pos` and `result`. -/
def expandRank : List Char → Nat → List Nat → List Nat
  | [], _, v => v
  | c :: cs, pos, v =>
    if pos < 9 then
      if 49 ≤ c.toNat ∧ c.toNat ≤ 57 then expandRank cs (pos + (c.toNat - 48)) v
      else if c = '+' then
        match cs with
        | [] => v
        | d :: cs => expandRank cs (pos + 1) (v.set pos ((d.toNat + 128) % 256))
      else expandRank cs (pos + 1) (v.set pos c.toNat)
    else v

/-- `if (emptyCount > 0) result += std::to_string(emptyCount)` (src/cshogi.h:565-568, 584-586). -/
def emptyText (n : Nat) : List Char := if n > 0 then natChars n else []

/-- `compressRank` (src/cshogi.h:556-589): the cells still to write and `emptyCount`. -/
def compressRank : List Nat → Nat → List Char
  | [], n => emptyText n
  | b :: l, n =>
    if b = 0 then compressRank l (n + 1)
    else
      emptyText n ++ ((if b ≥ 128 then ['+', Char.ofNat (flipPiece (b - 128))] else [Char.ofNat (flipPiece b)])
        ++ compressRank l 0)

/-- `reverseRank` (src/cshogi.h:592-601). -/
def reverseRank (rank : List Char) : List Char := compressRank (expandRank rank 0 (List.replicate 9 0)).reverse 0

/-- A capital letter. -/
def isUpper (c : Char) : Bool := decide (65 ≤ c.toNat) && decide (c.toNat ≤ 90)
/-- A small letter. -/
def isLower (c : Char) : Bool := decide (97 ≤ c.toNat) && decide (c.toNat ≤ 122)

/-- The parsing loop of `flipHand` (src/cshogi.h:611-639): `senteHand` and `goteHand` from the characters still to read. -/
def splitHand : List Char → List Char × List Char
  | [] => ([], [])
  | c :: cs =>
    if 50 ≤ c.toNat ∧ c.toNat ≤ 57 then
      match cs with
      | [] => ([], [])
      | d :: cs =>
        if isUpper d then (c :: d :: (splitHand cs).1, (splitHand cs).2)
        else ((splitHand cs).1, c :: d :: (splitHand cs).2)
    else if isUpper c then (c :: (splitHand cs).1, (splitHand cs).2)
    else if isLower c then ((splitHand cs).1, c :: (splitHand cs).2)
    else splitHand cs

/-- `flipPiece` on a string (src/cshogi.h:643-648). -/
def flipText (cs : List Char) : List Char := cs.map fun c => Char.ofNat (flipPiece c.toNat)

/-- `flipHand` (src/cshogi.h:604-653). -/
def flipHand (hand : List Char) : List Char :=
  if hand = ['-'] then ['-']
  else
    let result := flipText (splitHand hand).2 ++ flipText (splitHand hand).1
    if result = [] then ['-'] else result

/-- `iss >> word`: the word and the rest. -/
def nextWord (cs : List Char) : List Char × List Char :=
  let cs := cs.dropWhile Position.isSpace
  (cs.takeWhile (fun c => !Position.isSpace c), cs.dropWhile (fun c => !Position.isSpace c))

/-- Splitting the board into ranks (src/cshogi.h:661-676): characters still to read and `currentRank`. -/
def splitRanks : List Char → List Char → List (List Char)
  | [], cur => [cur]
  | c :: cs, cur => if c = '/' then cur :: splitRanks cs [] else splitRanks cs (cur ++ [c])

/-- Joining the ranks (src/cshogi.h:685-690). -/
def joinRanks : List (List Char) → List Char
  | [] => []
  | [a] => a
  | a :: l => a ++ '/' :: joinRanks l

/-- `__rotate_sfen`, Python `rotate_sfen` (src/cshogi.h:512-700). -/
def rotateSfen (sfen : List Char) : List Char :=
  let w1 := nextWord sfen
  let w2 := nextWord w1.2
  let w3 := nextWord w2.2
  let w4 := nextWord w3.2
  joinRanks ((splitRanks w1.1 []).reverse.map reverseRank) ++ (' ' :: (if w2.1 = ['b'] then ['w'] else ['b']) ++
    (' ' :: flipHand w3.1 ++ (' ' :: w4.1)))

end Rotate
end Verif
