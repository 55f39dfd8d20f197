import Verif.Model.Query

/-!
# Drawings of a board (cshogi/_cshogi.pyx, `to_svg`)

A drawing is the list of its elements in the order of the document. Numbers written as attributes are rational numbers. Left out: the
attributes of the root element (among them the size, the only place where the argument `scale` is used), the lines of the board
(`SVG_SQUARES`), font families, and the sizes of the texts inside the definitions.
-/

namespace Verif.Svg

/-- An element: a coloured square with its upper left corner, a reference to a definition shifted by `x`, `y`, or a text; `turned` is
`transform="rotate(180)"` and turns the whole system of coordinates. -/
inductive Item where
  | rect (x y : Rat) (fill : List Char)
  | ref (id : List Char) (x y : Rat)
  | text (size x y : Rat) (turned : Bool) (chars : List Char)
deriving DecidableEq

/-- A definition: its name, whether it is turned upside down, and its texts from top to bottom. -/
structure Def where
  id : List Char
  turned : Bool
  chars : List Char

/-- `SVG_PIECE_DEFS` (cshogi/_cshogi.pyx:136-165). -/
def defs : List Def :=
  [⟨"black-pawn".toList, false, ['歩']⟩, ⟨"black-lance".toList, false, ['香']⟩, ⟨"black-knight".toList, false, ['桂']⟩,
   ⟨"black-silver".toList, false, ['銀']⟩, ⟨"black-gold".toList, false, ['金']⟩, ⟨"black-bishop".toList, false, ['角']⟩,
   ⟨"black-rook".toList, false, ['飛']⟩, ⟨"black-king".toList, false, ['王']⟩, ⟨"black-pro-pawn".toList, false, ['と']⟩,
   ⟨"black-pro-lance".toList, false, ['成', '香']⟩, ⟨"black-pro-knight".toList, false, ['成', '桂']⟩,
   ⟨"black-pro-silver".toList, false, ['成', '銀']⟩, ⟨"black-horse".toList, false, ['馬']⟩, ⟨"black-dragon".toList, false, ['龍']⟩,
   ⟨"white-pawn".toList, true, ['歩']⟩, ⟨"white-lance".toList, true, ['香']⟩, ⟨"white-knight".toList, true, ['桂']⟩,
   ⟨"white-silver".toList, true, ['銀']⟩, ⟨"white-gold".toList, true, ['金']⟩, ⟨"white-bishop".toList, true, ['角']⟩,
   ⟨"white-rook".toList, true, ['飛']⟩, ⟨"white-king".toList, true, ['王']⟩, ⟨"white-pro-pawn".toList, true, ['と']⟩,
   ⟨"white-pro-lance".toList, true, ['成', '香']⟩, ⟨"white-pro-knight".toList, true, ['成', '桂']⟩,
   ⟨"white-pro-silver".toList, true, ['成', '銀']⟩, ⟨"white-horse".toList, true, ['馬']⟩, ⟨"white-dragon".toList, true, ['龍']⟩]

/-- `SVG_PIECE_DEF_IDS` (cshogi/_cshogi.pyx:166-179); `None` formats as "None". -/
def defIds : List (List Char) :=
  ["None".toList,
   "black-pawn".toList, "black-lance".toList, "black-knight".toList, "black-silver".toList, "black-bishop".toList, "black-rook".toList,
   "black-gold".toList, "black-king".toList, "black-pro-pawn".toList, "black-pro-lance".toList, "black-pro-knight".toList,
   "black-pro-silver".toList, "black-horse".toList, "black-dragon".toList, "None".toList, "None".toList,
   "white-pawn".toList, "white-lance".toList, "white-knight".toList, "white-silver".toList, "white-bishop".toList, "white-rook".toList,
   "white-gold".toList, "white-king".toList, "white-pro-pawn".toList, "white-pro-lance".toList, "white-pro-knight".toList,
   "white-pro-silver".toList, "white-horse".toList, "white-dragon".toList]

/-- `NUMBER_JAPANESE_KANJI_SYMBOLS` (cshogi/_cshogi.pyx:181) up to ten; `None`, the text of an element without text, is empty. -/
def kanji (n : Nat) : List Char := ((["", "一", "二", "三", "四", "五", "六", "七", "八", "九", "十"].map String.toList)[n]?).getD []

/-- `HAND_PIECE_JAPANESE_SYMBOLS` (cshogi/_cshogi.pyx:195-199). -/
def handSymbol (hp : Nat) : List Char := ((["歩", "香", "桂", "銀", "金", "角", "飛"].map String.toList)[hp]?).getD []

/-- `SVG_COORDINATES` (cshogi/_cshogi.pyx:183): the files above the board, the ranks to its right. -/
def coordinates : List Item :=
  [.text 9 (61 / 2) 8 false ['9'], .text 9 (101 / 2) 8 false ['8'], .text 9 (141 / 2) 8 false ['7'], .text 9 (181 / 2) 8 false ['6'],
   .text 9 (221 / 2) 8 false ['5'], .text 9 (261 / 2) 8 false ['4'], .text 9 (301 / 2) 8 false ['3'], .text 9 (341 / 2) 8 false ['2'],
   .text 9 (381 / 2) 8 false ['1'],
   .text 9 (407 / 2) 23 false ['一'], .text 9 (407 / 2) 43 false ['二'], .text 9 (407 / 2) 63 false ['三'],
   .text 9 (407 / 2) 83 false ['四'], .text 9 (407 / 2) 103 false ['五'], .text 9 (407 / 2) 123 false ['六'],
   .text 9 (407 / 2) 143 false ['七'], .text 9 (407 / 2) 163 false ['八'], .text 9 (407 / 2) 183 false ['九']]

/-- `20.5 + (8 - i) * 20` with `i = sq // 9` (cshogi/_cshogi.pyx:1012-1013, 1034-1035). The square of a move may be up to 127. -/
def left (sq : Nat) : Rat := 41 / 2 + (8 - (sq / 9 : Nat)) * 20

/-- `10.5 + j * 20` with `j = sq % 9` (cshogi/_cshogi.pyx:1014, 1036). -/
def top (sq : Nat) : Rat := 21 / 2 + (sq % 9 : Nat) * 20

/-- The marks of the last move (cshogi/_cshogi.pyx:1010-1028). -/
def marks : Option Move → List Item
  | none => []
  | some m =>
    .rect (left m.dst) (top m.dst) "#f6b94d".toList ::
    (if m.isDrop then [] else [.rect (left m.src) (top m.src) "#fdf0e3".toList])

/-- The pieces on the board (cshogi/_cshogi.pyx:1033-1044). -/
def pieceRefs (p : Position) : List Item :=
  (List.finRange 81).flatMap fun s =>
    if p.piece s ≠ 0 then [.ref ('#' :: (defIds[p.piece s]?).getD []) (left s.val) (top s.val)] else []

/-- The texts for `n` pieces of the kind `hp`, the first with the number `i` (cshogi/_cshogi.pyx:1049-1059). -/
def handStep (i hp n : Nat) : List (Nat × List Char) :=
  let num := if 11 ≤ n then [(i, kanji (n % 10)), (i + 1, kanji 10)] else if 2 ≤ n then [(i, kanji n)] else []
  num ++ if 1 ≤ n then [(i + num.length, handSymbol hp)] else []

/-- The loop over the kinds (cshogi/_cshogi.pyx:1048-1059), with the next number. -/
def handLoop : Nat → List (Nat × Nat) → List (Nat × List Char) × Nat
  | i, [] => ([], i)
  | i, (hp, n) :: l => ((handStep i hp n) ++ (handLoop (i + (handStep i hp n).length) l).1, (handLoop (i + (handStep i hp n).length) l).2)

/-- The body of the loop over the players (cshogi/_cshogi.pyx:1047-1065). -/
def handPieces (p : Position) (c : Color) : List (Nat × List Char) :=
  let r := handLoop 0 ((List.range 7).zip (p.piecesInHand c))
  r.1 ++ [(r.2 + 1, ['手']), (r.2 + 2, if c = .black then ['先'] else ['後']), (r.2 + 3, if c = .black then ['☗'] else ['☖'])]

/-- `scale` for a column of `n` texts (cshogi/_cshogi.pyx:1074-1076). -/
def scaleOf (n : Nat) : Rat := if 13 < n + 1 then 13 / (n + 1) else 1

/-- The column of a player (cshogi/_cshogi.pyx:1067-1086). -/
def handTexts (p : Position) (c : Color) : List Item :=
  (handPieces p c).map fun x =>
    .text (14 * scaleOf (handPieces p c).length) (if c = .black then 214 else -16)
      ((if c = .black then 190 else -10) - 14 * scaleOf (handPieces p c).length * x.1) (decide (c = .white)) x.2

/-- `Board.to_svg(lastmove)` (cshogi/_cshogi.pyx:982-1088). -/
def toSvg (p : Position) (last : Option Move) : List Item :=
  marks last ++ coordinates ++ pieceRefs p ++ handTexts p .black ++ handTexts p .white

/-- `Board._repr_svg_()` (cshogi/_cshogi.pyx:1090-1095). -/
def reprSvg (b : Board) : List Item := toSvg b.pos (if b.lastMove = 0#32 then none else some b.lastMove)

end Verif.Svg
