import Verif.Spec.Rules

/-!
# Board diagrams in the KIF format

How a diagram is read: a line with White's hand, the numbers of the files, a bar, the nine ranks from the top with the cells from the
ninth file to the first, a bar, a line with Black's hand, and a line if White is to move. A cell has two characters; the first is `v` for
White's pieces.
-/

namespace Verif.Spec.Bod

/-- The characters of the pieces on the board. -/
def kindOf (c : Char) : Option Kind :=
  [('歩', Kind.pawn), ('香', .lance), ('桂', .knight), ('銀', .silver), ('金', .gold), ('角', .bishop), ('飛', .rook), ('玉', .king),
   ('と', .proPawn), ('杏', .proLance), ('圭', .proKnight), ('全', .proSilver), ('馬', .horse), ('龍', .dragon)].lookup c

/-- A cell. -/
def cell (a b : Char) : Option (Option (Color × Kind)) :=
  if a = ' ' ∧ b = '・' then some none
  else if a = ' ' then (kindOf b).map fun k => some (.black, k)
  else if a = 'v' then (kindOf b).map fun k => some (.white, k) else none

/-- Cells one after the other. -/
def cells : List Char → Option (List (Option (Color × Kind)))
  | a :: b :: l => (cell a b).bind fun x => (cells l).map (x :: ·)
  | [] => some []
  | [_] => none

/-- The line of a rank, counted from 0: a bar, the cells, a bar, the number of the rank. -/
def rank (r : Nat) (l : List Char) : Option (List (Option (Color × Kind))) :=
  if l.take 1 = ['|'] ∧ l.drop 19 = '|' :: (("一二三四五六七八九".toList)[r]?).toList then cells ((l.drop 1).take 18) else none

/-- The number behind a piece in hand; nothing means one. -/
def number (l : List Char) : Option Nat :=
  ([("", 1), ("二", 2), ("三", 3), ("四", 4), ("五", 5), ("六", 6), ("七", 7), ("八", 8), ("九", 9), ("十", 10), ("十一", 11), ("十二", 12), ("十三", 13),
    ("十四", 14), ("十五", 15), ("十六", 16), ("十七", 17), ("十八", 18)].map fun (x : String × Nat) => (x.1.toList, x.2)).lookup l

/-- Pieces of one kind in hand. -/
def item : List Char → Option (HKind × Nat)
  | [] => none
  | c :: l => ([('歩', HKind.pawn), ('香', .lance), ('桂', .knight), ('銀', .silver), ('金', .gold), ('角', .bishop), ('飛', .rook)].lookup c).bind fun h =>
      (number l).map fun n => (h, n)

/-- Split at a character. -/
def splitAt (x : Char) : List Char → List (List Char)
  | [] => [[]]
  | c :: l => if c = x then [] :: splitAt x l else match splitAt x l with | [] => [[c]] | w :: ws => (c :: w) :: ws

/-- The number of pieces of a kind in a list of items. -/
def found (is : List (List Char)) (h : HKind) : Nat :=
  (is.findSome? fun i => (item i).bind fun x => if x.1 = h then some x.2 else none).getD 0

/-- The pieces in hand. -/
def hand (l : List Char) : Option (HKind → Nat) :=
  if l = "なし".toList then some fun _ => 0
  else if ((splitAt '　' l).all fun i => (item i).isSome) = true then some (found (splitAt '　' l)) else none

/-- The text behind a heading. -/
def after (head l : List Char) : Option (List Char) := if l.take head.length = head then some (l.drop head.length) else none

/-- The board out of the nine lines. -/
def board (ls : List (List Char)) (s : Square) : Option (Color × Kind) :=
  ((((rank (s.val % 9) (ls.getD (s.val % 9) [])).getD [])[8 - s.val / 9]?).getD none)

/-- A diagram. -/
def read (text : List Char) : Option Pos :=
  let ls := splitAt '\n' text
  (after "後手の持駒：".toList (ls.getD 0 [])).bind fun w => (hand w).bind fun hw =>
  (after "先手の持駒：".toList (ls.getD 13 [])).bind fun b => (hand b).bind fun hb =>
  if ls.getD 1 [] = "  ９ ８ ７ ６ ５ ４ ３ ２ １".toList ∧ ((List.range 9).all fun r => (rank r (ls.getD (r + 3) [])).isSome) = true then
    some ⟨board (ls.drop 3), fun c => if c = .black then hb else hw, if ls.getD 14 [] = "後手番".toList then .white else .black⟩
  else none

/-- The names of the pieces in the text of a move. -/
def name : Kind → List Char
  | .pawn => ['歩'] | .lance => ['香'] | .knight => ['桂'] | .silver => ['銀'] | .gold => ['金'] | .bishop => ['角'] | .rook => ['飛'] | .king => ['玉']
  | .proPawn => ['と'] | .proLance => ['成', '香'] | .proKnight => ['成', '桂'] | .proSilver => ['成', '銀'] | .horse => ['馬'] | .dragon => ['龍']

/-- The name of a square. -/
def square (s : Square) : List Char :=
  (("１２３４５６７８９".toList)[s.val / 9]?).toList ++ (("一二三四五六七八九".toList)[s.val % 9]?).toList

/-- Where a move goes. -/
def target : Mv → Square
  | .move _ t _ => t
  | .drop _ t => t

/-- The kind of piece that is moved or dropped. -/
def moved (q : Pos) : Mv → Option Kind
  | .move s _ _ => (q.board s).map (·.2)
  | .drop h _ => some h.kind

/-- The mark of a player. -/
def mark : Color → Char
  | .black => '▲' | .white => '△'

end Verif.Spec.Bod
