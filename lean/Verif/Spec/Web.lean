import Verif.Spec.Match
import Verif.Spec.Usi

/-!
# What a page about a running game has to show
-/

namespace Verif.Spec.Web

/-- The sign of a side. -/
def sign : Color → Char
  | .black => '▲'
  | .white => '△'

/-- The names of the pieces. -/
def name : Kind → Char
  | .pawn => '歩' | .lance => '香' | .knight => '桂' | .silver => '銀' | .gold => '金' | .bishop => '角' | .rook => '飛' | .king => '玉'
  | .proPawn => 'と' | .proLance => '杏' | .proKnight => '圭' | .proSilver => '全' | .horse => '馬' | .dragon => '龍'

/-- A square: its file with a wide digit, its rank with a Chinese one. -/
def square (t : Square) : List Char :=
  [("１２３４５６７８９".toList).getD (t.val / 9) ' ', ("一二三四五六七八九".toList).getD (t.val % 9) ' ']

/-- The destination: `同` if the last move went there, too. -/
def place (last : Option Square) (t : Square) : List Char := if last = some t then "同　".toList else square t

/-- A move as KIF records write it. -/
def kifMove (P : Pos) (last : Option Square) : Mv → List Char
  | .move s t pro => place last t ++ (((P.board s).map fun x => [name x.2]).getD [] ++ ((if pro then ['成'] else []) ++
      ['(', ("123456789".toList).getD (s.val / 9) ' ', ("123456789".toList).getD (s.val % 9) ' ', ')']))
  | .drop h t => place last t ++ [name h.kind, '打']

/-- Where a move goes. -/
def dest : Mv → Square
  | .move _ t _ => t
  | .drop _ t => t

/-- Moves one after the other, each with the sign of the side. -/
def kifLine (P : Pos) (last : Option Square) : List Mv → List (List Char)
  | [] => []
  | mv :: mvs => (sign P.turn :: kifMove P last mv) :: kifLine (P.play mv) (some (dest mv)) mvs

/-- What the lines at the end of a game say. -/
def readResult (t : List Char) : Option Result :=
  [("持将棋".toList, Result.draw), ("千日手".toList, .draw), ("▲投了".toList, .wins .white), ("△投了".toList, .wins .black),
   ("▲入玉宣言".toList, .wins .black), ("△入玉宣言".toList, .wins .white), ("先手の反則負け".toList, .wins .white),
   ("後手の反則負け".toList, .wins .black), ("先手の反則勝ち".toList, .wins .black), ("後手の反則勝ち".toList, .wins .white),
   ("先手の切れ負け".toList, .wins .white), ("後手の切れ負け".toList, .wins .black)].lookup t

/-- The sides by their names. -/
def side : Color → List Char
  | .black => "先手".toList
  | .white => "後手".toList

/-- What the last line says about the reason, `turn` being the side to move at the end; a draw by repetition with the last ply counts as
one by the move limit (`late`). -/
def EndLine (turn : Color) (late : Prop) : Reason → List Char → Prop
  | .limit, t => t = "持将棋".toList
  | .time, t => t = side turn ++ "の切れ負け".toList
  | .resign, t => t = sign turn :: "投了".toList
  | .announced, t => t = sign turn :: "投了".toList
  | .mate, t => t = sign turn :: "投了".toList
  | .declare, t => t = sign turn :: "入玉宣言".toList
  | .illegal, t => t = side turn ++ "の反則負け".toList
  | .repeated .draw, t => t = "千日手".toList ∨ late ∧ t = "持将棋".toList
  | .repeated (.wins c), t => t = if c = turn then side turn ++ "の反則勝ち".toList else side turn ++ "の反則負け".toList

end Verif.Spec.Web
