import Verif.Model.Web
import Verif.Model.CsaFile

/-!
# A CSA record on the web page (cshogi/web/app.py:275-313)

`run` with a file and without engines: the first game of the file is shown move by move. Left out: the names, HTTP.
-/

namespace Verif.Web
open Position

/-- `CSA.JAPANESE_END_GAMES` (cshogi/CSA.py:6-14); other keys raise. -/
def endWord (e : List Char) : Option (List Char) :=
  if e = "%TORYO".toList then some "投了".toList
  else if e = "%CHUDAN".toList then some "中断".toList
  else if e = "%SENNICHITE".toList then some "千日手".toList
  else if e = "%TIME_UP".toList then some "切れ負け".toList
  else if e = "%ILLEGAL_MOVE".toList then some "反則負け".toList
  else if e = "%JISHOGI".toList then some "持将棋".toList
  else if e = "%KACHI".toList then some "入力宣言".toList
  else none

/-- `CSA_TURN_SYMBOLS[c]` (app.py:10). -/
def csaSymbol (c : Char) : Option Char := if c = '+' then some '▲' else if c = '-' then some '△' else none

/-- `TURN_SYMBOLS[i % 2]` (app.py:301, 309). -/
def indexSymbol (i : Nat) : Char := if i % 2 = 0 then '▲' else '△'

/-- The loop over the words of a comment (app.py:290-297): `none` if the words are shown as they are (`pv = comment_items[1:]`). -/
def replayPv (Z : Zobrist) (p : Position) : List (List Char) → Out (Option (List (List Char)))
  | [] => .ok (some [])
  | w :: ws =>
    match p.csaToMove (w.drop 1) with
    | none => .ub
    | some m => match p.isLegal m with
      | none => .ub
      | some false => .ok none
      | some true => match w.head?.bind csaSymbol, Kif.moveToKif m 0#32 with
        | some c, some t => match p.doMove Z m with
          | none => .ub
          | some p' => (replayPv Z p' ws).bind fun r => .ok (r.map fun l => (c :: t) :: l)
        | _, _ => .error

/-- `eval` (app.py:286-287). -/
def replayEval (ws : List (List Char)) : Out (Option Int) :=
  match ws with
  | [] => .ok none
  | w :: _ => if w = [] then .ok none else match Usi.pyInt w with
    | none => .error
    | some n => .ok (some n)

/-- The entry for move `i` (app.py:281-306), with the position after the move. -/
def replayMove (Z : Zobrist) (p : Position) (i : Nat) (prev m : Move) (time : Int) (comment : List Char) : Out (Entry × Position) :=
  let items := Kif.splitAt ' ' comment
  match p.isLegal m with
  | none => .ub
  | some false => .error
  | some true => match p.doMove Z m with
    | none => .ub
    | some p' => (replayEval items).bind fun eval => (replayPv Z p' (items.drop 1)).bind fun r =>
      match Kif.moveToKif m prev with
      | none => .error
      | some t => .ok (⟨i + 1, indexSymbol i :: t, time, m, eval, Usi.joined (r.getD (items.drop 1))⟩, p')

/-- The loop over the moves (app.py:280-306). -/
def replayLoop (Z : Zobrist) (p : Position) (i : Nat) (prev : Move) : List (Move × Int × List Char) → Out (List Entry)
  | [] => .ok []
  | x :: xs => (replayMove Z p i prev x.1 x.2.1 x.2.2).bind fun e => (replayLoop Z e.2 (i + 1) x.1 xs).bind fun es => .ok (e.1 :: es)

/-- The rows of the loop: `zip` ends with the shortest list. -/
def replayRows (s : Csa.State) (comments : List (List Char)) : List (Move × Int × List Char) := s.moves.zip (s.times.zip comments)

/-- The page for a record that has been read (app.py:276-313). Without a move `i` is not defined, and an end that is not in the table
raises. -/
def replay (Z : Zobrist) (s : Csa.State) : Out (List Entry) :=
  (setSfen Z s.sfen).bind fun p => s.pyComments.bind fun cs => (replayLoop Z p 0 0#32 (replayRows s cs)).bind fun es =>
    if es = [] then .error
    else match endWord s.endgame with
      | none => .error
      | some t => .ok (es ++ [⟨es.length + 1, indexSymbol es.length :: t, 0, 0#32, none, []⟩])

/-- The page for a file: `CSA.Parser.parse_file(csa)[0]` (app.py:277). -/
def replayFile (Z : Zobrist) (stof : List Char → Option Rat) (text : List Char) : Out (List Entry) :=
  (Csa.parseStr Z stof text).bind fun ss => match ss with
    | [] => .error
    | s :: _ => replay Z s

end Verif.Web
