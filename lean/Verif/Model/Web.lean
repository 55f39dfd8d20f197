import Verif.Model.Match
import Verif.Model.Kif
import Verif.Model.Usi

/-!
# The web application (cshogi/web/app.py)

The game that `match` plays and what the page shows of it. As in `Model/Match` the players are what they answer. Left out: the
processes, names and options, the CSA file (it is in `Model/WebCsa`), HTTP.
-/

namespace Verif.Web
open Position

/-- An element of `moves` (app.py:159-166, 234-241). `eval` is `none` for `'null'`. -/
structure Entry where
  number : Int
  text : List Char
  secs : Int
  move : Move
  eval : Option Int
  pv : List Char
deriving DecidableEq

/-- What `engine.go` gives: the word after `bestmove`, the last line of information that the listener heard, and
`math.ceil(elapsed_time)`. For `Human` (app.py:32-41) the line is empty. -/
structure Reply where
  bestmove : List Char
  info : List Char
  secs : Int

/-- The variables of the loop: those it shares with the match runner, and `moves`. -/
structure State where
  game : Match.State
  shown : List Entry

/-- `TURN_SYMBOLS[c]` (app.py:9). -/
def symbol (c : Color) : Char := if c = .black then '▲' else '△'

/-- `TURN_SYMBOLS[(board.move_number + 1) % 2]` (app.py:161). -/
def numberSymbol (n : Int) : Char := if (n + 1) % 2 = 0 then '▲' else '△'

/-- The loop of `usi_info_to_pv` (app.py:52-59); the exception of `move_to_kif` is `.error`. -/
def pvLoop (Z : Zobrist) (b : Board) : List (List Char) → Out (List (List Char))
  | [] => .ok []
  | w :: ws =>
    match b.pos.usiToMove w with
    | none => .ub
    | some m => match b.pos.isLegal m with
      | none => .ub
      | some false => .ok []
      | some true => match Kif.moveToKif m (Kif.peek b) with
        | none => .error
        | some t => match b.push Z m with
          | none => .ub
          | some b' => (pvLoop Z b' ws).bind fun l => .ok ((symbol b.pos.turn :: t) :: l)

/-- `usi_info_to_pv` and `pv if pv is not None else ''` (app.py:46-61, 165). -/
def pvText (Z : Zobrist) (b : Board) (info : List Char) : Out (List Char) :=
  match Usi.usiInfo info with
  | none => .ok []
  | some m => (pvLoop Z b (Kif.splitAt ' ' m.2.2)).bind fun l => .ok (Usi.joined l)

/-- The entry for a move (app.py:157-166). -/
def entry (Z : Zobrist) (b : Board) (m : Move) (r : Reply) : Out Entry :=
  (Usi.infoScore r.info).bind fun score => (pvText Z b r.info).bind fun pv =>
    match Kif.moveToKif m (Kif.peek b) with
    | none => .error
    | some t => .ok ⟨b.pos.gamePly, numberSymbol b.pos.gamePly :: t, r.secs, m,
        score.map fun x => x * (if b.pos.turn = .black then 1 else -1), pv⟩

/-- The move in a reply (app.py:152-194). From the repetition test on the code is that of cli.py (`Match.afterMove`). -/
def tryMove (Z : Zobrist) (st : State) (r : Reply) : Out (Option Match.Flag × State) :=
  match st.game.board.pos.usiToMove r.bestmove with
  | none => .ub
  | some m => match st.game.board.pos.isLegal m with
    | none => .ub
    | some false => .ok (some .illegal, st)
    | some true => (entry Z st.game.board m r).bind fun e =>
      match st.game.board.push Z m with
      | none => .ub
      | some b => (Match.afterMove { st.game with board := b }).bind fun x => .ok (x.1, ⟨x.2, st.shown ++ [e]⟩)

/-- One round of the loop, after the test of the move limit (app.py:126-194). With a clock `inc_time`, which is nowhere defined,
raises NameError (app.py:138-139). -/
def round (Z : Zobrist) (st : State) (r : Reply) : Out (Option Match.Flag × State) :=
  match st.game.remain st.game.board.pos.turn with
  | some _ => .error
  | none =>
    if r.bestmove = "resign".toList then .ok (some .stopped, st)
    else if r.bestmove = "win".toList then .ok (some .nyugyoku, st)
    else tryMove Z st r

/-- Leaving the loop, or another round. -/
def proceed (k : State → Out (Option Match.Flag × State)) : Option Match.Flag × State → Out (Option Match.Flag × State)
  | (some f, st) => .ok (some f, st)
  | (none, st) => k st

/-- The loop (app.py:117-194) with the replies that have come so far; the flag is `none` while it waits for the next one. -/
def loop (Z : Zobrist) (draw : Int) (st : State) : List Reply → Out (Option Match.Flag × State)
  | [] => .ok (if st.game.board.pos.gamePly > draw then some .stopped else none, st)
  | r :: rs =>
    if st.game.board.pos.gamePly > draw then .ok (some .stopped, st)
    else (round Z st r).bind (proceed fun st => loop Z draw st rs)

/-- `result` (app.py:200-228). -/
def resultText (draw : Int) (f : Match.Flag) (st : State) : Out (List Char) :=
  match st.game.board.pos.isGameOver with
  | none => .ub
  | some over =>
    let turn := st.game.board.pos.turn
    if !over && decide (st.game.board.pos.gamePly > draw) then .ok "持将棋".toList
    else match f with
      | .fourfold => .ok "千日手".toList
      | .nyugyoku => .ok (symbol turn :: "入玉宣言".toList)
      | .illegal => .ok ((if turn.opp = .white then "先手" else "後手").toList ++ "の反則負け".toList)
      | .repetitionWin => .ok ((if turn = .black then "先手" else "後手").toList ++ "の反則勝ち".toList)
      | .repetitionLose => .ok ((if turn.opp = .white then "先手" else "後手").toList ++ "の反則負け".toList)
      | .timeup => .ok ((if turn.opp = .white then "先手" else "後手").toList ++ "の切れ負け".toList)
      | .stopped => .ok (symbol turn :: "投了".toList)

/-- The end of `match` (app.py:234-241). -/
def conclude (draw : Int) : Option Match.Flag × State → Out (Bool × List Entry)
  | (none, st) => .ok (false, st.shown)
  | (some f, st) => (resultText draw f st).bind fun t =>
      .ok (true, st.shown ++ [⟨st.game.board.pos.gamePly, t, 0, 0#32, none, []⟩])

/-- What the page shows when these replies have come, and whether the game is over. `time` is the argument of that name. -/
def page (Z : Zobrist) (draw : Int) (time : Option Int) (p : Position) (rs : List Reply) : Out (Bool × List Entry) :=
  (loop Z draw ⟨Match.start p fun _ => time, []⟩ rs).bind (conclude draw)

/-- `human` in the answer to `/update` (app.py:328-333): the side that the page asks for a move, `humans` saying which sides are played
on the page. -/
def asked (humans : Color → Bool) (shown : List Entry) : Option Color :=
  let c : Color := if shown.length % 2 = 0 then .black else .white
  if humans c then some c else none

end Verif.Web
