import Verif.Model.Web
import Verif.Model.MatchCsa

/-!
# The CSA file of a game on the web page (cshogi/web/app.py)

The loop of `Model/Web` once more, with the listener, the time and the calls of the exporter.
-/

namespace Verif.Web
open Position

/-- A turn: that of an engine, or of a person at the page (app.py:32-41), for whom nothing is heard. -/
structure Turn extends Match.Turn where
  human : Bool

/-- The command (app.py:133). -/
def webCommand (byoyomi time inc : Option Int) : List Char :=
  Usi.goLine { byoyomi := byoyomi, btime := time, wtime := time, binc := inc, winc := inc }

/-- `listener.info` after `go` (app.py:131-133): the listener has been emptied before. -/
def Turn.heard (cmd : List Char) (t : Turn) : List Char :=
  if t.human then [] else ((⟨[], []⟩ : Match.Heard).after cmd t.toTurn).info

/-- What the loop has of a turn (app.py:133-135, 162). -/
def Turn.reply (cmd : List Char) (t : Turn) : Reply := ⟨t.bestmove, t.heard cmd, (((t.micros + 999999) / 1000000 : Nat) : Int)⟩

/-- The move in a reply (app.py:152-194) with what is handed to the exporter (app.py:155-156). -/
def saveMove (Z : Zobrist) (cmd : List Char) (st : State) (t : Turn) : Out (List Match.Row × Option Match.Flag × State) :=
  match st.game.board.pos.usiToMove t.bestmove with
  | none => .ub
  | some m => match st.game.board.pos.isLegal m with
    | none => .ub
    | some false => .ok ([], some .illegal, st)
    | some true => (Match.exported Z st.game.board.pos (t.heard cmd) t.toTurn m).bind fun rows =>
      (entry Z st.game.board m (t.reply cmd)).bind fun e =>
        match st.game.board.push Z m with
        | none => .ub
        | some b => (Match.afterMove { st.game with board := b }).bind fun x => .ok (rows, x.1, ⟨x.2, st.shown ++ [e]⟩)

/-- One round of the loop (app.py:126-194), as `round`. -/
def saveRound (Z : Zobrist) (cmd : List Char) (st : State) (t : Turn) : Out (List Match.Row × Option Match.Flag × State) :=
  match st.game.remain st.game.board.pos.turn with
  | some _ => .error
  | none =>
    if t.bestmove = "resign".toList then .ok ([], some .stopped, st)
    else if t.bestmove = "win".toList then .ok ([], some .nyugyoku, st)
    else saveMove Z cmd st t

/-- Leaving the loop, or another round. -/
def saveNext (k : State → Out (List Match.Row × Option Match.Flag × State)) :
    List Match.Row × Option Match.Flag × State → Out (List Match.Row × Option Match.Flag × State)
  | (rows, some f, st) => .ok (rows, some f, st)
  | (rows, none, st) => (k st).bind fun y => .ok (rows ++ y.1, y.2)

/-- The loop (app.py:117-194), as `loop`. -/
def saveLoop (Z : Zobrist) (cmd : List Char) (draw : Int) : State → List Turn → Out (List Match.Row × Option Match.Flag × State)
  | st, [] => .ok ([], if st.game.board.pos.gamePly > draw then some .stopped else none, st)
  | st, t :: ts =>
    if st.game.board.pos.gamePly > draw then .ok ([], some .stopped, st)
    else (saveRound Z cmd st t).bind (saveNext fun st => saveLoop Z cmd draw st ts)

/-- `csa_endgame` (app.py:200-228). -/
def endLine (draw : Int) (f : Match.Flag) (st : State) : Out String :=
  match st.game.board.pos.isGameOver with
  | none => .ub
  | some over =>
    if !over && decide (st.game.board.pos.gamePly > draw) then .ok "%JISHOGI"
    else match f with
      | .fourfold => .ok "%SENNICHITE"
      | .nyugyoku => .ok "%KACHI"
      | .illegal => .ok "%ILLEGAL_MOVE"
      | .repetitionWin => .ok (if st.game.board.pos.turn = .white then "%+ILLEGAL_ACTION" else "%-ILLEGAL_ACTION")
      | .repetitionLose => .ok "ILLEGAL_MOVE"
      | .timeup => .ok "%TIME_UP"
      | .stopped => .ok "%TORYO"

/-- The end of `match` (app.py:200-241): what the page shows and what is in the file (app.py:105-106, 155-156, 231-232); nothing is told while the game
goes on. -/
def saveEnd (draw : Int) (p : Position) (names : List Char × List Char) :
    List Match.Row × Option Match.Flag × State → Out (Option (List Entry × Csa.Game))
  | (_, none, _) => .ok none
  | (rows, some f, st) => (conclude draw (some f, st)).bind fun x => (endLine draw f st).bind fun e =>
    .ok (some (x.2, ⟨{ version := "V2".toList, names := some names }, .board p, rows, e.toList, none⟩))

/-- A game with a file (app.py:63-241). -/
def savedGame (Z : Zobrist) (byoyomi inc : Option Int) (draw : Int) (time : Option Int) (names : List Char × List Char) (p : Position) (ts : List Turn) :
    Out (Option (List Entry × Csa.Game)) :=
  (saveLoop Z (webCommand byoyomi time inc) draw ⟨Match.start p fun _ => time, []⟩ ts).bind (saveEnd draw p names)

end Verif.Web
