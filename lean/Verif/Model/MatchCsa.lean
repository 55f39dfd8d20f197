import Verif.Model.Opening
import Verif.Model.CsaFile

/-!
# The CSA records of a match (cshogi/cli.py)

The loop of `Model/Match` once more, with the lines that the engines write and with the calls of the exporter. Pondering is only in
`ponderHeard`. The time is measured in microseconds.
-/

namespace Verif.Match
open Position

/-- The listener of a match (cli.py:155-161): the line before the last one, and the last one. -/
structure Heard where
  info : List Char
  last : List Char

/-- A line is heard (cli.py:159-161). -/
def Heard.hear (h : Heard) (line : List Char) : Heard := ⟨h.last, line⟩

/-- What an engine does in its turn: the lines before the one with `bestmove`, the words of that one, and the time from `go` on. -/
structure Turn where
  lines : List (List Char)
  bestmove : List Char
  ponder : Option (List Char)
  micros : Nat

/-- The last line of a turn. -/
def Turn.final (t : Turn) : List Char :=
  "bestmove ".toList ++ (t.bestmove ++ match t.ponder with
    | none => []
    | some w => " ponder ".toList ++ w)

/-- The command (cli.py:321) of the side to move. -/
def goCommand (T : Terms) (byoyomi : Color → Option Int) (st : State) : List Char :=
  Usi.goLine { byoyomi := byoyomi st.board.pos.turn, btime := st.remain .black, wtime := st.remain .white, binc := T.inc .black, winc := T.inc .white }

/-- The listener after `go` (cli.py:321, usi/Engine.py:350, 361): it hears the command and every line. -/
def Heard.after (h : Heard) (cmd : List Char) (t : Turn) : Heard := (cmd :: (t.lines ++ [t.final])).foldl Heard.hear h

/-- The listener when the score is read (cli.py:341-345) if the engine ponders: by then it has also heard the commands `position` and, in another
thread, `go` and perhaps some lines of the search in the time of the opponent. -/
def ponderHeard (h : Heard) (position : List Char) (search : List (List Char)) : Heard := (position :: search).foldl Heard.hear h

/-- `math.ceil(elapsed_time * 1000)` (cli.py:328). -/
def Turn.millis (t : Turn) : Int := (((t.micros + 999) / 1000 : Nat) : Int)

/-- `int(elapsed_time)` (cli.py:358, 376). -/
def Turn.seconds (t : Turn) : Nat := t.micros / 1000000

/-- A move with the time and the comment handed to the exporter. -/
abbrev Row := Move × Option Nat × List Char

/-- `csa_exporter.move(move, time=int(elapsed_time), comment=usi_info_to_csa_comment(board, listener.info))` (cli.py:356-358, 373-376). No comment is
the same as an empty one. -/
def exported (Z : Zobrist) (p : Position) (info : List Char) (t : Turn) (m : Move) : Out (List Row) :=
  (Usi.infoComment Z p info).bind fun c => .ok [(m, some t.seconds, c.getD [])]

/-- What is handed to the exporter in a turn that is in time (cli.py:345-400). -/
def wrote (Z : Zobrist) (T : Terms) (p : Position) (info : List Char) (t : Turn) (r : Reply) : Out (List Row) :=
  if belowThreshold T r then .ok []
  else if announcesMate T r then
    match p.usiToMove r.bestmove with
    | none => .ub
    | some m => exported Z p info t m
  else if r.bestmove = "resign".toList then .ok []
  else if r.bestmove = "win".toList then .ok []
  else match p.usiToMove r.bestmove with
    | none => .ub
    | some m => match p.isLegal m with
      | none => .ub
      | some false => .ok []
      | some true => exported Z p info t m

/-- The score (cli.py:345), which is not looked at if the time is up. -/
def scoreRead (T : Terms) (st : State) (info : List Char) (t : Turn) : Out (Option Int) :=
  if (charge T st t.millis).1 then .ok none else Usi.infoScore info

/-- What has been written after a turn, and the turn itself. -/
def recordTurn (Z : Zobrist) (T : Terms) (st : State) (info : List Char) (t : Turn) : Out (List Row × Option Flag × State) :=
  (scoreRead T st info t).bind fun score =>
    (if (charge T st t.millis).1 then .ok [] else wrote Z T st.board.pos info t ⟨t.bestmove, score, t.millis⟩).bind fun rows =>
      (round Z T st ⟨t.bestmove, score, t.millis⟩).bind fun x => .ok (rows, x)

/-- Leaving the loop, or another round. -/
def recordNext (k : State → Out (Option (List Row × Flag × State))) : List Row × Option Flag × State → Out (Option (List Row × Flag × State))
  | (rows, some f, st) => .ok (some (rows, f, st))
  | (rows, none, st) => (k st).bind fun y => .ok (y.map fun z => (rows ++ z.1, z.2))

/-- The loop (cli.py:281-413) with the calls of the exporter. -/
def recordLoop (Z : Zobrist) (T : Terms) (byoyomi : Color → Option Int) : Heard → State → List Turn → Out (Option (List Row × Flag × State))
  | _, st, [] => .ok (if st.board.pos.gamePly > T.draw then some ([], .stopped, st) else none)
  | h, st, t :: ts =>
    if st.board.pos.gamePly > T.draw then .ok (some ([], .stopped, st))
    else
      let h := h.after (goCommand T byoyomi st) t
      (recordTurn Z T st h.info t).bind (recordNext fun st => recordLoop Z T byoyomi h st ts)

/-- The end of a game (cli.py:425-456, 516-518): the winner, the last line, the board and the whole record. -/
def recordEnd (T : Terms) (p : Position) (names : List Char × List Char) (opening : List Move) :
    Option (List Row × Flag × State) → Out (Option (((Option Color × String) × Board) × Csa.Game))
  | none => .ok none
  | some (rows, f, st) => (verdict T f st).bind fun v =>
    .ok (some ((v, st.board), ⟨{ version := "V2".toList, names := some names }, .board p, opening.map (fun m => (m, none, [])) ++ rows, v.2.toList, none⟩))

/-- A game with an opening (cli.py:234-456, 516-518) and its record; `p` is the board after `reset`. -/
def recordGame (Z : Zobrist) (T : Terms) (byoyomi : Color → Option Int) (p : Position) (names : List Char × List Char) (clock : Color → Option Int)
    (limit : Int) (opening : List (List Char)) (h : Heard) (ts : List Turn) : Out (Option (((Option Color × String) × Board) × Csa.Game)) :=
  (playOpening Z limit (start p clock) opening).bind fun x => (recordLoop Z T byoyomi h x.1 ts).bind (recordEnd T p names x.2.1)

/-- The name of the file of a game (cli.py:241) within the directory; `stamp` is the time in seconds as text. -/
def recordName (names : List Char × List Char) (stamp : List Char) : List Char := names.1 ++ '+' :: (names.2 ++ '+' :: (stamp ++ ".csa".toList))

/-- The directory after a file has been written with `append=False` (CSA.py:30-40). -/
def putFile (dir : List (List Char × List Char)) (name text : List Char) : List (List Char × List Char) := (name, text) :: dir.filter fun x => x.1 ≠ name

end Verif.Match
