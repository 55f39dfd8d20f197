import Verif.Model.Env

/-!
# The match runner (cshogi/cli.py)

One game of `main` without openings, pondering, display and files, and the counting of results. The engines are what they answer:
a list of replies, alternately by Black and White.
-/

namespace Verif.Match
open Position

/-- The arguments of `main` that bear on a game (cli.py:65-69): `draw`, `resign`, `mate_win`, and for each side `inc` (cli.py:196-215,
274-275). `byoyomi` is handed to the engines and used nowhere else. -/
structure Terms where
  draw : Int
  resign : Option Int
  mateWin : Bool
  inc : Color → Option Int

/-- What `engine.go` gives: the word after `bestmove`, the score that `usi_info_to_score` finds in the last line of information, and
`math.ceil(elapsed_time * 1000)`. -/
structure Reply where
  bestmove : List Char
  score : Option Int
  millis : Int

/-- The variables of the loop: the board, `remain_time` and `repetition_hash`. -/
structure State where
  board : Board
  remain : Color → Option Int
  counts : BitVec 64 → Nat

/-- The ways out of the loop, by the flags that are set: none (`stopped`: the move limit, a resignation, a mate announced, no legal
move), `is_timeup`, `is_nyugyoku`, `is_illegal`, `is_repetition_win`, `is_repetition_lose` and `is_fourfold_repetition`. -/
inductive Flag where
  | stopped | timeup | nyugyoku | illegal | repetitionWin | repetitionLose | fourfold
deriving DecidableEq

/-- The state before the first move (cli.py:234-237, 274). -/
def start (p : Position) (clock : Color → Option Int) : State := ⟨⟨p, []⟩, clock, fun _ => 0⟩

/-- The clock of the side to move (cli.py:325-338); the flag says that the time is up. -/
def charge (T : Terms) (st : State) (millis : Int) : Bool × State :=
  let c := st.board.pos.turn
  match st.remain c with
  | none => (false, st)
  | some t =>
    let t := t + (T.inc c).getD 0 - millis
    if t < 0 then
      if t > -1000 then (false, { st with remain := fun c' => if c' = c then some 0 else st.remain c' })
      else (true, { st with remain := fun c' => if c' = c then some t else st.remain c' })
    else (false, { st with remain := fun c' => if c' = c then some t else st.remain c' })

/-- The threshold for resigning (cli.py:345-351). -/
def belowThreshold (T : Terms) (r : Reply) : Bool :=
  match T.resign, r.score with
  | some n, some x => decide (x ≤ -n)
  | _, _ => false

/-- `mate_win` (cli.py:354-355). -/
def announcesMate (T : Terms) (r : Reply) : Bool := T.mateWin && decide (r.score = some 100000)

/-- The flag for `is_draw()` at the fourth occurrence (cli.py:385-394). -/
def repetitionFlag : Repetition → Flag
  | .win => .repetitionWin
  | .lose => .repetitionLose
  | _ => .fourfold

/-- After a move has been made (cli.py:380-396, 411-413): the flag if the game is over. -/
def afterMove (st : State) : Out (Option Flag × State) :=
  let st := { st with counts := Env.count st.counts st.board.pos.getKey }
  if st.counts st.board.pos.getKey = 4 then
    match st.board.pos.isDraw 2147483647 with
    | none => .ub
    | some v => .ok (some (repetitionFlag v), st)
  else
    match st.board.pos.isGameOver with
    | none => .ub
    | some over => .ok (if over then some .stopped else none, st)

/-- The move in a reply, without a test (cli.py:356-361). -/
def pushAnnounced (Z : Zobrist) (st : State) (r : Reply) : Out (Option Flag × State) :=
  match st.board.pos.usiToMove r.bestmove with
  | none => .ub
  | some m => match st.board.push Z m with
    | none => .ub
    | some b => .ok (some .stopped, { st with board := b })

/-- The move in a reply (cli.py:373-400). -/
def tryMove (Z : Zobrist) (st : State) (r : Reply) : Out (Option Flag × State) :=
  match st.board.pos.usiToMove r.bestmove with
  | none => .ub
  | some m => match st.board.pos.isLegal m with
    | none => .ub
    | some false => .ok (some .illegal, st)
    | some true => match st.board.push Z m with
      | none => .ub
      | some b => afterMove { st with board := b }

/-- One round of the loop, after the test of the move limit (cli.py:314-413). -/
def round (Z : Zobrist) (T : Terms) (st : State) (r : Reply) : Out (Option Flag × State) :=
  let (up, st) := charge T st r.millis
  if up then .ok (some .timeup, st)
  else if belowThreshold T r then .ok (some .stopped, st)
  else if announcesMate T r then pushAnnounced Z st r
  else if r.bestmove = "resign".toList then .ok (some .stopped, st)
  else if r.bestmove = "win".toList then .ok (some .nyugyoku, st)
  else tryMove Z st r

/-- Leaving the loop, or another round. -/
def proceed (k : State → Out (Option (Flag × State))) : Option Flag × State → Out (Option (Flag × State))
  | (some f, st) => .ok (some (f, st))
  | (none, st) => k st

/-- The loop (cli.py:281-413); `none` if the replies do not end the game. -/
def loop (Z : Zobrist) (T : Terms) (st : State) : List Reply → Out (Option (Flag × State))
  | [] => .ok (if st.board.pos.gamePly > T.draw then some (.stopped, st) else none)
  | r :: rs =>
    if st.board.pos.gamePly > T.draw then .ok (some (.stopped, st))
    else (round Z T st r).bind (proceed fun st => loop Z T st rs)

/-- The winner, if any, and `csa_endgame` (cli.py:425-456). -/
def verdict (T : Terms) (f : Flag) (st : State) : Out (Option Color × String) :=
  match st.board.pos.isGameOver with
  | none => .ub
  | some over =>
    if !over && decide (st.board.pos.gamePly > T.draw) then .ok (none, "%JISHOGI")
    else match f with
      | .fourfold => .ok (none, "%SENNICHITE")
      | .nyugyoku => .ok (some st.board.pos.turn, "%KACHI")
      | .illegal => .ok (some st.board.pos.turn.opp, "%ILLEGAL_MOVE")
      | .repetitionWin =>
        .ok (some st.board.pos.turn, if st.board.pos.turn = .white then "%+ILLEGAL_ACTION" else "%-ILLEGAL_ACTION")
      | .repetitionLose => .ok (some st.board.pos.turn.opp, "ILLEGAL_MOVE")
      | .timeup => .ok (some st.board.pos.turn.opp, "%TIME_UP")
      | .stopped => .ok (some st.board.pos.turn.opp, "%TORYO")

/-- After the loop. -/
def conclude (T : Terms) : Option (Flag × State) → Out (Option ((Option Color × String) × Board))
  | none => .ok none
  | some (f, st) => (verdict T f st).bind fun v => .ok (some (v, st.board))

/-- A game (cli.py:234-456): the winner and the last line of the CSA record, with the board at the end. -/
def game (Z : Zobrist) (T : Terms) (p : Position) (clock : Color → Option Int) (rs : List Reply) :
    Out (Option ((Option Color × String) × Board)) := (loop Z T (start p clock) rs).bind (conclude T)

/-! ### Counting -/

/-- `engine1_won`, `engine2_won` (six numbers each: wins, losses and draws, each as Black and as White) and `draw_count`. -/
structure Tally where
  won1 : List Nat
  won2 : List Nat
  draws : Nat

/-- cli.py:192-194. -/
def Tally.zero : Tally := ⟨[0, 0, 0, 0, 0, 0], [0, 0, 0, 0, 0, 0], 0⟩

/-- `l[i] += 1`. -/
def inc (l : List Nat) (i : Nat) : List Nat := l.modify i (· + 1)

/-- Counting one game (cli.py:459-474); `first`: engine 1 had Black. -/
def Tally.add (t : Tally) (first : Bool) (win : Option Color) : Tally :=
  let turn1 := if first then 0 else 1
  let turn2 := if first then 1 else 0
  match win with
  | none => ⟨inc t.won1 (4 + turn1), inc t.won2 (4 + turn2), t.draws + 1⟩
  | some c =>
    if turn1 = 0 ∧ c = .black ∨ turn1 = 1 ∧ c = .white then ⟨inc t.won1 turn1, inc t.won2 (2 + turn2), t.draws⟩
    else ⟨inc t.won1 (2 + turn1), inc t.won2 turn2, t.draws⟩

/-- Whether engine 1 has Black in game `n` (cli.py:198). -/
def firstIsBlack (noSwap : Bool) (n : Nat) : Bool := noSwap || n % 2 == 0

/-- The games from number `n` on. -/
def Tally.games (noSwap : Bool) (t : Tally) (n : Nat) : List (Option Color) → Tally
  | [] => t
  | w :: ws => (t.add (firstIsBlack noSwap n) w).games noSwap (n + 1) ws

/-- The numbers that `main` reports (cli.py:476-480, 559-568). -/
structure Report where
  engine1 : Nat
  engine2 : Nat
  black : Nat
  white : Nat
  draw : Nat
  total : Nat
deriving DecidableEq

def Tally.report (t : Tally) : Report :=
  let e1 := t.won1.getD 0 0 + t.won1.getD 1 0
  let e2 := t.won2.getD 0 0 + t.won2.getD 1 0
  ⟨e1, e2, t.won1.getD 0 0 + t.won2.getD 0 0, t.won1.getD 1 0 + t.won2.getD 1 0, t.draws, e1 + e2 + t.draws⟩

/-- The lines of the summary "… playing Black: wins-losses-draws" (cli.py:491-506): engine 1 with Black and White, engine 2 with
Black and White. -/
def Tally.playing (t : Tally) : List (Nat × Nat × Nat) :=
  [(t.won1.getD 0 0, t.won1.getD 2 0, t.won1.getD 4 0), (t.won1.getD 1 0, t.won1.getD 3 0, t.won1.getD 5 0),
   (t.won2.getD 0 0, t.won2.getD 2 0, t.won2.getD 4 0), (t.won2.getD 1 0, t.won2.getD 3 0, t.won2.getD 5 0)]

/-- The numbers the percentages of the summary after game `n` divide by (cli.py:485-506); lines that are not computed are left out. -/
def Tally.divisors (noSwap : Bool) (t : Tally) (n : Nat) : List Nat :=
  let sum (l : List Nat) (c : Nat) := l.getD c 0 + l.getD (2 + c) 0 + l.getD (4 + c) 0
  [t.report.total, t.report.total, sum t.won1 0] ++ (if !noSwap && decide (n > 0) then [sum t.won1 1, sum t.won2 0] else []) ++ [sum t.won2 1]

end Verif.Match
