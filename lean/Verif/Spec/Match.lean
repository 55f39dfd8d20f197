import Verif.Spec.Repetition
import Verif.Spec.Line
import Verif.Spec.Record
import Verif.Spec.Declare

/-!
# How games end by the rules

Positions are listed latest first.
-/

namespace Verif.Spec

/-- The positions of a game: after the moves, and `h` before `P`. -/
def Pos.record (P : Pos) (h : List Pos) : List Mv → List Pos
  | [] => P :: h
  | mv :: mvs => (P.play mv).record (P :: h) mvs

open Classical in
/-- How often a position stands in a record. -/
noncomputable def occurrences (q : Pos) (l : List Pos) : Nat := l.countP fun r => decide (r = q)

/-- It first stood there `d` plies ago. -/
def FirstAt (q : Pos) (l : List Pos) (d : Nat) : Prop := l[d]? = some q ∧ ∀ d', l[d']? = some q → d' ≤ d

/-- The result when `q` has come up for the fourth time: whoever checked with every move since its first occurrence loses, and
if nobody did, the game is drawn. (That both did is not provided for.) -/
def Repeated (q : Pos) (h : List Pos) : Result → Prop
  | .wins c => ∀ d, FirstAt q (q :: h) d → Perpetual (q :: h) c.opp d ∧ ¬ Perpetual (q :: h) c d
  | .draw => ∀ d, FirstAt q (q :: h) d → ∀ c, ¬ Perpetual (q :: h) c d

/-- Nothing changed in the character of a repetition on the way: no other position with the same board came up in between, a
side that checked with every move since some occurrence did so since the first, and not both sides did. -/
def Steady (q : Pos) (h : List Pos) : Prop :=
  (∀ r ∈ h, q.Recurs r → r = q) ∧
  (∀ d d' c, 4 ≤ d → (q :: h)[d]? = some q → FirstAt q (q :: h) d' → Perpetual (q :: h) c d → Perpetual (q :: h) c d') ∧
  ∀ d c, FirstAt q (q :: h) d → ¬ (Perpetual (q :: h) c d ∧ Perpetual (q :: h) c.opp d)

/-! ### A match game -/

/-- The rules of a match: the last ply that may be played, the score at which a player resigns, whether a player who announces mate
wins at once, and the increment and the byoyomi of each side in milliseconds. -/
structure Rules where
  limit : Int
  resign : Option Int
  mateWin : Bool
  inc : Color → Option Int
  byoyomi : Color → Int

/-- What a player answers. -/
inductive Answer where
  | resign | declare | move (mv : Mv)
deriving DecidableEq

/-- The answer with the score claimed (mate: 100000) and the time taken. -/
structure Said where
  answer : Answer
  score : Option Int
  millis : Int

/-- The player has used up the time and the byoyomi, and a second more. -/
def Rules.Overrun (R : Rules) (clock : Color → Option Int) (c : Color) (s : Said) : Prop :=
  ∃ t, clock c = some t ∧ t + (R.inc c).getD 0 + R.byoyomi c + 1000 ≤ s.millis

/-- The clocks afterwards. -/
def Rules.charge (R : Rules) (clock : Color → Option Int) (c : Color) (s : Said) : Color → Option Int :=
  fun c' => if c' = c then (clock c).map fun t => max 0 (t + (R.inc c).getD 0 - s.millis) else clock c'

/-- The player resigns, or is taken to resign. -/
def Rules.GivesUp (R : Rules) (s : Said) : Prop :=
  s.answer = .resign ∨ ∃ n x, R.resign = some n ∧ s.score = some x ∧ x ≤ -n

/-- The player announces mate, and this decides the game. -/
def Rules.Announces (R : Rules) (s : Said) : Prop := R.mateWin = true ∧ s.score = some 100000

/-- `Ends R clock P h ss r`: in the position `P` with the record `h`, if the players answer `ss`, the game ends with `r`. -/
inductive Ends (R : Rules) : (Color → Option Int) → Pos → List Pos → List Said → Result → Prop
  /-- No further ply may be played. -/
  | limit (clock : Color → Option Int) (P : Pos) (h : List Pos) (ss : List Said) :
    R.limit < (h.length + 1 : Int) → Ends R clock P h ss .draw
  | time (clock : Color → Option Int) (P : Pos) (h : List Pos) (s : Said) (ss : List Said) :
    (h.length + 1 : Int) ≤ R.limit → R.Overrun clock P.turn s → Ends R clock P h (s :: ss) (.wins P.turn.opp)
  | resign (clock : Color → Option Int) (P : Pos) (h : List Pos) (s : Said) (ss : List Said) :
    (h.length + 1 : Int) ≤ R.limit → ¬ R.Overrun clock P.turn s → R.GivesUp s → Ends R clock P h (s :: ss) (.wins P.turn.opp)
  | declare (clock : Color → Option Int) (P : Pos) (h : List Pos) (s : Said) (ss : List Said) :
    (h.length + 1 : Int) ≤ R.limit → ¬ R.Overrun clock P.turn s → ¬ R.GivesUp s → s.answer = .declare → P.CanDeclare →
    Ends R clock P h (s :: ss) (.wins P.turn)
  | misdeclare (clock : Color → Option Int) (P : Pos) (h : List Pos) (s : Said) (ss : List Said) :
    (h.length + 1 : Int) ≤ R.limit → ¬ R.Overrun clock P.turn s → ¬ R.GivesUp s → s.answer = .declare → ¬ P.CanDeclare →
    Ends R clock P h (s :: ss) (.wins P.turn.opp)
  | illegal (clock : Color → Option Int) (P : Pos) (h : List Pos) (s : Said) (ss : List Said) (mv : Mv) :
    (h.length + 1 : Int) ≤ R.limit → ¬ R.Overrun clock P.turn s → ¬ R.GivesUp s → s.answer = .move mv → ¬ P.Legal mv →
    Ends R clock P h (s :: ss) (.wins P.turn.opp)
  | announced (clock : Color → Option Int) (P : Pos) (h : List Pos) (s : Said) (ss : List Said) (mv : Mv) :
    (h.length + 1 : Int) ≤ R.limit → ¬ R.Overrun clock P.turn s → ¬ R.GivesUp s → s.answer = .move mv → P.Legal mv →
    R.Announces s → Ends R clock P h (s :: ss) (.wins P.turn)
  /-- The position has come up for the fourth time. -/
  | repeated (clock : Color → Option Int) (P : Pos) (h : List Pos) (s : Said) (ss : List Said) (mv : Mv) (r : Result) :
    (h.length + 1 : Int) ≤ R.limit → ¬ R.Overrun clock P.turn s → ¬ R.GivesUp s → s.answer = .move mv → P.Legal mv →
    ¬ R.Announces s → occurrences (P.play mv) (P.play mv :: P :: h) = 4 → Repeated (P.play mv) (P :: h) r → Ends R clock P h (s :: ss) r
  /-- The opponent has no legal move. -/
  | mate (clock : Color → Option Int) (P : Pos) (h : List Pos) (s : Said) (ss : List Said) (mv : Mv) :
    (h.length + 1 : Int) ≤ R.limit → ¬ R.Overrun clock P.turn s → ¬ R.GivesUp s → s.answer = .move mv → P.Legal mv →
    ¬ R.Announces s → occurrences (P.play mv) (P.play mv :: P :: h) ≠ 4 → (∀ mv', ¬ (P.play mv).Legal mv') →
    Ends R clock P h (s :: ss) (.wins P.turn)
  | next (clock : Color → Option Int) (P : Pos) (h : List Pos) (s : Said) (ss : List Said) (mv mv' : Mv) (r : Result) :
    (h.length + 1 : Int) ≤ R.limit → ¬ R.Overrun clock P.turn s → ¬ R.GivesUp s → s.answer = .move mv → P.Legal mv →
    ¬ R.Announces s → occurrences (P.play mv) (P.play mv :: P :: h) ≠ 4 → (P.play mv).Legal mv' →
    Ends R (R.charge clock P.turn s) (P.play mv) (P :: h) ss r → Ends R clock P h (s :: ss) r

/-- Why a game ends. -/
inductive Reason where
  | limit | time | resign | declare | illegal | announced | repeated (r : Result) | mate
deriving DecidableEq

/-- `EndsBy R clock P h ss reason`: as `Ends`, with what ends the game in place of the result. -/
inductive EndsBy (R : Rules) : (Color → Option Int) → Pos → List Pos → List Said → Reason → Prop
  | limit (clock : Color → Option Int) (P : Pos) (h : List Pos) (ss : List Said) :
    R.limit < (h.length + 1 : Int) → EndsBy R clock P h ss .limit
  | time (clock : Color → Option Int) (P : Pos) (h : List Pos) (s : Said) (ss : List Said) :
    (h.length + 1 : Int) ≤ R.limit → R.Overrun clock P.turn s → EndsBy R clock P h (s :: ss) .time
  | resign (clock : Color → Option Int) (P : Pos) (h : List Pos) (s : Said) (ss : List Said) :
    (h.length + 1 : Int) ≤ R.limit → ¬ R.Overrun clock P.turn s → R.GivesUp s → EndsBy R clock P h (s :: ss) .resign
  | declare (clock : Color → Option Int) (P : Pos) (h : List Pos) (s : Said) (ss : List Said) :
    (h.length + 1 : Int) ≤ R.limit → ¬ R.Overrun clock P.turn s → ¬ R.GivesUp s → s.answer = .declare → EndsBy R clock P h (s :: ss) .declare
  | illegal (clock : Color → Option Int) (P : Pos) (h : List Pos) (s : Said) (ss : List Said) (mv : Mv) :
    (h.length + 1 : Int) ≤ R.limit → ¬ R.Overrun clock P.turn s → ¬ R.GivesUp s → s.answer = .move mv → ¬ P.Legal mv →
    EndsBy R clock P h (s :: ss) .illegal
  | announced (clock : Color → Option Int) (P : Pos) (h : List Pos) (s : Said) (ss : List Said) (mv : Mv) :
    (h.length + 1 : Int) ≤ R.limit → ¬ R.Overrun clock P.turn s → ¬ R.GivesUp s → s.answer = .move mv → P.Legal mv →
    R.Announces s → EndsBy R clock P h (s :: ss) .announced
  | repeated (clock : Color → Option Int) (P : Pos) (h : List Pos) (s : Said) (ss : List Said) (mv : Mv) (r : Result) :
    (h.length + 1 : Int) ≤ R.limit → ¬ R.Overrun clock P.turn s → ¬ R.GivesUp s → s.answer = .move mv → P.Legal mv →
    ¬ R.Announces s → occurrences (P.play mv) (P.play mv :: P :: h) = 4 → Repeated (P.play mv) (P :: h) r → EndsBy R clock P h (s :: ss) (.repeated r)
  | mate (clock : Color → Option Int) (P : Pos) (h : List Pos) (s : Said) (ss : List Said) (mv : Mv) :
    (h.length + 1 : Int) ≤ R.limit → ¬ R.Overrun clock P.turn s → ¬ R.GivesUp s → s.answer = .move mv → P.Legal mv →
    ¬ R.Announces s → occurrences (P.play mv) (P.play mv :: P :: h) ≠ 4 → (∀ mv', ¬ (P.play mv).Legal mv') →
    EndsBy R clock P h (s :: ss) .mate
  | next (clock : Color → Option Int) (P : Pos) (h : List Pos) (s : Said) (ss : List Said) (mv mv' : Mv) (r : Reason) :
    (h.length + 1 : Int) ≤ R.limit → ¬ R.Overrun clock P.turn s → ¬ R.GivesUp s → s.answer = .move mv → P.Legal mv →
    ¬ R.Announces s → occurrences (P.play mv) (P.play mv :: P :: h) ≠ 4 → (P.play mv).Legal mv' →
    EndsBy R (R.charge clock P.turn s) (P.play mv) (P :: h) ss r → EndsBy R clock P h (s :: ss) r

/-- The line for it at the end of a CSA record. Two lines are not those of the standard: a loss by perpetual check by the side that has
just moved is given by the side, but if the other side loses, the line has no `%`; a draw by repetition with the last ply is written as one
by the move limit. `turn` is the side to move at the end, `late` says that the limit is passed. -/
def Reason.Line (turn : Color) (late : Prop) : Reason → String → Prop
  | .limit, t => t = "%JISHOGI"
  | .time, t => t = "%TIME_UP"
  | .resign, t => t = "%TORYO"
  | .declare, t => t = "%KACHI"
  | .illegal, t => t = "%ILLEGAL_MOVE"
  | .announced, t => t = "%TORYO"
  | .mate, t => t = "%TORYO"
  | .repeated .draw, t => t = "%SENNICHITE" ∨ late ∧ t = "%JISHOGI"
  | .repeated (.wins .white), t => t = if turn = .white then "%+ILLEGAL_ACTION" else "ILLEGAL_MOVE"
  | .repeated (.wins .black), t => t = if turn = .black then "%-ILLEGAL_ACTION" else "ILLEGAL_MOVE"

end Verif.Spec
