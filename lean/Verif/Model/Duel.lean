import Verif.Model.MatchCsa
import Verif.Model.UsiSession

/-!
# Two engines in a match (cshogi/cli.py)

The loop of `Model/Match` with the two processes at the other end, each a program as in `Model/UsiSession`. Pondering, display and files are left out.
Only the time that each turn takes is given from outside.
-/

namespace Verif.Match
open Position

variable {σ : Type}

/-- The variables of the loop: those of `State`, `usi_moves`, `engines_order` and the listener. -/
structure Table (σ : Type) where
  game : State
  usi : List (List Char)
  engines : Color → Usi.Client σ
  heard : Heard

/-- `engine_index` (cli.py:282): 0, which is Black, for odd numbers. -/
def engineIndex (st : State) : Color := if (st.board.pos.gamePly - 1) % 2 = 0 then .black else .white

/-- The arguments of `go` (cli.py:285, 321). -/
def goArgs (T : Terms) (byoyomi : Color → Option Int) (st : State) : Usi.GoArgs :=
  { byoyomi := byoyomi (engineIndex st), btime := st.remain .black, wtime := st.remain .white, binc := T.inc .black, winc := T.inc .white }

/-- `engine.go` (usi/Engine.py:319-366) as `Usi.talk`, with the lines that the listener hears. -/
def goHeard (G : Usi.Program σ) (c : Usi.Client σ) (a : Usi.GoArgs) : Usi.Outcome (Usi.Client σ × List (List Char) × List Char × Option (List Char)) :=
  match c.proc with
  | none => .raises
  | some p => match Usi.readTo Usi.bestOf (p.unread ++ (G.hear p.eng (Usi.goLine a)).2) with
    | none => .never
    | some (before, x, rest) => .returns ({ c with proc := some ⟨(G.hear p.eng (Usi.goLine a)).1, rest⟩ }, before, x)

/-- `engine.position` and `engine.go` (cli.py:314-321). -/
def ask (G : Usi.Program σ) (c : Usi.Client σ) (usi : List (List Char)) (a : Usi.GoArgs) :
    Usi.Outcome (Usi.Client σ × List (List Char) × List Char × Option (List Char)) :=
  match c.call G (.position (some usi) "startpos".toList) with
  | .raises => .raises
  | .never => .never
  | .returns (c, _) => goHeard G c a

/-- The rest of a round (cli.py:325-413). -/
def judge (Z : Zobrist) (T : Terms) (st : State) (info : List Char) (t : Turn) : Out (Option Flag × State) :=
  (scoreRead T st info t).bind fun score => round Z T st ⟨t.bestmove, score, t.millis⟩

/-- Leaving the loop, or another round. -/
def duelNext (k : State → Usi.Outcome (Out (Option (Flag × State)))) : Out (Option Flag × State) → Usi.Outcome (Out (Option (Flag × State)))
  | .error => .returns .error
  | .ub => .returns .ub
  | .ok (some f, st) => .returns (.ok (some (f, st)))
  | .ok (none, st) => k st

/-- The table after a move (cli.py:379). -/
def Table.next (tb : Table σ) (c : Usi.Client σ) (h : Heard) (word : List Char) (st : State) : Table σ :=
  ⟨st, tb.usi ++ [word], fun i => if i = engineIndex tb.game then c else tb.engines i, h⟩

/-- The loop (cli.py:281-413). The numbers are the microseconds of the turns; `none` if there are no more of them. -/
def duel (Z : Zobrist) (T : Terms) (byoyomi : Color → Option Int) (G : Color → Usi.Program σ) :
    Table σ → List Nat → Usi.Outcome (Out (Option (Flag × State)))
  | tb, [] => .returns (.ok (if tb.game.board.pos.gamePly > T.draw then some (.stopped, tb.game) else none))
  | tb, micros :: ds =>
    if tb.game.board.pos.gamePly > T.draw then .returns (.ok (some (.stopped, tb.game)))
    else match ask (G (engineIndex tb.game)) (tb.engines (engineIndex tb.game)) tb.usi (goArgs T byoyomi tb.game) with
      | .raises => .raises
      | .never => .never
      | .returns (c, lines, word, ponder) =>
        let t : Turn := ⟨lines, word, ponder, micros⟩
        let h := ((tb.heard.hear (Usi.positionLine (some tb.usi) "startpos".toList)).after (Usi.goLine (goArgs T byoyomi tb.game)) t)
        duelNext (fun st => duel Z T byoyomi G (tb.next c h word st) ds) (judge Z T tb.game h.info t)

/-- After the loop (cli.py:425-456). -/
def duelEnd (T : Terms) : Usi.Outcome (Out (Option (Flag × State))) → Usi.Outcome (Out (Option ((Option Color × String) × Board)))
  | .raises => .raises
  | .never => .never
  | .returns x => .returns (x.bind (conclude T))

/-- A game between two engines with an opening (cli.py:234-456); `p` is the board after `reset`. -/
def duelFrom (Z : Zobrist) (T : Terms) (byoyomi : Color → Option Int) (G : Color → Usi.Program σ) (p : Position) (clock : Color → Option Int) (limit : Int)
    (opening : List (List Char)) (engines : Color → Usi.Client σ) (h : Heard) (ds : List Nat) : Usi.Outcome (Out (Option ((Option Color × String) × Board))) :=
  match playOpening Z limit (start p clock) opening with
  | .error => .returns .error
  | .ub => .returns .ub
  | .ok x => duelEnd T (duel Z T byoyomi G ⟨x.1, x.2.2, engines, h⟩ ds)

end Verif.Match
