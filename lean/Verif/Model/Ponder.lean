import Verif.Model.Duel

/-!
# Two engines that ponder (cshogi/cli.py)

The loop of `Model/Duel` with `ponder=True`: while one engine thinks about its move, the other searches the position that it expects, in a thread that waits
for its answer. The thread writes `go ponder` at once and reads when the result is asked for. What the listener shows of an engine then depends on the
threads, so the score is given from outside, as are the milliseconds of a turn; display and files are left out.
-/

namespace Verif.Match
open Position

variable {σ : Type}

/-- One call after the other. -/
def andThen {α β : Type} : Usi.Outcome α → (α → Usi.Outcome β) → Usi.Outcome β
  | .returns a, f => f a
  | .raises, _ => .raises
  | .never, _ => .never

/-- What `go` returns. -/
abbrev Words := List Char × Option (List Char)

/-- The variables of the loop (cli.py:266-280): `bestmove`, `pondermove`, `pre_pondermove`, `feature`, `pre_feature`. A future is a number; `threads` has, for
each future, its engine and its result once it is there. -/
structure PonderTable (σ : Type) where
  game : State
  usi : List (List Char)
  engines : Color → Usi.Client σ
  best : Option (List Char)
  ponder : Option (List Char)
  prePonder : Option (List Char)
  feature : Option Nat
  preFeature : Option Nat
  threads : List (Color × Option Words)

/-- `if pondermove:` -/
def truthy : Option (List Char) → Bool
  | some (_ :: _) => true
  | _ => false

def PonderTable.setEngine (tb : PonderTable σ) (i : Color) (c : Usi.Client σ) : PonderTable σ :=
  { tb with engines := fun j => if j = i then c else tb.engines j }

/-- A call that only writes. -/
def PonderTable.send (G : Color → Usi.Program σ) (tb : PonderTable σ) (i : Color) (call : Usi.Call) : Usi.Outcome (PonderTable σ) :=
  andThen ((tb.engines i).call (G i) call) fun x => .returns (tb.setEngine i x.1)

/-- The thread reads what the engine has written (usi/Engine.py:354-367). -/
def PonderTable.collect (tb : PonderTable σ) (f : Nat) (i : Color) : Usi.Outcome (PonderTable σ × Words) :=
  match (tb.engines i).proc with
  | none => .raises
  | some p => match Usi.readTo Usi.bestOf p.unread with
    | none => .never
    | some (_, x, rest) =>
      .returns ({ tb.setEngine i { tb.engines i with proc := some ⟨p.eng, rest⟩ } with threads := tb.threads.set f (i, some x) }, x)

/-- `feature.result()`: a result that is there is given again. -/
def PonderTable.result (tb : PonderTable σ) : Option Nat → Usi.Outcome (PonderTable σ × Words)
  | none => .raises
  | some f => match tb.threads[f]? with
    | none => .raises
    | some (_, some x) => .returns (tb, x)
    | some (i, none) => tb.collect f i

/-- Before the move (cli.py:293-312): `ponderhit` or `stop`, and the answer in the first case. -/
def settle (G : Color → Usi.Program σ) (tb : PonderTable σ) : Usi.Outcome (PonderTable σ × Option Words) :=
  if truthy tb.prePonder then
    if tb.best = tb.prePonder then
      andThen ({ tb with prePonder := tb.ponder }.send G (engineIndex tb.game) .ponderhit) fun tb =>
        andThen (tb.result tb.preFeature) fun x => .returns ({ x.1 with preFeature := x.1.feature }, some x.2)
    else
      andThen ({ tb with prePonder := tb.ponder }.send G (engineIndex tb.game) .stop) fun tb =>
        andThen (tb.result tb.preFeature) fun x => .returns ({ x.1 with preFeature := x.1.feature }, none)
  else .returns ({ tb with prePonder := tb.ponder, preFeature := tb.feature }, none)

/-- A thread of this engine still waits for its answer. -/
def PonderTable.busy (tb : PonderTable σ) (i : Color) : Bool := tb.threads.any fun t => decide (t.1 = i) && t.2.isNone

/-- `engine.go` (cli.py:321). If a thread waits for the same engine, it depends on chance which of the two gets the answer; this is `never` here. -/
def PonderTable.go (G : Color → Usi.Program σ) (tb : PonderTable σ) (i : Color) (a : Usi.GoArgs) : Usi.Outcome (PonderTable σ) :=
  if tb.busy i then .never
  else match (tb.engines i).call (G i) (.go a) with
    | .returns (c, .best m p) => .returns { tb.setEngine i c with best := some m, ponder := p }
    | .returns _ => .raises
    | .raises => .raises
    | .never => .never

/-- The move (cli.py:303, 314-321). -/
def reply (T : Terms) (byoyomi : Color → Option Int) (G : Color → Usi.Program σ) (tb : PonderTable σ) : Option Words → Usi.Outcome (PonderTable σ)
  | some x => .returns { tb with best := some x.1, ponder := x.2 }
  | none => andThen (tb.send G (engineIndex tb.game) (.position (some tb.usi) "startpos".toList)) fun tb =>
      tb.go G (engineIndex tb.game) (goArgs T byoyomi tb.game)

/-- `executor.submit(engine.go, ponder=True, ...)` (cli.py:343) with two workers (138). If both wait, the job would stand in the queue; this is `never` here. -/
def PonderTable.submit (G : Color → Usi.Program σ) (tb : PonderTable σ) (i : Color) (a : Usi.GoArgs) : Usi.Outcome (PonderTable σ) :=
  if 2 ≤ (tb.threads.filter fun t => t.2.isNone).length then .never
  else match (tb.engines i).proc with
    | none => .raises
    | some p =>
      .returns { tb.setEngine i { tb.engines i with proc := some ⟨((G i).hear p.eng (Usi.goLine a)).1, p.unread ++ ((G i).hear p.eng (Usi.goLine a)).2⟩ } with
        feature := some tb.threads.length, threads := tb.threads ++ [(i, none)] }

/-- After the move (cli.py:340-343). `st` has the clocks after it. -/
def guessOn (T : Terms) (byoyomi : Color → Option Int) (G : Color → Usi.Program σ) (tb : PonderTable σ) (st : State) : Usi.Outcome (PonderTable σ) :=
  if truthy tb.ponder then
    andThen (tb.send G (engineIndex tb.game) (.position (some (tb.usi ++ [tb.best.getD [], tb.ponder.getD []])) "startpos".toList)) fun tb =>
      tb.submit G (engineIndex tb.game) { goArgs T byoyomi tb.game with ponder := true, btime := st.remain .black, wtime := st.remain .white }
  else .returns tb

/-- A round (cli.py:282-413); `d` is the milliseconds and the score. -/
def ponderRound (Z : Zobrist) (T : Terms) (byoyomi : Color → Option Int) (G : Color → Usi.Program σ) (tb : PonderTable σ) (d : Int × Option Int) :
    Usi.Outcome (PonderTable σ × Out (Option Flag × State)) :=
  andThen (settle G tb) fun x => andThen (reply T byoyomi G x.1 x.2) fun tb =>
    andThen (if (charge T tb.game d.1).1 then .returns tb else guessOn T byoyomi G tb (charge T tb.game d.1).2) fun tb =>
      .returns (tb, round Z T tb.game ⟨tb.best.getD [], d.2, d.1⟩)

/-- Leaving the loop, or another round (cli.py:379). -/
def ponderNext (k : PonderTable σ → Usi.Outcome (PonderTable σ × Out (Option (Flag × State)))) :
    PonderTable σ × Out (Option Flag × State) → Usi.Outcome (PonderTable σ × Out (Option (Flag × State)))
  | (tb, .error) => .returns (tb, .error)
  | (tb, .ub) => .returns (tb, .ub)
  | (tb, .ok (some f, st)) => .returns (tb, .ok (some (f, st)))
  | (tb, .ok (none, st)) => k { tb with game := st, usi := tb.usi ++ [tb.best.getD []] }

/-- The loop (cli.py:281-413). -/
def ponderDuel (Z : Zobrist) (T : Terms) (byoyomi : Color → Option Int) (G : Color → Usi.Program σ) :
    PonderTable σ → List (Int × Option Int) → Usi.Outcome (PonderTable σ × Out (Option (Flag × State)))
  | tb, [] => .returns (tb, .ok (if tb.game.board.pos.gamePly > T.draw then some (.stopped, tb.game) else none))
  | tb, d :: ds =>
    if tb.game.board.pos.gamePly > T.draw then .returns (tb, .ok (some (.stopped, tb.game)))
    else andThen (ponderRound Z T byoyomi G tb d) (ponderNext fun tb => ponderDuel Z T byoyomi G tb ds)

/-- A game between two engines that ponder (cli.py:234-456); `p` is the board after `reset`. -/
def ponderFrom (Z : Zobrist) (T : Terms) (byoyomi : Color → Option Int) (G : Color → Usi.Program σ) (p : Position) (clock : Color → Option Int) (limit : Int)
    (opening : List (List Char)) (engines : Color → Usi.Client σ) (ds : List (Int × Option Int)) : Usi.Outcome (Out (Option ((Option Color × String) × Board))) :=
  match playOpening Z limit (start p clock) opening with
  | .error => .returns .error
  | .ub => .returns .ub
  | .ok x => andThen (ponderDuel Z T byoyomi G ⟨x.1, x.2.2, engines, none, none, none, none, none, []⟩ ds) fun y => .returns (y.2.bind (conclude T))

end Verif.Match
