import Verif.Model.League
import Verif.Model.Ponder

/-!
# The games of a match (cshogi/cli.py)

The loop of `main` over the games with the two engines at the other end: connecting them, their options, `isready`, the game of `Model/Duel`, `gameover` and
`quit`. Left out are pondering, `names`, `callback`, display, files and the summary (see `Model/League`, `Model/Match`). What the listener has heard before a
game is given from outside.
-/

namespace Verif.Match
open Position

variable {σ : Type}

/-- Leaving the loop, or another round, with the engines as they are then. -/
def seatedNext (e : Color → Usi.Client σ) (k : State → Usi.Outcome ((Color → Usi.Client σ) × Out (Option (Flag × State)))) :
    Out (Option Flag × State) → Usi.Outcome ((Color → Usi.Client σ) × Out (Option (Flag × State)))
  | .error => .returns (e, .error)
  | .ub => .returns (e, .ub)
  | .ok (some f, st) => .returns (e, .ok (some (f, st)))
  | .ok (none, st) => k st

/-- The loop of a game (cli.py:281-413) as `duel`, with the engines at the end. -/
def seatedDuel (Z : Zobrist) (T : Terms) (byoyomi : Color → Option Int) (G : Color → Usi.Program σ) :
    Table σ → List Nat → Usi.Outcome ((Color → Usi.Client σ) × Out (Option (Flag × State)))
  | tb, [] => .returns (tb.engines, .ok (if tb.game.board.pos.gamePly > T.draw then some (.stopped, tb.game) else none))
  | tb, micros :: ds =>
    if tb.game.board.pos.gamePly > T.draw then .returns (tb.engines, .ok (some (.stopped, tb.game)))
    else match ask (G (engineIndex tb.game)) (tb.engines (engineIndex tb.game)) tb.usi (goArgs T byoyomi tb.game) with
      | .raises => .raises
      | .never => .never
      | .returns (c, lines, word, ponder) =>
        let t : Turn := ⟨lines, word, ponder, micros⟩
        let h := ((tb.heard.hear (Usi.positionLine (some tb.usi) "startpos".toList)).after (Usi.goLine (goArgs T byoyomi tb.game)) t)
        seatedNext (tb.next c h word tb.game).engines (fun st => seatedDuel Z T byoyomi G (tb.next c h word st) ds) (judge Z T tb.game h.info t)

/-- The calls before the board is set up (cli.py:218-225). -/
def beginCalls (options : List (List Char × List Char)) (c : Usi.Client σ) : List Usi.Call :=
  (if c.proc.isNone then [.connect] else []) ++ options.map (fun o => .setoption o.1 (.text o.2)) ++ [.isready]

/-- `engines_order` and the like (cli.py:198-215): what belongs to Black and to White, from what belongs to engine 1 and engine 2. -/
def seat {α : Type} (first : Bool) (x : α × α) : Color → α
  | .black => if first then x.1 else x.2
  | .white => if first then x.2 else x.1

/-- The two engines again. -/
def unseat {α : Type} (first : Bool) (f : Color → α) : α × α := if first then (f .black, f .white) else (f .white, f .black)

/-- `for engine in engines_order:` with some calls of the engine. -/
def tell (G : Color → Usi.Program σ) (e : Color → Usi.Client σ) (calls : Color → List Usi.Call) : Usi.Outcome (Color → Usi.Client σ) :=
  andThen ((e .black).session (G .black) (calls .black)).2 fun b =>
    andThen ((e .white).session (G .white) (calls .white)).2 fun w => .returns (seat true (b, w))

/-- After the loop (cli.py:416-423): `gameover` without a result, and `quit` unless the processes are kept. If an exception left the loop, nothing more is
called; neither if the game is not over. -/
def farewell (G : Color → Usi.Program σ) (keep : Bool) (x : (Color → Usi.Client σ) × Out (Option (Flag × State))) : Usi.Outcome (Color → Usi.Client σ) :=
  match x.2 with
  | .ok (some _) => andThen (tell G x.1 fun _ => [.gameover none]) fun e => if keep then .returns e else tell G e fun _ => [.quit]
  | _ => .returns x.1

/-- A game of a match with all that is said to the engines (cli.py:217-456). -/
def sitting (Z : Zobrist) (T : Terms) (byoyomi : Color → Option Int) (G : Color → Usi.Program σ) (options : Color → List (List Char × List Char)) (keep : Bool)
    (p : Position) (clock : Color → Option Int) (limit : Int) (opening : List (List Char)) (engines : Color → Usi.Client σ) (h : Heard) (ds : List Nat) :
    Usi.Outcome ((Color → Usi.Client σ) × Out (Option ((Option Color × String) × Board))) :=
  andThen (tell G engines fun c => beginCalls (options c) (engines c)) fun e =>
    match playOpening Z limit (start p clock) opening with
    | .error => .returns (e, .error)
    | .ub => .returns (e, .ub)
    | .ok x => andThen (tell G e fun _ => [.usinewgame]) fun e =>
      andThen (seatedDuel Z T byoyomi G ⟨x.1, x.2.2, e, h⟩ ds) fun y => andThen (farewell G keep y) fun e => .returns (e, y.2.bind (conclude T))

/-- The settings of the sides. -/
def settingOf (noSwap : Bool) (n : Nat) (s : Setting × Setting) : Color → Setting
  | .black => (sideSettings noSwap n s.1 s.2).1
  | .white => (sideSettings noSwap n s.1 s.2).2

/-- Another game after a result. -/
def seriesNext {α : Type} (k : Usi.Outcome (Out (List (Option α)))) : Out (Option α) → Usi.Outcome (Out (List (Option α)))
  | .error => .returns .error
  | .ub => .returns .ub
  | .ok none => .returns (.ok [none])
  | .ok (some r) => andThen k fun l => .returns (l.bind fun l => .ok (some r :: l))

/-- The games of a match from number `n` on (cli.py:196-557): the results, `none` for a game that is not over. The numbers are the microseconds of the turns
of each game. -/
def series (Z : Zobrist) (T : Terms) (noSwap keep : Bool) (G : Usi.Program σ × Usi.Program σ) (s : Setting × Setting) (p : Position) (limit : Int)
    (opening : Nat → List (List Char)) (heard : Nat → Heard) :
    Nat → Usi.Client σ × Usi.Client σ → List (List Nat) → Usi.Outcome (Out (List (Option ((Option Color × String) × Board))))
  | n, e, [] => if keep then andThen (tell (seat (firstIsBlack noSwap (n - 1)) G) (seat (firstIsBlack noSwap (n - 1)) e) fun _ => [.quit]) fun _ => .returns (.ok [])
    else .returns (.ok [])
  | n, e, ds :: games =>
    andThen (sitting Z { T with inc := fun c => (settingOf noSwap n s c).inc } (fun c => (settingOf noSwap n s c).byoyomi) (seat (firstIsBlack noSwap n) G)
      (fun c => (settingOf noSwap n s c).options) keep p (fun c => (settingOf noSwap n s c).time) limit (opening n) (seat (firstIsBlack noSwap n) e) (heard n) ds)
      fun x => seriesNext (series Z T noSwap keep G s p limit opening heard (n + 1) (unseat (firstIsBlack noSwap n) x.1) games) x.2

end Verif.Match
