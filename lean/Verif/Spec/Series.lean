import Verif.Spec.Duel

/-!
# What a match of several games has to be

Two entrants, each with an engine, its options and its time. The colours are exchanged after every game, unless they are not to be.
-/

namespace Verif.Spec

/-- What an entrant brings along: the options of the engine, byoyomi, time and increment. -/
structure Kit where
  options : List (List Char × List Char)
  byoyomi : Option Int
  time : Option Int
  inc : Option Int
deriving DecidableEq

/-- Who has a colour in game `n` (the first is 0), from the first and the second entrant. -/
def whoHas {α : Type} (exchange : Bool) (n : Nat) (x : α × α) (c : Color) : α :=
  if exchange ∧ n % 2 = 1 then (match c with | .black => x.2 | .white => x.1) else (match c with | .black => x.1 | .white => x.2)

/-- The rules of game `n`: each with their own increment and byoyomi, whatever the colour. -/
def Rules.inGame (R : Rules) (exchange : Bool) (n : Nat) (K : Kit × Kit) : Rules :=
  { R with inc := fun c => (whoHas exchange n K c).inc, byoyomi := fun c => ((whoHas exchange n K c).byoyomi).getD 0 }

/-- What an engine has become when it has heard some commands. -/
def Session.Player.heard {σ : Type} (P : Session.Player σ) (s : σ) (cs : List Session.Command) : σ := cs.foldl P.next s

/-- What an engine is to hear before a game: its options, that it is to be ready and that a game begins. -/
def beforeGame (options : List (List Char × List Char)) : List Session.Command :=
  options.map (fun o => .setoption o.1 o.2) ++ [.isready, .usinewgame]

/-- An engine that has just been started, before its game. -/
def Session.Player.newcomer {σ : Type} (P : Session.Player σ) (options : List (List Char × List Char)) : σ :=
  P.heard P.start (.usi :: beforeGame options)

/-- What the engine should hear of the result after a game (USI: `win`, `lose` or `draw`). -/
def resultWord (win : Option Color) (c : Color) : List Char :=
  match win with
  | none => "draw".toList
  | some w => if w = c then "win".toList else "lose".toList

/-- The minds of two players at a board after some turns of `overBoard`. -/
def mindsAfter {τ : Type} (R : Rules) (byoyomi : Color → Option Int) (A : Color → Thinker τ) : (Color → τ) → (Color → Option Int) → Pos → List Nat → Color → τ
  | m, _, _, [] => m
  | m, clock, P, d :: ds =>
    let l := limitsOf R byoyomi clock P.turn
    let s := (A P.turn).speak (m P.turn) P l d
    mindsAfter R byoyomi A (fun c => if c = P.turn then (A P.turn).after (m P.turn) P l else m c) (R.charge clock P.turn s.said) (P.answered s.answer) ds

end Verif.Spec
