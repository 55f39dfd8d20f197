import Verif.Spec.Rules

/-!
# What a USI engine hears and answers

The commands of the USI protocol, how an engine reads them from a line, and what an engine that keeps to the protocol writes back.
-/

namespace Verif.Spec.Session

/-- The words of a line, between blanks. -/
def fields : List Char → List (List Char)
  | [] => [[]]
  | c :: cs =>
    if c = ' ' then [] :: fields cs
    else match fields cs with
      | [] => [[c]]
      | w :: ws => (c :: w) :: ws

/-- Words with blanks between them. -/
def unfields : List (List Char) → List Char
  | [] => []
  | [w] => w
  | w :: ws => w ++ ' ' :: unfields ws

/-- A number in decimal. -/
def decimal (ds : List Char) : Nat := ds.foldl (fun a c => a * 10 + (c.toNat - '0'.toNat)) 0

/-- An integer in decimal. -/
def integer : List Char → Int
  | '-' :: ds => -(decimal ds : Int)
  | ds => (decimal ds : Int)

/-- The word behind the first word `name`. -/
def behind : List (List Char) → List Char → Option (List Char)
  | a :: b :: ws, name => if a = name then some b else behind (b :: ws) name
  | _, _ => none

/-- The limits of a search. -/
structure Limits where
  ponder : Bool
  btime : Option Int
  wtime : Option Int
  byoyomi : Option Int
  binc : Option Int
  winc : Option Int
  nodes : Option Int
deriving DecidableEq

/-- The commands of the protocol. `mate none` is a search for mate without a limit. -/
inductive Command where
  | usi
  | isready
  | setoption (name value : List Char)
  | usinewgame
  | position (start : List Char) (moves : List (List Char))
  | go (l : Limits)
  | mate (limit : Option Int)
  | ponderhit
  | stop
  | gameover (result : List Char)
  | quit
deriving DecidableEq

/-- `go` with its limits. -/
def readLimits (ws : List (List Char)) : Limits where
  ponder := decide ("ponder".toList ∈ ws)
  btime := (behind ws "btime".toList).map integer
  wtime := (behind ws "wtime".toList).map integer
  byoyomi := (behind ws "byoyomi".toList).map integer
  binc := (behind ws "binc".toList).map integer
  winc := (behind ws "winc".toList).map integer
  nodes := (behind ws "nodes".toList).map integer

/-- `go mate` with its limit. -/
def readMate : List (List Char) → Option Command
  | [w] => some (.mate (if w = "infinite".toList then none else some (integer w)))
  | _ => none

/-- What stands before the first word `w` and what stands behind it. -/
def cut (w : List Char) (ws : List (List Char)) : List (List Char) × List (List Char) :=
  (ws.takeWhile (fun x => x ≠ w), (ws.dropWhile (fun x => x ≠ w)).tail)

/-- The engine reads a command. -/
def readCommand (line : List Char) : Option Command :=
  match fields line with
  | [] => none
  | w :: ws =>
    if w = "usi".toList then some .usi
    else if w = "isready".toList then some .isready
    else if w = "usinewgame".toList then some .usinewgame
    else if w = "ponderhit".toList then some .ponderhit
    else if w = "stop".toList then some .stop
    else if w = "quit".toList then some .quit
    else if w = "gameover".toList then some (.gameover (unfields ws))
    else if w = "setoption".toList then
      some (.setoption (unfields (cut "value".toList ws.tail).1) (unfields (cut "value".toList ws.tail).2))
    else if w = "position".toList then some (.position (unfields (cut "moves".toList ws).1) (cut "moves".toList ws).2)
    else if w = "go".toList then
      if ws.head? = some "mate".toList then readMate ws.tail else some (.go (readLimits (w :: ws)))
    else none

/-- An engine with states `σ`: its name, the lines of its options, how a command changes its state, what it writes while it gets ready or
searches, the moves it plays and wants to ponder on, what it says about mates. -/
structure Player (σ : Type) where
  start : σ
  name : List Char
  options : List (List Char)
  next : σ → Command → σ
  chat : σ → Command → List (List Char)
  best : σ → Limits → List Char × Option (List Char)
  mates : σ → Option Int → List Char

/-- The line with the move. -/
def bestLine (x : List Char × Option (List Char)) : List Char :=
  "bestmove ".toList ++ x.1 ++ (match x.2 with | none => [] | some y => " ponder ".toList ++ y)

/-- What the engine writes in answer to a command. Pondering, it gives no move before it is told to stop or to go on. -/
def Player.writes {σ : Type} (P : Player σ) (s : σ) (c : Command) : List (List Char) :=
  match c with
  | .usi => ["id name ".toList ++ P.name] ++ P.options ++ ["usiok".toList]
  | .isready => P.chat s c ++ ["readyok".toList]
  | .go l => P.chat s c ++ (if l.ponder then [] else [bestLine (P.best s l)])
  | .mate l => P.chat s c ++ ["checkmate ".toList ++ P.mates s l]
  | _ => []

/-- The engine hears a line: what it becomes and what it writes. -/
def Player.hear {σ : Type} (P : Player σ) (s : σ) (line : List Char) : σ × List (List Char) :=
  match readCommand line with
  | none => (s, [])
  | some c => (P.next s c, P.writes s c)

/-- The engine says what belongs to an answer only there, its moves are words and its name is ASCII. -/
structure Player.Polite {σ : Type} (P : Player σ) : Prop where
  name : ∀ c ∈ P.name, c.toNat < 128
  options : ∀ l ∈ P.options, l ≠ "usiok".toList ∧ l.take 7 ≠ "id name".toList
  ready : ∀ s, ∀ l ∈ P.chat s .isready, l ≠ "readyok".toList
  search : ∀ s c, ∀ l ∈ P.chat s c, l.take 8 ≠ "bestmove".toList
  mate : ∀ s c, ∀ l ∈ P.chat s (.mate c), l.take 9 ≠ "checkmate".toList
  move : ∀ s l, ' ' ∉ (P.best s l).1
  ponder : ∀ s l, ∀ y ∈ (P.best s l).2, ' ' ∉ y

end Verif.Spec.Session
