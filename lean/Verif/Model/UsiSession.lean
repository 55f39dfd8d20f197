import Verif.Model.Usi

/-!
# A session with a USI engine (cshogi/usi/Engine.py)

The process at the other end is a function: it hears a line and writes lines. A line is the text after `strip` and `decode`; listeners are left
out (they are only told the lines). The process writes before the next read.
-/

namespace Verif.Usi
open Position

/-- What comes of a call. `never`: it waits for a line that does not come. After the end of the file it reads empty lines for ever
(`line == ''` compares `bytes` with `str`, Engine.py:217, 244, 283, 357, 389). -/
inductive Outcome (α : Type) where
  | returns (a : α)
  | raises
  | never
deriving DecidableEq

/-- A process: its state, and the lines it has written that have not been read. -/
structure Proc (σ : Type) where
  eng : σ
  unread : List (List Char)

/-- The program behind a command name: how it starts and how it reacts to a line. -/
structure Program (σ : Type) where
  start : σ
  hear : σ → List Char → σ × List (List Char)

/-- An `Engine` object: `proc` and `name`, both `None` at first if it is made with `connect=False` (Engine.py:190-197). With `connect=True` it is
connected at once. -/
structure Client (σ : Type) where
  proc : Option (Proc σ)
  name : Option (List Char)

/-- The value of an option, `str` or `int`, and `bool`, which is an `int` in Python. -/
inductive OptValue where
  | text (t : List Char)
  | int (n : Int)
  | bool (b : Bool)

/-- `str(value)` (Engine.py:262). -/
def OptValue.str : OptValue → List Char
  | .text t => t
  | .int n => intChars n
  | .bool true => "True".toList
  | .bool false => "False".toList

/-- The calls of the methods of `Engine`. -/
inductive Call where
  | connect
  | usi
  | setoption (name : List Char) (value : OptValue)
  | isready
  | usinewgame
  | position (moves : Option (List (List Char))) (sfen : List Char)
  | go (a : GoArgs)
  | goMate (byoyomi : Option Int)
  | ponderhit
  | stop
  | gameover (result : Option (List Char))
  | quit

/-- The command of `go_mate` (Engine.py:377-381). -/
def mateLine : Option Int → List Char
  | some n => "go mate".toList ++ ' ' :: intChars n
  | none => "go mate".toList ++ " infinite".toList

/-- The command of `gameover` (Engine.py:429-431): an empty result is not written. -/
def gameoverLine : Option (List Char) → List Char
  | some (c :: r) => "gameover".toList ++ ' ' :: c :: r
  | _ => "gameover".toList

/-- The line that a call writes, without the newline (Engine.py:208, 234, 262, 274, 297, 311-313, 333-348, 377-381, 404, 416, 429-431, 443). -/
def Call.line : Call → List Char
  | .connect => "usi".toList
  | .usi => "usi".toList
  | .setoption name value => "setoption name ".toList ++ (name ++ (" value ".toList ++ value.str))
  | .isready => "isready".toList
  | .usinewgame => "usinewgame".toList
  | .position moves sfen => positionLine moves sfen
  | .go a => goLine a
  | .goMate b => mateLine b
  | .ponderhit => "ponderhit".toList
  | .stop => "stop".toList
  | .gameover r => gameoverLine r
  | .quit => "quit".toList

/-- `readline` until a line is the one waited for: the lines before it, what was made of it, the lines after it. -/
def readTo {α : Type} (want : List Char → Option α) : List (List Char) → Option (List (List Char) × α × List (List Char))
  | [] => none
  | l :: ls => match want l with
    | some a => some ([], a, ls)
    | none => (readTo want ls).map fun x => (l :: x.1, x.2)

/-- The loop of `connect` (Engine.py:214-224): the name is decoded as ASCII. -/
def readName : Option (List Char) → List (List Char) → Outcome (Option (List Char) × List (List Char))
  | _, [] => .never
  | n, l :: ls =>
    if l.take 7 = "id name".toList then
      if (l.drop 8).all fun c => c.toNat < 128 then readName (some (l.drop 8)) ls else .raises
    else if l = "usiok".toList then .returns (n, ls)
    else readName n ls

/-- A line that is to be equal to a text. -/
def exactly (t : List Char) (l : List Char) : Option Unit := if l = t then some () else none

/-- What `go_mate` makes of a line (Engine.py:394-396). -/
def mateOf (l : List Char) : Option (List Char) := if l.take 9 = "checkmate".toList then some (l.drop 10) else none

/-- What a call returns. -/
inductive Reply where
  | none
  | lines (ls : List (List Char))
  | best (m : List Char) (ponder : Option (List Char))
  | mate (t : List Char)
deriving DecidableEq

/-- The end of a call that reads an answer. -/
def answered {σ α : Type} (c : Client σ) (e : σ) (x : Option (List (List Char) × α × List (List Char))) (f : List (List Char) → α → Reply) :
    Outcome (Client σ × Reply) :=
  match x with
  | Option.none => .never
  | some (before, a, rest) => .returns ({ c with proc := some ⟨e, rest⟩ }, f before a)

/-- A call to a process that runs (Engine.py:226-452). `quit` waits for the process to end and forgets it (443-452). -/
def talk {σ : Type} (G : Program σ) (c : Client σ) (p : Proc σ) (call : Call) : Outcome (Client σ × Reply) :=
  let h := G.hear p.eng call.line
  let out := p.unread ++ h.2
  match call with
  | .usi => answered c h.1 (readTo (exactly "usiok".toList) out) fun before _ => .lines before
  | .isready => answered c h.1 (readTo (exactly "readyok".toList) out) fun _ _ => .none
  | .go _ => answered c h.1 (readTo bestOf out) fun _ x => .best x.1 x.2
  | .goMate _ => answered c h.1 (readTo mateOf out) fun _ t => .mate t
  | .quit => .returns ({ c with proc := none }, .none)
  | _ => .returns ({ c with proc := some ⟨h.1, out⟩ }, .none)

/-- A call. `connect` starts a new process, whatever was there before (Engine.py:199-224); every other method raises without one
(`self.proc.stdin` of `None`). -/
def Client.call {σ : Type} (G : Program σ) (c : Client σ) (call : Call) : Outcome (Client σ × Reply) :=
  match call with
  | .connect => match readName c.name (G.hear G.start call.line).2 with
    | .returns (n, rest) => .returns (⟨some ⟨(G.hear G.start call.line).1, rest⟩, n⟩, .none)
    | .raises => .raises
    | .never => .never
  | call => match c.proc with
    | none => .raises
    | some p => talk G c p call

/-- A session: the calls one after the other, until one does not return. The replies so far, and how it ended. -/
def Client.session {σ : Type} (G : Program σ) : Client σ → List Call → List Reply × Outcome (Client σ)
  | c, [] => ([], .returns c)
  | c, call :: calls => match c.call G call with
    | .returns (c', r) => let x := Client.session G c' calls; (r :: x.1, x.2)
    | .raises => ([], .raises)
    | .never => ([], .never)

end Verif.Usi
