import Verif.Model.Sfen
import Verif.Model.Kif
import Verif.Model.Csa
import Verif.Model.Gen
import Verif.Model.MoveText

/-!
# Talking to USI engines (cshogi/usi/Engine.py) and reading what they say (also cshogi/cli.py)

A line is the text of one line after `strip` and `decode`. Regular expressions are matched with backtracking as Python does; a
line contains no newline, so that `.` matches every character.
-/

namespace Verif.Usi
open Position

/-- `' '.join(ws)`. -/
def joined : List (List Char) → List Char
  | [] => []
  | [w] => w
  | w :: ws => w ++ ' ' :: joined ws

/-! ### Commands -/

/-- `position(moves, sfen)` (Engine.py:311-313), without the newline. -/
def positionLine (moves : Option (List (List Char))) (sfen : List Char) : List Char :=
  "position ".toList ++ (sfen ++ match moves with
    | some (w :: ws) => " moves ".toList ++ joined (w :: ws)
    | _ => [])

/-- The arguments of `go` (Engine.py:319). -/
structure GoArgs where
  ponder : Bool := false
  btime : Option Int := none
  wtime : Option Int := none
  byoyomi : Option Int := none
  binc : Option Int := none
  winc : Option Int := none
  nodes : Option Int := none

/-- `' name ' + str(value)`. -/
def argText (name : String) : Option Int → List Char
  | none => []
  | some n => ' ' :: (name.toList ++ ' ' :: intChars n)

/-- The command of `go` (Engine.py:333-348). -/
def goLine (a : GoArgs) : List Char :=
  "go".toList ++ ((if a.ponder then " ponder".toList else []) ++ (argText "btime" a.btime ++ (argText "wtime" a.wtime ++
    ((match a.byoyomi with
      | some n => argText "byoyomi" (some n)
      | none => argText "binc" a.binc ++ argText "winc" a.winc) ++ argText "nodes" a.nodes))))

/-! ### Answers -/

/-- The lines an engine writes, one after the other. At the end of the file `readline` gives the empty text `b''` again and again; it
is compared with the `str` `''`, which is never equal (Engine.py:357). -/
def lineNo (ls : List (List Char)) (n : Nat) : List Char := (ls[n]?).getD []

/-- What `go` makes of a line (Engine.py:362-367). -/
def bestOf (line : List Char) : Option (List Char × Option (List Char)) :=
  if line.take 8 = "bestmove".toList then
    match Kif.splitAt ' ' (line.drop 9) with
    | [m, w, x] => if w = "ponder".toList then some (m, some x) else some (m, none)
    | m :: _ => some (m, none)
    | [] => none
  else none

/-- The loop of `go` (Engine.py:354-367) over the first `fuel` lines from line `n` on; `none`: still waiting. -/
def await (ls : List (List Char)) : Nat → Nat → Option (List Char × Option (List Char))
  | 0, _ => none
  | fuel + 1, n => match bestOf (lineNo ls n) with
    | some x => some x
    | none => await ls fuel (n + 1)

/-! ### Regular expressions -/

/-- A greedy `.*` followed by `k`: the text it takes, and what `k` gives for the rest. -/
def greedy {β : Type} (k : List Char → Option β) : List Char → Option (List Char × β)
  | [] => (k []).map fun b => ([], b)
  | c :: cs =>
    match greedy k cs with
    | some (pre, b) => some (c :: pre, b)
    | none => (k (c :: cs)).map fun b => ([], b)

/-- A fixed text. -/
def afterText (t s : List Char) : Option (List Char) := if s.take t.length = t then some (s.drop t.length) else none

/-! ### InfoListener -/

/-- `pv (\S+)(.*)$`: groups 2 and 3. -/
def pvGroups (s : List Char) : Option (List Char × List Char) :=
  (afterText "pv ".toList s).bind fun r =>
    if r.takeWhile (fun c => !Kif.isSpace c) = [] then none
    else some (r.takeWhile (fun c => !Kif.isSpace c), r.dropWhile (fun c => !Kif.isSpace c))

/-- A match of `re_info` (Engine.py:24). -/
structure InfoMatch where
  head : List Char
  first : List Char
  tail : List Char
deriving DecidableEq

/-- `re_info.match(line)`: `^info (.* |)pv (\S+)(.*)$`. -/
def infoMatch (line : List Char) : Option InfoMatch :=
  (afterText "info ".toList line).bind fun r =>
    match greedy (fun s => (afterText [' '] s).bind pvGroups) r with
    | some (pre, g) => some ⟨pre ++ [' '], g.1, g.2⟩
    | none => (pvGroups r).map fun g => ⟨[], g.1, g.2⟩

/-- `re_bestmove.match(line)[1]` (Engine.py:25); `none`: no match, and `None[1]` raises. -/
def bestWord (line : List Char) : Option (List Char) :=
  (afterText "bestmove ".toList line).bind fun r => if r.takeWhile (· ≠ ' ') = [] then none else some (r.takeWhile (· ≠ ' '))

/-- `int(t)`: a sign and digits. The underscores, blanks and other digits that Python also accepts are left out. -/
def pyInt (t : List Char) : Option Int :=
  let x := readSign t
  if x.2 = [] ∨ x.2.all Char.isDigit = false then none else some (if x.1 then -(readNat x.2 : Int) else readNat x.2)

/-- A value in the dictionary of `_split_info`. -/
inductive Val where
  | int (n : Int)
  | text (t : List Char)
  | words (ws : List (List Char))
deriving DecidableEq

/-- A dictionary, the last assignment first. -/
abbrev Dict := List (List Char × Val)

def Dict.get (d : Dict) (k : List Char) : Option Val := (d.find? fun x => x.1 = k).map (·.2)

/-- The loop of `_split_info` (Engine.py:36-51); `error` is an exception (`pop` from an empty list). At most `fuel` rounds. -/
def splitItems (m1 : List Char) : Nat → List (List Char) → Dict → Out Dict
  | 0, _, d => .ok d
  | _, [], d => .ok d
  | fuel + 1, name :: items, d =>
    let value (name : List Char) (items : List (List Char)) (d : Dict) : Out Dict :=
      match items with
      | [] => .error
      | v :: items =>
        match pyInt v with
        | some n => splitItems m1 fuel items ((name, .int n) :: d)
        | none =>
          match items with
          | [] => .error
          | v :: items => splitItems m1 fuel items ((name, .text v) :: d)
    if name = "pv".toList then .ok (("pv".toList, .words items) :: d)
    else if name = "string".toList then .ok (("string".toList, .text (m1.drop 7)) :: d)
    else if name = "score".toList then
      match items with
      | [] => .error
      | n :: items => value n items (("score".toList, .text n) :: d)
    else value name items d

/-- `t.strip()`. -/
def strip (t : List Char) : List Char := ((t.dropWhile Kif.isSpace).reverse.dropWhile Kif.isSpace).reverse

/-- `_split_info` (Engine.py:33-54). -/
def splitInfo (m : InfoMatch) : Out Dict :=
  let items := Kif.splitAt ' ' (strip m.head)
  (splitItems m.head items.length items []).bind fun d => .ok (("pv".toList, .words (Kif.splitAt ' ' (m.first ++ m.tail))) :: d)

/-- The members `__info` and `_last_line` of `InfoListener`; the keys of `__info` are the first moves of the matches. -/
structure Listener where
  info : List InfoMatch := []
  last : List Char := []

/-- `__call__` (Engine.py:56-62). -/
def Listener.hear (l : Listener) (line : List Char) : Listener :=
  ⟨match infoMatch line with
    | some m => m :: l.info
    | none => l.info, line⟩

/-- A new listener, or one after `listen()`, that is called with these lines. -/
def Listener.of (lines : List (List Char)) : Listener := lines.foldl Listener.hear {}

/-- `__info.get(bestmove)`: the last match stored. -/
def Listener.found (l : Listener) (best : List Char) : Option InfoMatch := l.info.find? fun m => m.first = best

/-- `info` (Engine.py:92-101). -/
def Listener.dict (l : Listener) : Out (Option Dict) :=
  match bestWord l.last with
  | none => .error
  | some b => match l.found b with
    | none => .ok none
    | some m => (splitInfo m).bind fun d => .ok (some d)

/-- The end of `score` (Engine.py:113-124). `int(info['cp'])` of a text, and comparing a text with 0, raise. -/
def scoreOf (mateScore : Int) (d : Dict) : Out (Option Int) :=
  match d.get "cp".toList with
  | some (.int n) => .ok (some n)
  | some (.text t) => match pyInt t with
    | some n => .ok (some n)
    | none => .error
  | some (.words _) => .error
  | none =>
    match d.get "mate".toList with
    | none => .ok none
    | some (.int n) => .ok (some (if n > 0 then mateScore else -mateScore))
    | some (.text t) => if t = ['+'] then .ok (some mateScore) else .error
    | some (.words _) => .error

/-- `score` (Engine.py:103-124). -/
def Listener.score (mateScore : Int) (l : Listener) : Out (Option Int) :=
  l.dict.bind fun
    | none => .ok none
    | some d => scoreOf mateScore d

/-- `pv` (Engine.py:126-136). -/
def Listener.pv (l : Listener) : Out (Option (List (List Char))) :=
  match bestWord l.last with
  | none => .error
  | some b => .ok ((l.found b).map fun m => Kif.splitAt ' ' (m.first ++ m.tail))

/-! ### The match runner's reading of a line -/

/-- `[+\-0-9]`. -/
def isSignOrDigit (c : Char) : Bool := c = '+' || c = '-' || c.isDigit

/-- `([+\-0-9]+)` followed by `k`, the longest text first. -/
def signsDigits {β : Type} (k : List Char → Option β) : List Char → Option (List Char × β)
  | [] => none
  | c :: cs =>
    if isSignOrDigit c then
      match signsDigits k cs with
      | some (pre, b) => some (c :: pre, b)
      | none => (k cs).map fun b => ([c], b)
    else none

/-- The groups of `re_usi_info` (cli.py:24): whether it is a mate score, the number and the moves. -/
def scoreGroups (s : List Char) : Option (Bool × List Char × List Char) :=
  let rest (mate : Bool) (r : List Char) :=
    (signsDigits (fun r => (greedy (afterText "pv ".toList) r).map (·.2)) r).map fun x => (mate, x.1, x.2)
  (afterText "score ".toList s).bind fun r =>
    match (afterText "cp ".toList r).bind (rest false) with
    | some x => some x
    | none => (afterText "mate ".toList r).bind (rest true)

/-- `re_usi_info.match(line)` (cli.py:24): `^.*score (cp|mate) ([+\-0-9]+).*pv (.*)$`. -/
def usiInfo (line : List Char) : Option (Bool × List Char × List Char) := (greedy scoreGroups line).map (·.2)

/-- `to_score` (cli.py:25-33). -/
def toScore (m : Bool × List Char × List Char) : Out Int :=
  if m.1 then .ok (if m.2.1.head? = some '-' then -100000 else 100000)
  else match pyInt m.2.1 with
    | some n => .ok n
    | none => .error

/-- `usi_info_to_score` (cli.py:58-63). -/
def infoScore (line : List Char) : Out (Option Int) :=
  match usiInfo line with
  | none => .ok none
  | some m => (toScore m).bind fun n => .ok (some n)

/-- The loop over the moves in `usi_info_to_csa_comment` (cli.py:44-51). -/
def pvTexts (Z : Zobrist) (p : Position) : List (List Char) → Out (List (List Char))
  | [] => .ok []
  | w :: ws =>
    match p.usiToMove w with
    | none => .ub
    | some m => match p.isLegal m with
      | none => .ub
      | some false => .ok []
      | some true => match m.toCSA, doMove Z p m with
        | some k, some q => (pvTexts Z q ws).bind fun l => .ok ((Csa.signChar p.turn :: k) :: l)
        | _, _ => .ub

/-- `usi_info_to_csa_comment` (cli.py:35-56). -/
def infoComment (Z : Zobrist) (p : Position) (line : List Char) : Out (Option (List Char)) :=
  match usiInfo line with
  | none => .ok none
  | some m => (toScore m).bind fun n => (pvTexts Z p (Kif.splitAt ' ' m.2.2)).bind fun pv =>
    let score := "** ".toList ++ intChars (n * (1 - 2 * p.turn.idx))
    .ok (some (if pv.length > 1 then score ++ ' ' :: joined (pv.drop 1) else score))

end Verif.Usi
