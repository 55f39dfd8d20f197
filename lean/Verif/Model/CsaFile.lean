import Verif.Model.Csa
import Verif.Model.Query

/-!
# Whole CSA files (cshogi/CSA.py and the static methods of `Parser` in _cshogi.pyx)

`Model/Csa` has the exporter without headers and comments. Here is the rest: version, names, comment and information of a game, comments of
moves, the separator, and several games in a file.
-/

namespace Verif.Csa

/-- The information about a game that `Exporter.info` is given besides the start (cshogi/CSA.py:46-54). The empty text, like `None`, is
not written. `infos` are the items of the dictionary in order. -/
structure Header where
  version : List Char := []
  names : Option (List Char × List Char) := none
  comment : List Char := []
  infos : List (List Char × List Char) := []

/-- The names (cshogi/CSA.py:60-63). -/
def namesText : Option (List Char × List Char) → List Char
  | none => []
  | some n => 'N' :: '+' :: (n.1 ++ '\n' :: 'N' :: '-' :: (n.2 ++ ['\n']))

/-- The comment (cshogi/CSA.py:64-70). One that begins with an apostrophe is written as it is. -/
def remarkText : List Char → List Char
  | [] => []
  | c :: cs => if c = '\'' then c :: cs else '\'' :: (c :: cs ++ ['\n'])

/-- The first part of `Exporter.info` (cshogi/CSA.py:57-74). -/
def writeHeader (h : Header) : List Char :=
  (if h.version = [] then [] else h.version ++ ['\n']) ++ (namesText h.names ++ (remarkText h.comment ++
    h.infos.flatMap fun i => '$' :: (i.1 ++ ':' :: (i.2 ++ ['\n']))))

/-- `init_board`. -/
inductive Start where
  | unnamed
  | board (p : Position)
  | text (sfen : List Char)

/-- The second part of `Exporter.info` (cshogi/CSA.py:75-92): what is written and the side to move. For a text other than that of the starting
position `init_board.turn` raises, after the position has been written. -/
def writeStart (Z : Zobrist) : Start → Out (List Char × Color)
  | .unnamed => .ok ("PI\n+\n".toList, .black)
  | .board p => .ok (exportInfo p, p.turn)
  | .text s =>
    if s = [] ∨ s = Board.startSfen then .ok ("PI\n+\n".toList, .black)
    else (Position.setSfen Z s).bind fun _ => .error

/-- The time of a move (cshogi/CSA.py:104-106). -/
def sepTime (sep : Char) : Option Nat → List Char
  | none => []
  | some n => sep :: 'T' :: natChars n

/-- `Exporter.move` (cshogi/CSA.py:94-111) with separator, time and comment. -/
def writeMove (sep : Char) (c : Color) (m : Move) (t : Option Nat) (w : List Char) : Option (List Char) :=
  m.toCSA.map fun k => signChar c :: (k ++
    (sepTime sep t ++ ((if w = [] then [] else sep :: '\'' :: w) ++ ['\n'])))

/-- The moves one after the other. -/
def writeMoves (sep : Char) : Color → List (Move × Option Nat × List Char) → Option (List Char)
  | _, [] => some []
  | c, (m, t, w) :: ms => (writeMove sep c m t w).bind fun x => (writeMoves sep c.opp ms).map fun y => x ++ y

/-- A game as it is handed to the exporter. -/
structure Game where
  header : Header
  start : Start
  moves : List (Move × Option Nat × List Char)
  ending : List Char
  lastTime : Option Nat

/-- A move without a text raises. -/
def orRaise : Option (List Char) → Out (List Char)
  | none => .error
  | some y => .ok y

/-- `info`, `move` for every move and `endgame`. -/
def writeGame (Z : Zobrist) (g : Game) : Out (List Char) :=
  (writeStart Z g.start).bind fun x => (orRaise (writeMoves '\n' x.2 g.moves)).bind fun y =>
    .ok (writeHeader g.header ++ (x.1 ++ (y ++ exportEnd g.ending g.lastTime)))

/-- Games written one after the other to a file with the given content; `info` first writes a line with a slash if the file is not empty
(cshogi/CSA.py:55-56). -/
def writeFile (Z : Zobrist) (file : List Char) : List Game → Out (List Char)
  | [] => .ok file
  | g :: gs => (writeGame Z g).bind fun x => writeFile Z (file ++ ((if file = [] then [] else ['/', '\n']) ++ x)) gs

/-- `csa_str.split('\n/\n')` (cshogi/_cshogi.pyx:1478). -/
def splitGames : List Char → List (List Char)
  | [] => [[]]
  | '\n' :: '/' :: '\n' :: cs => [] :: splitGames cs
  | c :: cs => match splitGames cs with
    | [] => [[c]]
    | l :: ls => (c :: l) :: ls

/-- The loop of `Parser.parse_str` (cshogi/_cshogi.pyx:1479-1482). -/
def parseAll (Z : Zobrist) (stof : List Char → Option Rat) : List (List Char) → Out (List State)
  | [] => .ok []
  | t :: ts => (parse Z stof t).bind fun s => (parseAll Z stof ts).bind fun ss => .ok (s :: ss)

/-- `Parser.parse_str` (cshogi/_cshogi.pyx:1468-1483); `parse_file` is the same on the content of the file. -/
def parseStr (Z : Zobrist) (stof : List Char → Option Rat) (text : List Char) : Out (List State) := parseAll Z stof (splitGames text)

/-- A value put into a dictionary. -/
def insertKey (d : List (List Char × List Char)) (k v : List Char) : List (List Char × List Char) :=
  if d.any (fun x => x.1 = k) then d.map fun x => if x.1 = k then (k, v) else x else d ++ [(k, v)]

/-- `Parser.var_info` (cshogi/_cshogi.pyx:1517-1528): the lines split at the first colon, without the dollar sign. A line without a colon
raises. -/
def varInfo : List (List Char) → List (List Char × List Char) → Out (List (List Char × List Char))
  | [], d => .ok d
  | l :: ls, d =>
    if ':' ∈ l then varInfo ls (insertKey d ((l.takeWhile (· ≠ ':')).drop 1) ((l.dropWhile (· ≠ ':')).drop 1)) else .error

/-- `decode('ascii')`. -/
def decodeAscii (cs : List Char) : Out (List Char) := if cs.all fun c => c.toNat < 128 then .ok cs else .error

/-- The list with each text decoded. -/
def decodeAll : List (List Char) → Out (List (List Char))
  | [] => .ok []
  | c :: cs => (decodeAscii c).bind fun x => (decodeAll cs).bind fun xs => .ok (x :: xs)

/-- `Parser.comments` (cshogi/_cshogi.pyx:1595-1602). -/
def State.pyComments (s : State) : Out (List (List Char)) := decodeAll s.comments

end Verif.Csa
