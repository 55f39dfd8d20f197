import Verif.Model.Board
import Verif.Model.Gen
import Verif.Model.Csa

/-!
# KIF records (cshogi/KIF.py)

`Parser` and `Exporter` of the Python module. Texts are lists of characters. `.error` stands for a Python exception, `.ub` for
undefined behaviour in the C++ code below. Simplified: `datetime` (the time of the start is a text and only kept as such), files and
their encodings, `\d` is an ASCII digit. Times are whole seconds, so `math.ceil` is the identity.
-/

namespace Verif.Kif
open Position

/-- `NUMBER_JAPANESE_NUMBER_SYMBOLS` without its first element `None` (cshogi/_cshogi.pyx:180). -/
def fileChars : List Char := ['１', '２', '３', '４', '５', '６', '７', '８', '９']
/-- The single characters of `NUMBER_JAPANESE_KANJI_SYMBOLS` from 1 to 9 (cshogi/_cshogi.pyx:181). -/
def rankChars : List Char := ['一', '二', '三', '四', '五', '六', '七', '八', '九']
/-- `NUMBER_JAPANESE_KANJI_SYMBOLS[n]` for 1 ≤ n ≤ 18 (cshogi/_cshogi.pyx:181). -/
def kanjiNumber (n : Nat) : List Char := if n < 10 then (rankChars[n - 1]?).toList else if n = 10 then ['十'] else '十' :: (rankChars[n - 11]?).toList
/-- `PIECE_JAPANESE_SYMBOLS` without its first element, the empty text (cshogi/_cshogi.pyx:188-191). -/
def pieceChars : List Char := ['歩', '香', '桂', '銀', '角', '飛', '金', '玉', 'と', '杏', '圭', '全', '馬', '龍']
/-- `HAND_PIECE_JAPANESE_SYMBOLS` (cshogi/_cshogi.pyx:195-199). -/
def handChars : List Char := ['歩', '香', '桂', '銀', '金', '角', '飛']

/-- `PIECE_JAPANESE_SYMBOLS[pt]`; `none` is an IndexError. -/
def pieceSymbol (pt : PieceType) : Option (List Char) := if pt = 0 then some [] else (pieceChars[pt - 1]?).map fun c => [c]

/-- `KIFU_TO_SQUARE_NAMES[t]` (cshogi/KIF.py:27-37). -/
def squareName (t : Nat) : Option (List Char) := (fileChars[t / 9]?).bind fun f => (rankChars[t % 9]?).map fun r => [f, r]
/-- `KIFU_FROM_SQUARE_NAMES[s]` (cshogi/KIF.py:39-49). -/
def fromName (s : Nat) : Option (List Char) := if s < 81 then some [digitCh (s / 9 + 1), digitCh (s % 9 + 1)] else none

/-- The destination in `move_to_kif` (cshogi/KIF.py:318-322). The earlier move is 0 for `None`. -/
def destName (m prev : Move) : Option (List Char) :=
  (squareName m.dst).map fun n => if prev ≠ 0#32 ∧ prev.dst = m.dst then ['同', '　'] else n

/-- `move_to_kif` (cshogi/KIF.py:311-343). -/
def moveToKif (m prev : Move) : Option (List Char) :=
  (destName m prev).bind fun d =>
  if m.isDrop then (handChars[m.handPieceDropped]?).map fun c => d ++ [c, '打']
  else (pieceSymbol m.pieceTypeFrom).bind fun c => (fromName m.src).map fun f =>
    d ++ (c ++ ((if m.isPromotion then ['成'] else []) ++ ('(' :: (f ++ [')']))))

/-! ### Writing -/

/-- `{:>w}`. -/
def rjust (w : Nat) (cs : List Char) : List Char := List.replicate (w - cs.length) ' ' ++ cs
/-- `{:0w}` for a number that is not negative. -/
def zpad (w n : Nat) : List Char := List.replicate (w - (natChars n).length) '0' ++ natChars n

/-- `({:>2}:{:02}/{:02}:{:02}:{:02})` with the times of `move` and `end` (cshogi/KIF.py:306-309, 451-452, 462-466). -/
def clock (sec sum : Nat) : List Char :=
  '(' :: (rjust 2 (natChars (sec / 60)) ++ (':' :: (zpad 2 (sec % 60) ++ ('/' :: (zpad 2 (sum / 3600) ++ (':' ::
    (zpad 2 (sum % 3600 / 60) ++ (':' :: (zpad 2 (sum % 3600 % 60) ++ [')'])))))))))

/-- One line of the table of moves: number, text, times (cshogi/KIF.py:462-466, 494-498), with its newline. -/
def tableLine (n : Nat) (text : List Char) (sec sum : Nat) : List Char :=
  rjust 4 (natChars n) ++ (' ' :: (text ++ ("      ".toList ++ (clock sec sum ++ ['\n']))))

/-- The padding (cshogi/KIF.py:454-459). -/
def padding (m : Move) : List Char := if m.isDrop then "    ".toList else if m.isPromotion then [] else "  ".toList

/-- `Exporter.move` (cshogi/KIF.py:444-469). -/
def exportMove (n : Nat) (prev m : Move) (sec sum : Nat) : Option (List Char) :=
  (moveToKif m prev).map fun t => tableLine n (t ++ padding m) sec sum

/-- The moves one after the other; the exporter counts them and remembers the last one. -/
def exportMoves : Nat → Move → List (Move × Nat × Nat) → Option (List Char)
  | _, _, [] => some []
  | n, prev, (m, sec, sum) :: l => (exportMove n prev m sec sum).bind fun x => (exportMoves (n + 1) m l).map fun y => x ++ y

/-- The reasons `Exporter.end` knows (cshogi/KIF.py:481-492); for others it raises. -/
inductive Reason where
  | resign | win | draw | sennichite | illegalWin | illegalLose
deriving DecidableEq

/-- The text in the table of moves (cshogi/KIF.py:481-492). -/
def Reason.text : Reason → List Char
  | .resign => "投了        ".toList
  | .win => "入玉宣言    ".toList
  | .draw => "持将棋      ".toList
  | .sennichite => "千日手      ".toList
  | .illegalWin => "反則勝ち    ".toList
  | .illegalLose => "反則負け    ".toList

/-- `'先手' if self.move_number % 2 == 0 else '後手'`. -/
def lastSide (n : Nat) : List Char := if n % 2 = 0 then ['先', '手'] else ['後', '手']

/-- The line about the result (cshogi/KIF.py:501-512), `n` being the number of the next move. -/
def Reason.line (n : Nat) : Reason → List Char
  | .resign => "まで".toList ++ (natChars (n - 1) ++ ("手で".toList ++ (lastSide n ++ "の勝ち\n".toList)))
  | .draw => "まで".toList ++ (natChars (n + 1) ++ "手で持将棋\n".toList)
  | .win => "まで".toList ++ (natChars (n - 1) ++ "手で入玉宣言\n".toList)
  | .sennichite => "まで".toList ++ (natChars (n - 1) ++ "手で千日手\n".toList)
  | .illegalWin => "まで".toList ++ (natChars (n - 1) ++ ("手で".toList ++ (lastSide n ++ "の反則勝ち\n".toList)))
  | .illegalLose => "まで".toList ++ (natChars (n - 1) ++ ("手で".toList ++ (lastSide n ++ "の反則負け\n".toList)))

/-- `Exporter.end` (cshogi/KIF.py:471-512). -/
def exportEnd (r : Reason) (n sec sum : Nat) : List Char := tableLine n r.text sec sum ++ r.line n

/-- `PIECE_BOD_SYMBOLS` (cshogi/KIF.py:51-57). -/
def bodSymbol : Piece → List Char
  | 0 => [' ', '・'] | 16 => [' ', '・']
  | pc => if pc < 15 then ' ' :: (pieceChars[pc - 1]?).toList else if 17 ≤ pc ∧ pc < 31 then 'v' :: (pieceChars[pc - 17]?).toList else []

/-- The parts of `hand_pieces_str` (cshogi/KIF.py:353-358). -/
def bodItems (h : Hand) : List (List Char) :=
  [6, 5, 4, 3, 2, 1, 0].flatMap fun hp =>
    if 1 < h.numOf hp then [(handChars[hp]?).toList ++ kanjiNumber (h.numOf hp)]
    else if h.numOf hp = 1 then [(handChars[hp]?).toList] else []

/-- `'　'.join`. -/
def joinSpace : List (List Char) → List Char
  | [] => []
  | [x] => x
  | x :: l => x ++ ('　' :: joinSpace l)

/-- `hand_pieces_str` (cshogi/KIF.py:351-361). -/
def bodHand (h : Hand) : List Char := if bodItems h = [] then "なし".toList else joinSpace (bodItems h)

/-- The rank lines (cshogi/KIF.py:368-370). -/
def bodRank (p : Position) (r : Nat) : List Char :=
  '|' :: (([8, 7, 6, 5, 4, 3, 2, 1, 0].flatMap fun f => bodSymbol (p.piece (sqN (9 * f + r)))) ++ ('|' :: (rankChars[r]?).toList))

/-- The lines of `board_to_bod` (cshogi/KIF.py:345-376). -/
def bodLines (p : Position) : List (List Char) :=
  ["後手の持駒：".toList ++ bodHand (p.hand .white), "  ９ ８ ７ ６ ５ ４ ３ ２ １".toList, "+---------------------------+".toList] ++
  (List.range 9).map (bodRank p) ++
  ["+---------------------------+".toList, "先手の持駒：".toList ++ bodHand (p.hand .black)] ++
  (if p.turn = .white then ["後手番".toList] else [])

/-- The start of a game as told to `Exporter.header`: nothing, the name of a handicap, or a board (cshogi/KIF.py:420-439). -/
inductive Start where
  | even
  | named (name : List Char)
  | board (p : Position)

/-- What `header` writes about the start (cshogi/KIF.py:430-439). -/
def Start.lines : Start → List (List Char)
  | .even => ["手合割：平手".toList]
  | .named n => ["手合割：".toList ++ n]
  | .board p => bodLines p

/-- Lines with their newlines. -/
def unlines (ls : List (List Char)) : List Char := ls.flatMap fun l => l ++ ['\n']

/-- `Exporter.header` (cshogi/KIF.py:420-442). -/
def exportHeader (time : List Char) (st : Start) (black white : List Char) : List Char :=
  unlines (["開始日時：".toList ++ time] ++ st.lines ++ ["先手：".toList ++ black, "後手：".toList ++ white,
    "手数----指手---------消費時間--".toList])

/-- A whole record. -/
def exportGame (time : List Char) (st : Start) (black white : List Char) (ms : List (Move × Nat × Nat)) (r : Reason) (sec sum : Nat) :
    Option (List Char) :=
  (exportMoves 1 0#32 ms).map fun x => exportHeader time st black white ++ (x ++ exportEnd r (ms.length + 1) sec sum)

/-! ### Reading -/

/-- `\s` for Python texts. -/
def isSpace (c : Char) : Bool :=
  let n := c.toNat
  (9 ≤ n && n ≤ 13) || (28 ≤ n && n ≤ 32) || n == 0x85 || n == 0xA0 || n == 0x1680 || (0x2000 ≤ n && n ≤ 0x200A) || n == 0x2028 ||
    n == 0x2029 || n == 0x202F || n == 0x205F || n == 0x3000

/-- `line.replace(a, b)` for single characters. -/
def replace1 (a b : Char) (l : List Char) : List Char := l.map fun c => if c = a then b else c

/-- `line.replace(a + a', b)`. -/
def replace2 (a a' b : Char) : List Char → List Char
  | [] => []
  | [x] => [x]
  | x :: y :: l => if x = a ∧ y = a' then b :: replace2 a a' b l else x :: replace2 a a' b (y :: l)

/-- The normalisation of names of pieces (cshogi/KIF.py:133-137). -/
def normalise (l : List Char) : List Char :=
  replace2 '成' '香' '杏' (replace2 '成' '桂' '圭' (replace2 '成' '銀' '全' (replace1 '竜' '龍' (replace1 '王' '玉' l))))

/-- The words that `MOVE_RE` takes for the end of a game (cshogi/KIF.py:65). -/
def endings : List (List Char) :=
  ["中断".toList, "投了".toList, "持将棋".toList, "千日手".toList, "詰み".toList, "切れ負け".toList, "反則勝ち".toList, "反則負け".toList]

/-- The text behind a prefix. -/
def behind (w l : List Char) : Option (List Char) := if w.isPrefixOf l then some (l.drop w.length) else none

/-- The first of the words that the text begins with, and what follows. -/
def firstWord : List (List Char) → List Char → Option (List Char × List Char)
  | [], _ => none
  | w :: ws, l => match behind w l with
    | some r => some (w, r)
    | none => firstWord ws l

/-- How a piece comes to its square: a drop, or from a square named by two digits, with or without promotion. -/
inductive Act where
  | drop
  | board (pro : Bool) (f r : Char)

/-- What `MOVE_RE` finds: a word for the end, or the square (`none` for "the same"), the piece and the origin. -/
inductive Body where
  | ending (w : List Char)
  | move (dest : Option (Char × Char)) (piece : Char) (act : Act)

/-- `([１-９])([零一-九])|同　` (cshogi/KIF.py:65). -/
def readDest : List Char → Option (Option (Char × Char) × List Char)
  | a :: b :: l => if a ∈ fileChars ∧ b ∈ '零' :: rankChars then some (some (a, b), l)
    else if a = '同' ∧ b = '　' then some (none, l) else none
  | _ => none

/-- `\(([0-9])([0-9])\)`. -/
def readOrigin (pro : Bool) : List Char → Option (Act × List Char)
  | o :: a :: b :: c :: l => if o = '(' ∧ a.isDigit ∧ b.isDigit ∧ c = ')' then some (.board pro a b, l) else none
  | _ => none

/-- `打|(成?)\(([0-9])([0-9])\)`. -/
def readAct : List Char → Option (Act × List Char)
  | [] => none
  | c :: l => if c = '打' then some (.drop, l) else if c = '成' then readOrigin true l else readOrigin false (c :: l)

/-- The outer group of `MOVE_RE`. -/
def readBody (l : List Char) : Option (Body × List Char) :=
  match firstWord endings l with
  | some (w, r) => some (.ending w, r)
  | none => (readDest l).bind fun (d, l) => match l with
    | [] => none
    | c :: l => if c ∈ pieceChars then (readAct l).map fun (a, l) => (.move d c a, l) else none

/-- A character of `[:0-9]`. -/
def isClock (c : Char) : Bool := c = ':' || c.isDigit

/-- `(\( *([:0-9]+)/([:0-9]+)\))?`: group 11. -/
def readClock : List Char → Option (List Char)
  | [] => none
  | o :: l =>
    if o = '(' then
      let l := l.dropWhile (· = ' ')
      let a := l.takeWhile isClock
      match l.dropWhile isClock with
      | [] => none
      | s :: l' =>
        if a ≠ [] ∧ s = '/' ∧ l'.takeWhile isClock ≠ [] ∧ (l'.dropWhile isClock).head? = some ')' then some a else none
    else none

/-- `MOVE_RE.match` (cshogi/KIF.py:65). What follows the last group is `.*\Z`, which fits any line. -/
def moveRe (line : List Char) : Option (Body × Option (List Char)) :=
  let l := line.dropWhile (· = ' ')
  let l1 := l.dropWhile Char.isDigit
  let l2 := l1.dropWhile isSpace
  if l.takeWhile Char.isDigit = [] ∨ l1.takeWhile isSpace = [] then none
  else (readBody l2).map fun (b, r) => (b, readClock (r.dropWhile isSpace))

/-- `text.split(':')`. -/
def splitAt (sep : Char) : List Char → List (List Char)
  | [] => [[]]
  | c :: cs =>
    if c = sep then [] :: splitAt sep cs
    else match splitAt sep cs with
      | [] => [[c]]
      | l :: ls => (c :: l) :: ls

/-- `int(t)` for a text of digits; the empty text raises. -/
def pyInt (t : List Char) : Option Nat := if t = [] then none else some (readNat t)

/-- The time in seconds (cshogi/KIF.py:141-146). -/
def seconds (t : List Char) : Option Nat :=
  (splitAt ':' t).foldl (fun acc x => acc.bind fun a => (pyInt x).map fun n => 60 * a + n) (some 0)

/-- `list.index(c)`. -/
def indexOf (l : List Char) (c : Char) : Option Nat := l.findIdx? (· = c)

/-- What `parse_move_str` returns: a move, a time, a word for the end. -/
structure Parsed where
  move : Option Move := none
  time : Option Nat := none
  word : Option (List Char) := none

/-- A square of the board, for calls into C++. -/
def square? (n : Int) : Option Square := if h : 0 ≤ n ∧ n < 81 then some ⟨n.toNat, by omega⟩ else none

/-- `Board.peek` (src/cshogi.h:171-176). -/
def peek (b : Board) : Move :=
  match b.hist with
  | [] => 0#32
  | .move m :: _ => m
  | .pass _ :: _ => Move.null

/-- The destination (cshogi/KIF.py:159-165); '零' raises. -/
def destSquare (b : Board) : Option (Char × Char) → Option Nat
  | none => some (peek b).dst
  | some (f, r) => (indexOf fileChars f).bind fun x => (indexOf rankChars r).map fun y => y + x * 9

/-- The move (cshogi/KIF.py:158-176). -/
def buildMove (b : Board) (dest : Option (Char × Char)) (piece : Char) (act : Act) : Out Move :=
  match indexOf pieceChars piece, destSquare b dest with
  | some i, some t => match act with
    | .drop => .ok (makeDropMove (i + 1) t)
    | .board pro f r =>
      if f = '0' ∧ r = '0' then .ok (makeDropMove (i + 1) t)
      else match square? (((digitVal r : Int) - 1) + ((digitVal f : Int) - 1) * 9), square? t with
        | some s, some t => .ok (boardMove b.pos.piece s t pro)
        | _, _ => .ub
  | _, _ => .error

/-- The time in the line, if there is one; an empty part of it raises. -/
def readTime : Option (List Char) → Out (Option Nat)
  | none => .ok none
  | some t => match seconds t with
    | some n => .ok (some n)
    | none => .error

/-- `Parser.parse_move_str` (cshogi/KIF.py:125-179). -/
def parseMove (b : Board) (line : List Char) : Out Parsed :=
  match moveRe (normalise line) with
  | none => .ok {}
  | some (body, clk) => (readTime clk).bind fun time => match body with
    | .ending w => .ok { time := time, word := some w }
    | .move d c a => (buildMove b d c a).bind fun m => .ok { move := some m, time := time }

/-- What `RESULT_RE` finds: a side and how it ended, or a word. -/
inductive ResultHit where
  | side (c : Char) (how : List Char)
  | word (w : List Char)

/-- `RESULT_RE.match` from the number on (cshogi/KIF.py:85). -/
def resultTail (l : List Char) : Option ResultHit :=
  if l.takeWhile Char.isDigit = [] then none
  else (behind "手で".toList (l.dropWhile Char.isDigit)).bind fun l => match l with
    | [] => none
    | c :: r =>
      if c ∈ ['先', '下', '後', '上'] then
        (behind "手の".toList r).bind fun r =>
          (firstWord ["勝ち".toList, "入玉勝ち".toList, "反則勝ち".toList, "反則負け".toList] r).map fun x => .side c x.1
      else (firstWord ["千日手".toList, "持将棋".toList, "中断".toList] l).map fun x => .word x.1

/-- `RESULT_RE.match` (cshogi/KIF.py:85): `　*まで、?(\d+)手で(...)`. -/
def resultRe (line : List Char) : Option ResultHit :=
  (behind "まで".toList (line.dropWhile (· = '　'))).bind fun l => match l with
    | [] => none
    | c :: r => if c = '、' then resultTail r else resultTail l

/-- The winner and the end of the game (cshogi/KIF.py:264-287). `none` for `win` is Python's `None`. -/
def outcome : ResultHit → Option Csa.Win × List Char
  | .side c how =>
    if c = '先' ∨ c = '下' then
      if how = "反則負け".toList then (some .white, "%ILLEGAL_MOVE".toList)
      else (some .black, if how = "反則勝ち".toList then "%+ILLEGAL_ACTION".toList
        else if how = "入玉勝ち".toList then "%KACHI".toList else "%TORYO".toList)
    else
      if how = "反則負け".toList then (some .black, "%ILLEGAL_MOVE".toList)
      else (some .white, if how = "反則勝ち".toList then "%-ILLEGAL_ACTION".toList
        else if how = "入玉勝ち".toList then "%KACHI".toList else "%TORYO".toList)
  | .word w => if w = "中断".toList then (none, "%CHUDAN".toList) else (some .draw, "%SENNICHITE".toList)

/-- `STARTING_SFEN` (cshogi/_cshogi.pyx:49). -/
def startSfen : List Char := "lnsgkgsnl/1r5b1/ppppppppp/9/9/9/PPPPPPPPP/1B5R1/LNSGKGSNL b - 1".toList

/-- `HANDYCAP_SFENS` without 'その他' (cshogi/KIF.py:67-83). -/
def handicaps : List (List Char × List Char) := [
  ("平手".toList, startSfen),
  ("香落ち".toList, "lnsgkgsn1/1r5b1/ppppppppp/9/9/9/PPPPPPPPP/1B5R1/LNSGKGSNL w - 1".toList),
  ("右香落ち".toList, "1nsgkgsnl/1r5b1/ppppppppp/9/9/9/PPPPPPPPP/1B5R1/LNSGKGSNL w - 1".toList),
  ("角落ち".toList, "lnsgkgsnl/1r7/ppppppppp/9/9/9/PPPPPPPPP/1B5R1/LNSGKGSNL w - 1".toList),
  ("飛車落ち".toList, "lnsgkgsnl/7b1/ppppppppp/9/9/9/PPPPPPPPP/1B5R1/LNSGKGSNL w - 1".toList),
  ("飛香落ち".toList, "lnsgkgsn1/7b1/ppppppppp/9/9/9/PPPPPPPPP/1B5R1/LNSGKGSNL w - 1".toList),
  ("二枚落ち".toList, "lnsgkgsnl/9/ppppppppp/9/9/9/PPPPPPPPP/1B5R1/LNSGKGSNL w - 1".toList),
  ("三枚落ち".toList, "lnsgkgsn1/9/ppppppppp/9/9/9/PPPPPPPPP/1B5R1/LNSGKGSNL w - 1".toList),
  ("四枚落ち".toList, "1nsgkgsn1/9/ppppppppp/9/9/9/PPPPPPPPP/1B5R1/LNSGKGSNL w - 1".toList),
  ("五枚落ち".toList, "2sgkgsn1/9/ppppppppp/9/9/9/PPPPPPPPP/1B5R1/LNSGKGSNL w - 1".toList),
  ("左五枚落ち".toList, "1nsgkgs2/9/ppppppppp/9/9/9/PPPPPPPPP/1B5R1/LNSGKGSNL w - 1".toList),
  ("六枚落ち".toList, "2sgkgs2/9/ppppppppp/9/9/9/PPPPPPPPP/1B5R1/LNSGKGSNL w - 1".toList),
  ("八枚落ち".toList, "3gkg3/9/ppppppppp/9/9/9/PPPPPPPPP/1B5R1/LNSGKGSNL w - 1".toList),
  ("十枚落ち".toList, "4k4/9/ppppppppp/9/9/9/PPPPPPPPP/1B5R1/LNSGKGSNL w - 1".toList)]

/-- The variables of `parse_str` (cshogi/KIF.py:189-202) without `starttime`. -/
structure State where
  names : Color → Option (List Char) := fun _ => none
  sfen : List Char := startSfen
  info : List (List Char × List Char) := []
  head : List (List Char) := []
  moves : List Move := []
  times : List Nat := []
  comments : List (Option (List Char)) := []
  win : Option Csa.Win := none
  endgame : Option (List Char) := none
  board : Board

/-- A line that begins with an asterisk (cshogi/KIF.py:207-220). -/
def commentLine (s : State) (line : List Char) : Out State :=
  if s.moves = [] then .ok { s with head := s.head ++ [line.drop 1] }
  else
    let comments := s.comments ++ List.replicate (s.moves.length - s.comments.length - 1) none
    let text := if line.take 2 = ['*', '*'] then line.drop 2 else line.drop 1
    if comments.length = s.moves.length then
      match comments.getLast? with
      | some (some c) => .ok { s with comments := comments.dropLast ++ [some (c ++ ('\n' :: text))] }
      | _ => .error
    else .ok { s with comments := comments ++ [some text] }

/-- One piece of `parse_pieces_in_hand` (cshogi/KIF.py:112-121); the value is not used by the caller. -/
def handItem (item : List Char) : Bool :=
  match item with
  | [] => true
  | [c] => c ∈ pieceChars
  | c :: n => c ∈ pieceChars && n.length ≤ 2 && (List.range 18).any fun i => kanjiNumber (i + 1) = n

/-- `parse_pieces_in_hand` (cshogi/KIF.py:101-123): whether it returns. -/
def handOK (v : List Char) : Bool := v = "なし".toList || (splitAt '　' v).all handItem

/-- `value.rstrip('　')`. -/
def rstrip (l : List Char) : List Char := (l.reverse.dropWhile (· = '　')).reverse

/-- A line with '：' (cshogi/KIF.py:221-252). The comparisons `pieces_in_hand[...] == ...` have no effect. -/
def keyLine (Z : Zobrist) (s : State) (key value : List Char) : Out State :=
  if key = "先手".toList ∨ key = "下手".toList then .ok { s with names := fun c => if c = .black then some value else s.names c }
  else if key = "後手".toList ∨ key = "上手".toList then .ok { s with names := fun c => if c = .white then some value else s.names c }
  else if key = "先手の持駒".toList ∨ key = "下手の持駒".toList ∨ key = "後手の持駒".toList ∨ key = "上手の持駒".toList then
    if handOK value then .ok s else .error
  else if key = "手合割".toList then
    match handicaps.find? (fun x => x.1 = value) with
    | none => .error
    | some x => (setSfen Z x.2).bind fun p => .ok { s with sfen := x.2, board := ⟨p, []⟩ }
  else .ok { s with info := s.info ++ [(key, value)] }

/-- The move of a line (cshogi/KIF.py:254-258): kept, and played if `is_legal` says so. -/
def addMove (Z : Zobrist) (s : State) (m : Move) : Out State :=
  match s.board.pos.isLegal m with
  | none => .ub
  | some false => .ok { s with moves := s.moves ++ [m] }
  | some true => match s.board.push Z m with
    | none => .ub
    | some b => .ok { s with moves := s.moves ++ [m], board := b }

/-- Any other line (cshogi/KIF.py:253-289). The second component tells whether the loop ends. -/
def otherLine (Z : Zobrist) (s : State) (line : List Char) : Out (State × Bool) :=
  (parseMove s.board line).bind fun r =>
  match r.move, r.time with
  | some m, t => (addMove Z s m).bind fun s => .ok ({ s with times := s.times ++ t.toList }, false)
  | none, some t => .ok ({ s with times := s.times ++ [t] }, false)
  | none, none => match resultRe line with
    | none => .ok (s, false)
    | some h => .ok ({ s with win := (outcome h).1, endgame := some (outcome h).2 }, true)

/-- One turn of the loop (cshogi/KIF.py:204-290). -/
def step (Z : Zobrist) (s : State) (line : List Char) : Out (State × Bool) :=
  match line with
  | [] => .ok (s, false)
  | c :: _ =>
    if c = '*' then (commentLine s line).bind fun s => .ok (s, false)
    else if '：' ∈ line then
      (keyLine Z s (line.takeWhile (· ≠ '：')) (rstrip ((line.dropWhile (· ≠ '：')).drop 1))).bind fun s => .ok (s, false)
    else otherLine Z s line

/-- The loop. -/
def run (Z : Zobrist) : List (List Char) → State → Out State
  | [], s => .ok s
  | l :: ls, s => (step Z s l).bind fun (s', stop) => if stop then .ok s' else run Z ls s'

/-- `kif_str.replace('\r\n', '\n').replace('\r', '\n')` (cshogi/KIF.py:203). -/
def unixNewlines (t : List Char) : List Char := replace1 '\r' '\n' (replace2 '\r' '\n' '\n' t)

/-- `Parser.parse_str` (cshogi/KIF.py:181-304). -/
def parse (Z : Zobrist) (text : List Char) : Out State :=
  (setSfen Z startSfen).bind fun p => run Z (splitAt '\n' (unixNewlines text)) { board := ⟨p, []⟩ }

end Verif.Kif
