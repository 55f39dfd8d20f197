import Verif.Model.Kif

/-!
# KI2 records (cshogi/KI2.py)

`Parser` and `Exporter` of the Python module, with the same conventions as for KIF.
-/

namespace Verif.Ki2
open Position Kif

/-! ### Writing -/

/-- `PIECE_JAPANESE_SYMBOLS2` (cshogi/KI2.py:268-271). -/
def pieceName (pt : PieceType) : Option (List Char) :=
  ([[], ['歩'], ['香'], ['桂'], ['銀'], ['角'], ['飛'], ['金'], ['玉'], ['と'], ['成', '香'], ['成', '桂'], ['成', '銀'], ['馬'], ['龍']] :
    List (List Char))[pt]?

/-- Seen from White's side the board is turned by 180 degrees (cshogi/KI2.py:303-305, 310-312). -/
def seen (turn : Color) (s : Nat) : Nat := if turn = .black then s else 80 - s

/-- Where an origin lies relative to the destination: file. -/
inductive Rel where
  | left | right | same
deriving DecidableEq

/-- The same for the rank: the piece moves up, down or sideways. -/
inductive Dir where
  | up | down | side
deriving DecidableEq

/-- `rel` (cshogi/KI2.py:313-325); origin and destination as seen by the side to move. -/
def relOf (f t : Nat) : Rel := if f / 9 > t / 9 then .left else if f / 9 < t / 9 then .right else .same
/-- `direction` (cshogi/KI2.py:327-335). -/
def dirOf (f t : Nat) : Dir := if f % 9 > t % 9 then .up else if f % 9 < t % 9 then .down else .side

/-- `left_up` and so on (cshogi/KI2.py:337-357). -/
def cnt (os : List Nat) (t : Nat) (r : Rel) (d : Dir) : Nat := os.countP fun f => relOf f t = r && dirOf f t = d
/-- `candidates_left`, `candidates_right`, `same_file_count`. -/
def cntRel (os : List Nat) (t : Nat) (r : Rel) : Nat := os.countP fun f => relOf f t = r
/-- `candidates_up`, `candidates_down`, `candidates_side`. -/
def cntDir (os : List Nat) (t : Nat) (d : Dir) : Nat := os.countP fun f => dirOf f t = d

/-- `relative` when more than one candidate moves in the direction (cshogi/KI2.py:367-388, 415-436, 471-481). `none` is the empty
text. -/
def relative (os : List Nat) (pt : PieceType) (f t : Nat) : Option Rel :=
  match relOf f t with
  | .left => some .left
  | .right => some .right
  | .same =>
    if dirOf f t = .side then none
    else if pt ≠ PT.Horse ∧ pt ≠ PT.Dragon then some .same
    else
      let otherL := os.any fun g => relOf g t = .left && g ≠ f
      let otherR := os.any fun g => relOf g t = .right && g ≠ f
      if otherR ∧ ¬ otherL then some .left else if otherL ∧ ¬ otherR then some .right else none

/-- Another direction in which a candidate on this side moves, not as the only one. -/
def crowded (os : List Nat) (t : Nat) (r : Rel) (d : Dir) : Bool := 0 < cnt os t r d && 1 < cntDir os t d

/-- `need_motion` for a relative position (cshogi/KI2.py:390-406, 438-462, 483-507). -/
def needMotion (os : List Nat) (t : Nat) (r : Rel) (d : Dir) : Bool :=
  if 1 < cnt os t r d then true
  else if 0 < cntRel os t r - cnt os t r d then
    match d with
    | .up => if r = .same then crowded os t r .down || crowded os t r .side else true
    | .down => crowded os t r .up || crowded os t r .side
    | .side => crowded os t r .up || crowded os t r .down
  else false

/-- The character for a relative position. -/
def Rel.char : Rel → Char
  | .left => '左' | .right => '右' | .same => '直'
/-- The character for a motion. -/
def Dir.char : Dir → Char
  | .up => '上' | .down => '引' | .side => '寄'

/-- `relative + motion` when there is more than one candidate (cshogi/KI2.py:302-507): origins, piece type, origin and destination, all
squares as seen by the side to move. -/
def qualifiers (os : List Nat) (pt : PieceType) (f t : Nat) : List Char :=
  let d := dirOf f t
  if cntDir os t d = 1 then [d.char]
  else match relative os pt f t with
    | none => [d.char]
    | some r => r.char :: if 0 < cntRel os t r && needMotion os t r d then [d.char] else []

/-- The origins of the board moves with this destination and piece type in a list of moves (cshogi/KI2.py:294-296). -/
def reach (l : List Move) (t : Nat) (pt : PieceType) : List Nat :=
  (l.filter fun m => m.dst = t && !m.isDrop && m.pieceTypeFrom = pt).map Move.src

/-- Each origin once (cshogi/KI2.py:297-301). -/
def once (l : List Nat) : List Nat := l.foldl (fun acc s => if s ∈ acc then acc else acc ++ [s]) []

/-- `▲` or `△`. -/
def turnChar (c : Color) : Char := if c = .black then '▲' else '△'

/-- The destination (cshogi/KI2.py:281-285). -/
def destText (b : Board) (m : Move) : Option (List Char) :=
  (squareName m.dst).map fun n => if peek b ≠ 0#32 ∧ (peek b).dst = m.dst then ['同'] else n

/-- The text of a move on the board but for its first character and the ideographic space (cshogi/KI2.py:286-516). `none`: a Python
exception, or the generator left its defined range. -/
def boardText (b : Board) (m : Move) : Option (List Char) :=
  (genPseudo b.pos true).bind fun l =>
  let r := reach l m.dst m.pieceTypeFrom
  let os := (once r).map (seen b.pos.turn)
  (destText b m).bind fun d => (pieceName m.pieceTypeFrom).bind fun n =>
  let q := if 1 < os.length then qualifiers os m.pieceTypeFrom (seen b.pos.turn m.src) (seen b.pos.turn m.dst) else []
  if m.isPromotion then some (d ++ (n ++ (q ++ ['成'])))
  else if m.src ∈ r then some (d ++ (n ++ (q ++ if r.count m.src = 2 then ['不', '成'] else [])))
  else none

/-- The text of a drop (cshogi/KI2.py:518-528). -/
def dropText (b : Board) (m : Move) : Option (List Char) :=
  (genLegal b.pos true).bind fun l => (destText b m).bind fun d => (handChars[m.handPieceDropped]?).map fun n =>
    d ++ (n :: if reach l m.dst (handToPt m.handPieceDropped) ≠ [] then ['打'] else [])

/-- "同" and a single character get an ideographic space in between (cshogi/KI2.py:529-530). -/
def spaced (t : List Char) : List Char :=
  match t with
  | [a, b] => if a = '同' then [a, '　', b] else [a, b]
  | t => t

/-- `move_to_ki2` (cshogi/KI2.py:273-531). -/
def moveToKi2 (b : Board) (m : Move) : Option (List Char) :=
  (if m.isDrop then dropText b m else boardText b m).map fun t => turnChar b.pos.turn :: spaced t

/-! ### Reading -/

/-- `([１-９])([零一-九])|同　?` (cshogi/KI2.py:11). -/
def readDest : List Char → Option (Option (Char × Char) × List Char)
  | [] => none
  | a :: l =>
    if a = '同' then some (none, if l.head? = some '　' then l.drop 1 else l)
    else match l with
      | [] => none
      | b :: l => if a ∈ fileChars ∧ b ∈ '零' :: rankChars then some (some (a, b), l) else none

/-- An optional character out of a list. -/
def readOpt (cs : List Char) : List Char → Option Char × List Char
  | [] => (none, [])
  | c :: l => if c ∈ cs then (some c, l) else (none, c :: l)

/-- Group 8. -/
inductive Tail where
  | none | drop | pro | noPro
deriving DecidableEq

/-- `(打|成|不成)?`. -/
def readTail : List Char → Tail × List Char
  | [] => (.none, [])
  | c :: l =>
    if c = '打' then (.drop, l) else if c = '成' then (.pro, l)
    else if c = '不' ∧ l.head? = some '成' then (.noPro, l.drop 1) else (.none, c :: l)

/-- What `MOVE_RE` finds. -/
structure Hit where
  dest : Option (Char × Char)
  piece : Char
  rel : Option Char
  dir : Option Char
  tail : Tail

/-- `MOVE_RE.match` (cshogi/KI2.py:11) and the rest of the line. -/
def moveRe : List Char → Option (Hit × List Char)
  | [] => none
  | c :: l =>
    if c = '▲' ∨ c = '△' then (readDest l).bind fun (d, l) => match l with
      | [] => none
      | p :: l => if p ∈ pieceChars then
          let x := readOpt ['左', '直', '右'] l
          let y := readOpt ['上', '寄', '引'] x.2
          let z := readTail y.2
          some (⟨d, p, x.1, y.1, z.1⟩, z.2.dropWhile Kif.isSpace)
        else none
    else none

/-- The type of the piece a move brings to its square (cshogi/KI2.py:98). -/
def broughtType (m : Move) : PieceType := if m.isDrop then handToPt m.handPieceDropped else m.pieceTypeFrom

/-- The least of a list of numbers and 9. -/
def least (l : List Nat) : Nat := l.foldl (fun a x => if x < a then x else a) 9
/-- The greatest of a list of numbers and 0. -/
def greatest (l : List Nat) : Nat := l.foldl (fun a x => if x > a then x else a) 0

/-- The file of an origin; 9 for drops, whose origin is numbered from 81. -/
def fileOf (m : Move) : Nat := m.src / 9
/-- The same for ranks. -/
def rankOf (m : Move) : Nat := m.src % 9

/-- The filter for group 6 (cshogi/KI2.py:100-125). -/
def byRel (turn : Color) (all : List Move) (rel : Option Char) (l : List Move) : List Move :=
  let hi := greatest (all.map fileOf)
  let lo := least (all.map fileOf)
  if rel = some '左' then l.filter fun m => fileOf m = if turn = .black then hi else lo
  else if rel = some '右' then l.filter fun m => fileOf m = if turn = .black then lo else hi
  else if rel = some '直' then l.filter fun m => m.dst / 9 = fileOf m
  else l

/-- The filter for group 7 (cshogi/KI2.py:100-111, 127-138). -/
def byDir (turn : Color) (all : List Move) (dir : Option Char) (l : List Move) : List Move :=
  let hi := greatest (all.map rankOf)
  let lo := least (all.map rankOf)
  if dir = some '上' then l.filter fun m => rankOf m = if turn = .black then hi else lo
  else if dir = some '引' then l.filter fun m => rankOf m = if turn = .black then lo else hi
  else if dir = some '寄' then l.filter fun m => m.dst % 9 = rankOf m
  else l

/-- The filter for group 8 (cshogi/KI2.py:140-145). -/
def byTail : Tail → List Move → List Move
  | .none, l => l
  | .drop, l => l.filter Move.isDrop
  | .pro, l => l.filter Move.isPromotion
  | .noPro, l => l.filter fun m => !m.isPromotion

/-- The choice among what is left (cshogi/KI2.py:147-150): `AssertionError` and `IndexError` are errors. -/
def pick (l : List Move) : Option Move :=
  if 1 < l.length then (match l.filter fun m => !m.isDrop with
    | [m] => some m
    | _ => none)
  else l.head?

/-- The move meant (cshogi/KI2.py:88-150). -/
def findMove (b : Board) (h : Hit) : Out Move :=
  match indexOf pieceChars h.piece, destSquare b h.dest with
  | some i, some t => match genLegal b.pos true with
    | none => .ub
    | some l =>
      let all := l.filter fun m => m.dst = t && broughtType m = i + 1
      match pick (byTail h.tail (byDir b.pos.turn all h.dir (byRel b.pos.turn all h.rel all))) with
      | some m => .ok m
      | none => .error
  | _, _ => .error

/-- The move is played if `is_legal` says so (cshogi/KI2.py:152-153). -/
def playLegal (Z : Zobrist) (b : Board) (m : Move) : Out Board :=
  match b.pos.isLegal m with
  | none => .ub
  | some false => .ok b
  | some true => match b.push Z m with
    | none => .ub
    | some b => .ok b

/-- The loop of `parse_move_str` (cshogi/KI2.py:82-157). `pos` is set to the end of the match within `line[pos:]`, not within `line`.
The loop has no bound of its own: out of fuel the result is `.ub`. -/
def parseLoop (Z : Zobrist) (line : List Char) : Nat → Board → Nat → List Move → Out (List Move × Board)
  | 0, _, _, _ => .ub
  | n + 1, b, pos, acc => match moveRe (line.drop pos) with
    | none => .ok (acc, b)
    | some (h, rest) => (findMove b h).bind fun m => (playLegal Z b m).bind fun b =>
        parseLoop Z line n b ((line.drop pos).length - rest.length) (acc ++ [m])

/-- `Parser.parse_move_str` (cshogi/KI2.py:66-157): the moves and the board afterwards. -/
def parseMoves (Z : Zobrist) (fuel : Nat) (b : Board) (line : List Char) : Out (List Move × Board) :=
  parseLoop Z (normalise line) fuel b 0 []

/-- `RESULT_RE.match` (cshogi/KI2.py:31): `まで(\d+)手で(...)`. -/
def resultRe (line : List Char) : Option ResultHit := (behind "まで".toList line).bind resultTail

/-- The winner and the end of the game (cshogi/KI2.py:220-245). -/
def outcome : ResultHit → Option Csa.Win × List Char
  | .side c how => Kif.outcome (.side c how)
  | .word w => if w = "持将棋".toList then (some .draw, "%JISHOGI".toList)
    else if w = "中断".toList then (none, "%CHUDAN".toList) else (some .draw, "%SENNICHITE".toList)

/-- The variables of `parse_str` (cshogi/KI2.py:167-179) without `starttime`. -/
structure State where
  names : Color → Option (List Char) := fun _ => none
  sfen : List Char := startSfen
  info : List (List Char × List Char) := []
  head : List (List Char) := []
  moves : List Move := []
  comments : List (Option (List Char)) := []
  win : Option Csa.Win := none
  endgame : List Char := []
  board : Board

/-- A line that begins with an asterisk (cshogi/KI2.py:183-192). -/
def commentLine (s : State) (line : List Char) : State :=
  if s.moves = [] then { s with head := s.head ++ [line.drop 1] }
  else { s with comments := s.comments ++ (List.replicate (s.moves.length - s.comments.length - 1) none ++
    [some (if line.take 2 = ['*', '*'] then line.drop 2 else line.drop 1)]) }

/-- A line with '：' (cshogi/KI2.py:193-217). -/
def keyLine (Z : Zobrist) (s : State) (key value : List Char) : Out State :=
  if key = "開始日時".toList then .ok s
  else if key = "先手".toList ∨ key = "下手".toList then .ok { s with names := fun c => if c = .black then some value else s.names c }
  else if key = "後手".toList ∨ key = "上手".toList then .ok { s with names := fun c => if c = .white then some value else s.names c }
  else if key = "手合割".toList then
    match handicaps.find? (fun x => x.1 = value) with
    | none => .error
    | some x => (setSfen Z x.2).bind fun p => .ok { s with sfen := x.2, board := ⟨p, []⟩ }
  else .ok { s with info := s.info ++ [(key, value)] }

/-- Any other line (cshogi/KI2.py:218-249). The second component tells whether the loop ends. -/
def otherLine (Z : Zobrist) (fuel : Nat) (s : State) (line : List Char) : Out (State × Bool) :=
  match resultRe line with
  | some h => .ok ({ s with win := (outcome h).1, endgame := (outcome h).2 }, true)
  | none => (parseMoves Z fuel s.board line).bind fun (ms, b) => .ok ({ s with moves := s.moves ++ ms, board := b }, false)

/-- One turn of the loop (cshogi/KI2.py:180-250). -/
def step (Z : Zobrist) (fuel : Nat) (s : State) (line : List Char) : Out (State × Bool) :=
  match line with
  | [] => .ok (s, false)
  | c :: _ =>
    if c = '*' then .ok (commentLine s line, false)
    else if '：' ∈ line then
      (keyLine Z s (line.takeWhile (· ≠ '：')) (rstrip ((line.dropWhile (· ≠ '：')).drop 1))).bind fun s => .ok (s, false)
    else otherLine Z fuel s line

/-- The loop. -/
def run (Z : Zobrist) (fuel : Nat) : List (List Char) → State → Out State
  | [], s => .ok s
  | l :: ls, s => (step Z fuel s l).bind fun (s', stop) => if stop then .ok s' else run Z fuel ls s'

/-- The comments are filled up (cshogi/KI2.py:252-253). -/
def filled (s : State) : State := { s with comments := s.comments ++ List.replicate (s.moves.length - s.comments.length) none }

/-- `Parser.parse_str` (cshogi/KI2.py:160-266). -/
def parse (Z : Zobrist) (fuel : Nat) (text : List Char) : Out State :=
  (setSfen Z startSfen).bind fun p =>
    (run Z fuel (splitAt '\n' (unixNewlines text)) { board := ⟨p, []⟩ }).bind fun s => .ok (filled s)

/-! ### The exporter -/

/-- `Exporter.header` (cshogi/KI2.py:559-570), with the time of the start as a text. -/
def headerLines (time black white : List Char) : List (List Char) :=
  ["開始日時：".toList ++ time, "手合割：平手".toList, "先手：".toList ++ black, "後手：".toList ++ white, []]

/-- The line for a comment, if there is one (cshogi/KI2.py:582-583). -/
def commentLines : Option (List Char) → List (List Char)
  | some (x :: xs) => ['*' :: '*' :: x :: xs]
  | _ => []

/-- `Exporter.move` for one move after the other, each with or without a comment (cshogi/KI2.py:572-583): lines and board. -/
def exportMoves (Z : Zobrist) : Board → List (Move × Option (List Char)) → Option (List (List Char) × Board)
  | b, [] => some ([], b)
  | b, (m, c) :: l => (moveToKi2 b m).bind fun t => (b.push Z m).bind fun b => (exportMoves Z b l).map fun (ls, b') =>
      (t :: (commentLines c ++ ls), b')

/-- The reasons `Exporter.end` knows (cshogi/KI2.py:591-602); for others it writes nothing. -/
inductive Reason where
  | toryo | jishogi | kachi | sennichite | illegalAction (c : Color) | illegalMove
deriving DecidableEq

/-- The reason as a text. -/
def Reason.text : Reason → List Char
  | .toryo => "%TORYO".toList
  | .jishogi => "%JISHOGI".toList
  | .kachi => "%KACHI".toList
  | .sennichite => "%SENNICHITE".toList
  | .illegalAction .black => "%+ILLEGAL_ACTION".toList
  | .illegalAction .white => "%-ILLEGAL_ACTION".toList
  | .illegalMove => "%ILLEGAL_MOVE".toList

/-- `'先手' if self.board.turn == side else '後手'`. -/
def sideName (turn side : Color) : List Char := if turn = side then ['先', '手'] else ['後', '手']

/-- The number of moves in the line about the result; `self.move_number` is never counted up. Games begin with move 1, so no number is
negative. -/
def Reason.number (b : Board) : Reason → Nat
  | .jishogi => (b.pos.gamePly + 1).toNat
  | .illegalMove => 0
  | _ => (b.pos.gamePly - 1).toNat

/-- What follows the number. -/
def Reason.tail (turn : Color) : Reason → List Char
  | .toryo => sideName turn .white ++ "の勝ち".toList
  | .jishogi => "持将棋".toList
  | .kachi => sideName turn .black ++ "の入玉勝ち".toList
  | .sennichite => "千日手".toList
  | .illegalAction _ => sideName turn .white ++ "の反則勝ち".toList
  | .illegalMove => sideName turn .white ++ "の反則負け".toList

/-- `Exporter.end` (cshogi/KI2.py:585-602). -/
def resultLine (b : Board) (r : Reason) : List Char :=
  "まで".toList ++ (natChars (r.number b) ++ ("手で".toList ++ r.tail b.pos.turn))

/-- A whole record, and the board of the exporter at its end. -/
def exportGame (Z : Zobrist) (time black white : List Char) (ms : List (Move × Option (List Char))) (r : Reason) :
    Out (Option (List Char × Board)) :=
  (setSfen Z startSfen).bind fun p => .ok ((exportMoves Z ⟨p, []⟩ ms).map fun (ls, b) =>
    (unlines (headerLines time black white ++ (ls ++ [resultLine b r])), b))

end Verif.Ki2
