import Verif.Model.MoveText
import Verif.Model.Board

/-!
# CSA records: the position dump, the record parser and the exporter (position.cpp, parser.h, cshogi/CSA.py)

Strings are lists of characters. `Out.error` is a C++ exception (the Python wrapper raises), `Out.ub` undefined behaviour: a key
not in the map (`find(str)->second` on `end()`), an index out of range, an uninitialised value. Reading an uninitialised cell
or side to move is `none` in the model.

Not modelled: `std::stof` (player ratings), which is a parameter of the parser; the file-reading entry point; line numbers.
-/

namespace Verif
namespace Csa

/-- `PieceToCharCSATable` (src/position.cpp:191-194). -/
def csaCell : Piece → List Char
  | 0 => [' ', '*', ' ']
  | 1 => ['+', 'F', 'U'] | 2 => ['+', 'K', 'Y'] | 3 => ['+', 'K', 'E'] | 4 => ['+', 'G', 'I'] | 5 => ['+', 'K', 'A']
  | 6 => ['+', 'H', 'I'] | 7 => ['+', 'K', 'I'] | 8 => ['+', 'O', 'U'] | 9 => ['+', 'T', 'O'] | 10 => ['+', 'N', 'Y']
  | 11 => ['+', 'N', 'K'] | 12 => ['+', 'N', 'G'] | 13 => ['+', 'U', 'M'] | 14 => ['+', 'R', 'Y']
  | 17 => ['-', 'F', 'U'] | 18 => ['-', 'K', 'Y'] | 19 => ['-', 'K', 'E'] | 20 => ['-', 'G', 'I'] | 21 => ['-', 'K', 'A']
  | 22 => ['-', 'H', 'I'] | 23 => ['-', 'K', 'I'] | 24 => ['-', 'O', 'U'] | 25 => ['-', 'T', 'O'] | 26 => ['-', 'N', 'Y']
  | 27 => ['-', 'N', 'K'] | 28 => ['-', 'N', 'G'] | 29 => ['-', 'U', 'M'] | 30 => ['-', 'R', 'Y']
  | _ => []

/-- `sign`: "+" for Black, "-" for White. -/
def signChar (c : Color) : Char := if c = .black then '+' else '-'

/-- The names in `printHand` (src/position.cpp:3312-3320), by hand index. -/
def csaHandName : HandPiece → List Char
  | 0 => ['F', 'U'] | 1 => ['K', 'Y'] | 2 => ['K', 'E'] | 3 => ['G', 'I'] | 4 => ['K', 'I'] | 5 => ['K', 'A'] | 6 => ['H', 'I']
  | _ => []

/-- `printHandPiece` (src/position.cpp:3302-3310). -/
def printHandPiece (h : Hand) (hp : HandPiece) (c : Color) : List Char :=
  if h.numOf hp ≠ 0 then
    'P' :: signChar c :: ((List.replicate (h.numOf hp) ('0' :: '0' :: csaHandName hp)).flatten ++ ['\n'])
  else []

/-- `Position::printHand` (src/position.cpp:3312-3320). -/
def printHand (h : Hand) (c : Color) : List Char := [0, 1, 2, 3, 4, 5, 6].flatMap fun hp => printHandPiece h hp c

/-- One line of the board (src/position.cpp:3004-3010). -/
def csaRankLine (piece : Square → Piece) (r : Nat) : List Char :=
  'P' :: (natChars (r + 1) ++ ((Position.rankSquares r).flatMap fun s => csaCell (piece s)))

/-- `Position::toCSAPos`, Python `csa_pos` (src/position.cpp:3001-3015). -/
def toCsaPos (p : Position) : List Char :=
  ((List.range 9).flatMap fun r => csaRankLine p.piece r ++ ['\n']) ++
    (printHand (p.hand .black) .black ++ (printHand (p.hand .white) .white ++ [signChar p.turn, '\n']))

/-- `StringToPieceCSA` (src/parser.h:43-77), as a search through its keys; `none`: not a key, `end()` is dereferenced. -/
def csaPiece (s : List Char) : Option Piece :=
  [0, 1, 2, 3, 4, 5, 6, 7, 8, 9, 10, 11, 12, 13, 14, 17, 18, 19, 20, 21, 22, 23, 24, 25, 26, 27, 28, 29, 30].find?
    fun pc => csaCell pc = s

/-- The local variables of `parse_position` (src/parser.h:282-289): the board by rank and column from file 9, the hand counts by
piece, the side to move. -/
structure Block where
  cells : Nat → Nat → Option Piece
  hand : Piece → Nat
  turn : Option Color

/-- Before the first line. -/
def Block.empty : Block := ⟨fun _ _ => none, fun _ => 0, none⟩

/-- `pieces_in_board[r][f] = pc`. -/
def Block.put (b : Block) (r f : Nat) (pc : Piece) : Block :=
  { b with cells := fun r' f' => if r' = r ∧ f' = f then some pc else b.cells r' f' }

/-- `pieces_in_hand[pc] += 1`. -/
def Block.addHand (b : Block) (pc : Piece) : Block :=
  { b with hand := fun q => if q = pc then b.hand q + 1 else b.hand q }

/-- The loop of a `P+` or `P-` line (src/parser.h:313-329): the characters still to read. `std::stoi` of one character that is
not a digit throws. -/
def placePieces (sign : Char) : List Char → Block → Out Block
  | [], b => .ok b
  | [_], _ => .error
  | x :: y :: cs, b =>
    if ¬ (x.isDigit ∧ y.isDigit) then .error
    else match cs with
      | k0 :: k1 :: rest =>
        match csaPiece [sign, k0, k1] with
        | none => .ub
        | some pc =>
          if Position.digitVal x = 0 ∧ Position.digitVal y = 0 then placePieces sign rest (b.addHand pc)
          else if Position.digitVal x = 0 ∨ Position.digitVal y = 0 then .ub
          else placePieces sign rest (b.put (Position.digitVal x - 1) (Position.digitVal y - 1) pc)
      | _ => .ub

/-- `s.substr(i, n)`: throws if `i` is behind the end. -/
def substr (s : List Char) (i n : Nat) : Out (List Char) := if i ≤ s.length then .ok ((s.drop i).take n) else .error

/-- The loop of a rank line (src/parser.h:331-338); `n` is the number of columns still to read. -/
def rankCells (line : List Char) (r : Nat) : Nat → Block → Out Block
  | 0, b => .ok b
  | n + 1, b =>
    (substr line (2 + 3 * (8 - n)) 3).bind fun k => match csaPiece k with
      | none => .ub
      | some pc => rankCells line r n (b.put r (8 - n) pc)

/-- `initial_board` (src/parser.h:341-351). -/
def initialBoard : List (List Piece) :=
  [[18, 19, 20, 23, 24, 23, 20, 19, 18], [0, 22, 0, 0, 0, 0, 0, 21, 0], [17, 17, 17, 17, 17, 17, 17, 17, 17],
   [0, 0, 0, 0, 0, 0, 0, 0, 0], [0, 0, 0, 0, 0, 0, 0, 0, 0], [0, 0, 0, 0, 0, 0, 0, 0, 0],
   [1, 1, 1, 1, 1, 1, 1, 1, 1], [0, 5, 0, 0, 0, 0, 0, 6, 0], [2, 3, 4, 7, 8, 7, 4, 3, 2]]

/-- The copying loops of a `PI` line (src/parser.h:352-356). -/
def Block.initial (b : Block) : Block :=
  { b with cells := fun r f => if r < 9 ∧ f < 9 then (initialBoard[r]?).bind (·[f]?) else b.cells r f }

/-- The removal loop of a `PI` line (src/parser.h:358-377): the characters still to read. A text that ends after the file
character makes `substr` throw; after the file and rank characters, or after one character of the name, it is an unknown key. -/
def removePieces : List Char → Block → Out Block
  | [], b => .ok b
  | [_], _ => .error
  | x :: y :: k0 :: k1 :: rest, b =>
    match csaPieceType [k0, k1] with
    | none => .ub
    | some pt =>
      if y = '0' ∧ x = '0' then .error
      else if ¬ ('1' ≤ y ∧ y ≤ '9' ∧ '1' ≤ x ∧ x ≤ '9') then .error
      else match b.cells (y.toNat - 49) (57 - x.toNat) with
        | none => .ub
        | some pc =>
          if pc = 0 ∨ pieceType pc ≠ pt then .error
          else removePieces rest (b.put (y.toNat - 49) (57 - x.toNat) 0)
  | _, _ => .ub

/-- One line of the position block (src/parser.h:292-382). -/
def positionLine (line : List Char) (b : Block) : Out Block :=
  match line with
  | 'P' :: '+' :: cs => placePieces '+' cs b
  | 'P' :: '-' :: cs => placePieces '-' cs b
  | 'P' :: 'I' :: cs => removePieces cs b.initial
  | 'P' :: d :: _ => if '1' ≤ d ∧ d ≤ '9' then rankCells line (d.toNat - 49) 9 b else .error
  | ['+'] => .ok { b with turn := some .black }
  | ['-'] => .ok { b with turn := some .white }
  | _ => .error

/-- All lines of the position block. -/
def positionLines : List (List Char) → Block → Out Block
  | [], b => .ok b
  | l :: ls, b => (positionLine l b).bind (positionLines ls)

/-- The inner loop of `to_sfen` (src/parser.h:393-409), over the cells of a rank with `empty` pending. -/
def sfenCells : List (Option Piece) → Nat → Out (List Char)
  | [], n => .ok (if n > 0 then natChars n else [])
  | none :: _, _ => .ub
  | some pc :: l, n =>
    if pc = 0 then sfenCells l (n + 1)
    else (sfenCells l 0).bind fun t => .ok ((if n > 0 then natChars n else []) ++ (usiChars pc ++ t))

/-- The board loop of `to_sfen` (src/parser.h:392-414); `n` ranks to go. -/
def sfenRanks (b : Block) : Nat → Out (List Char)
  | 0 => .ok []
  | n + 1 =>
    (sfenCells ((List.range 9).map (b.cells (8 - n))) 0).bind fun t =>
      (sfenRanks b n).bind fun u => .ok (t ++ ((if 8 - n ≠ 8 then ['/'] else []) ++ u))

/-- The pieces of the hand loop of `to_sfen` in order (src/parser.h:428-430). -/
def handPieces : List Piece := [1, 2, 3, 4, 5, 6, 7, 8, 9, 10, 11, 12, 13, 14, 17, 18, 19, 20, 21, 22, 23, 24, 25, 26, 27, 28, 29, 30]

/-- The hand part of `to_sfen` (src/parser.h:426-441). -/
def sfenHands (hand : Piece → Nat) : List Char :=
  if handPieces.all fun pc => hand pc = 0 then ['-']
  else handPieces.flatMap fun pc =>
    if hand pc ≥ 1 then (if hand pc > 1 then natChars (hand pc) else []) ++ usiChars pc else []

/-- `to_sfen` (src/parser.h:387-450) with `move_count` 1. -/
def blockSfen (b : Block) : Out (List Char) :=
  (sfenRanks b 9).bind fun t => match b.turn with
    | none => .ub
    | some c => .ok (t ++ (' ' :: (if c = .white then 'w' else 'b') :: ' ' :: (sfenHands b.hand ++ [' ', '1'])))

/-- `parse_position` (src/parser.h:282-385). -/
def parsePosition (ls : List (List Char)) : Out (List Char) := (positionLines ls Block.empty).bind blockSfen

/-- What `std::stoi` does. -/
inductive Stoi where
  | val (n : Int)
  | invalid
  | range

/-- `std::stoi`: blanks, an optional sign, at least one digit, anything. -/
def stoi (cs : List Char) : Stoi :=
  let x := Position.readSign (cs.dropWhile Position.isSpace)
  if x.2.takeWhile Char.isDigit = [] then .invalid
  else
    let n : Int := if x.1 then -(Position.readNat x.2 : Int) else Position.readNat x.2
    if -2147483648 ≤ n ∧ n ≤ 2147483647 then .val n else .range

/-- `vector::resize`. -/
def resize {α : Type} (l : List α) (n : Nat) (d : α) : List α := l.take n ++ List.replicate (n - l.length) d

/-- `line.find_first_of(c, i)`. -/
def findFrom (s : List Char) (c : Char) (i : Nat) : Option Nat := ((s.drop i).findIdx? (· = c)).map (· + i)

/-- The members of `__Parser` and the local variables of `parse_csa` (src/parser.h:88-100, 118-139); `pos` is `none` until the
position is set, `lose` is `none` for `ColorNum`. -/
structure State where
  version : List Char := []
  infos : List (List Char) := []
  sfen : List Char := []
  endgame : List Char := []
  names : Color → List Char := fun _ => []
  ratings : Color → Rat := fun _ => 0
  moves : List Move := []
  times : List Int := []
  scores : List Int := []
  comments : List (List Char) := []
  comment : List Char := []
  pos : Option Position := none
  lines : List (List Char) := []
  turnSeen : Bool := false
  lose : Option Color := none

/-- The floodgate summary (src/parser.h:175-191). -/
def summary (s : State) (line : List Char) : Out State :=
  if line.take 9 = "'summary:".toList then
    match findFrom line ':' 9 with
    | none => .ok s
    | some i =>
      let reason := (line.drop 9).take (i - 9)
      if reason = "illegal move".toList then match s.pos with
        | none => .ub
        | some p => .ok { s with endgame := "%ILLEGAL_MOVE".toList, lose := some p.turn }
      else if reason = "max_moves".toList then .ok { s with endgame := "%JISHOGI".toList }
      else if reason = "abnormal".toList then .ok { s with endgame := "%ERROR".toList }
      else .ok s
  else .ok s

/-- A rating comment (src/parser.h:146-157). -/
def rating (stof : List Char → Option Rat) (s : State) (c : Color) (line : List Char) : Out State :=
  match findFrom line ':' 12 with
  | none => .ok s
  | some i => match stof (line.drop (i + 1)) with
    | none => .error
    | some r => .ok { s with ratings := fun c' => if c' = c then r else s.ratings c' }

/-- A score comment (src/parser.h:159-169). With no move read yet, `scores[moves.size() - 1]` is out of range. -/
def score (s : State) (line : List Char) : Out State :=
  let stop := (findFrom line ' ' 4).getD line.length
  match stoi ((line.drop 4).take (stop - 4)) with
  | .range => .error
  | .invalid =>
    if s.moves.length - 1 < s.comments.length ∧ s.moves ≠ [] then
      .ok { s with comments := s.comments.set (s.moves.length - 1) (line.drop 4) }
    else .ub
  | .val n =>
    if s.moves.length - 1 < s.comments.length ∧ s.moves.length - 1 < s.scores.length ∧ s.moves ≠ [] then
      .ok { s with
        scores := s.scores.set (s.moves.length - 1) n
        comments := s.comments.set (s.moves.length - 1) (line.drop 4) }
    else .ub

/-- A comment line (src/parser.h:143-193). -/
def commentLine (stof : List Char → Option Rat) (s : State) (line : List Char) : Out State :=
  if line.take 12 = "'black_rate:".toList then rating stof s .black line
  else if line.take 12 = "'white_rate:".toList then rating stof s .white line
  else if line.take 4 = "'** ".toList then score s line
  else summary { s with comment := s.comment ++ (line ++ ['\n']) } line

/-- A move line (src/parser.h:213-230). -/
def moveLine (Z : Zobrist) (s : State) (line : List Char) : Out State :=
  match s.pos with
  | none => .error
  | some p => match p.csaToMove ((line.drop 1).take 6) with
    | none => .ub
    | some m => match p.doMove Z m with
      | none => .ub
      | some q =>
        let moves := s.moves ++ [m]
        let comments := resize s.comments moves.length []
        (substr line 7 2).bind fun k =>
          .ok { s with
            moves := moves, pos := some q
            times := resize s.times moves.length 0
            scores := resize s.scores moves.length 0
            comments := if k = [',', '\''] then comments.set (moves.length - 1) (line.drop 9) else comments }

/-- A time line (src/parser.h:233-241). -/
def timeLine (s : State) (line : List Char) : Out State :=
  if s.endgame = [] then
    if s.times = [] then .ok s
    else match stoi (line.drop 1) with
      | .val n => .ok { s with times := s.times.dropLast ++ [n] }
      | _ => .error
  else match stoi (line.drop 1) with
    | .val n => .ok { s with times := s.times ++ [n] }
    | _ => .error

/-- A line that ends the game (src/parser.h:242-262). -/
def endLine (s : State) (line : List Char) : Out State :=
  match s.pos with
  | none => .error
  | some p =>
    let line := line.takeWhile (· ≠ ',')
    let lose :=
      if line = "%TORYO".toList ∨ line = "%TIME_UP".toList ∨ line = "%ILLEGAL_MOVE".toList then some p.turn
      else if line = "%+ILLEGAL_ACTION".toList then some .black
      else if line = "%-ILLEGAL_ACTION".toList then some .white
      else if line = "%KACHI".toList then some p.turn.opp
      else s.lose
    .ok { s with endgame := line, lose := lose }

/-- The dispatch on the first character (src/parser.h:141-271). -/
def dispatch (Z : Zobrist) (stof : List Char → Option Rat) (s : State) (line : List Char) : Out State :=
  match line with
  | [] => .ok s
  | c :: cs =>
    if c = '\x00' then .ok s
    else if c = '\'' then commentLine stof s line
    else if c = 'V' then .ok { s with version := line }
    else if c = 'N' then match cs with
      | '+' :: n => .ok { s with names := fun c' => if c' = .black then n else s.names c' }
      | '-' :: n => .ok { s with names := fun c' => if c' = .white then n else s.names c' }
      | _ => .ok s
    else if c = '$' then .ok { s with infos := s.infos ++ [line] }
    else if c = 'P' then .ok { s with lines := s.lines ++ [line] }
    else if c = '+' ∨ c = '-' then
      if cs = [] then .ok { s with turnSeen := true, lines := s.lines ++ [line] } else moveLine Z s line
    else if c = 'T' then timeLine s line
    else if c = '%' then endLine s line
    else .error

/-- One turn of the main loop (src/parser.h:140-276). -/
def step (Z : Zobrist) (stof : List Char → Option Rat) (s : State) (line : List Char) : Out State :=
  (dispatch Z stof s line).bind fun s =>
    if s.pos.isNone ∧ s.turnSeen = true then
      (parsePosition s.lines).bind fun sfen =>
        (Position.setSfen Z sfen).bind fun p => .ok { s with sfen := sfen, pos := some p }
    else .ok s

/-- The main loop over the remaining lines. -/
def run (Z : Zobrist) (stof : List Char → Option Rat) : List (List Char) → State → Out State
  | [], s => .ok s
  | l :: ls, s => (step Z stof s l).bind (run Z stof ls)

/-- The lines `std::getline` gives until `eof`: the text split at each newline. -/
def lines : List Char → List (List Char)
  | [] => [[]]
  | c :: cs =>
    if c = '\n' then [] :: lines cs
    else match lines cs with
      | [] => [[c]]
      | l :: ls => (c :: l) :: ls

/-- `win` (src/parser.h:278-283). -/
inductive Win where
  | draw | black | white
deriving DecidableEq

/-- The result of the game (src/parser.h:274-280): the side that did not lose. -/
def State.win (s : State) : Win :=
  match s.lose with
  | some .black => .white
  | some .white => .black
  | none => .draw

/-- `parse_csa` on a string, Python `Parser.parse_csa_str` (src/parser.h:112-283). -/
def parse (Z : Zobrist) (stof : List Char → Option Rat) (text : List Char) : Out State := run Z stof (lines text) {}

/-- The dump of the starting position that the exporter replaces by "PI" (cshogi/CSA.py:79). -/
def startDump : List Char :=
  ("P1-KY-KE-GI-KI-OU-KI-GI-KE-KY\nP2 * -HI *  *  *  *  * -KA * \nP3-FU-FU-FU-FU-FU-FU-FU-FU-FU\n" ++
   "P4 *  *  *  *  *  *  *  *  * \nP5 *  *  *  *  *  *  *  *  * \nP6 *  *  *  *  *  *  *  *  * \n" ++
   "P7+FU+FU+FU+FU+FU+FU+FU+FU+FU\nP8 * +KA *  *  *  *  * +HI * \nP9+KY+KE+GI+KI+OU+KI+GI+KE+KY\n+\n").toList

/-- `Exporter.info(board)` (cshogi/CSA.py:70-84) for a board object on a new file, without names, comments and version. -/
def exportInfo (p : Position) : List Char := if toCsaPos p = startDump then "PI\n+\n".toList else toCsaPos p

/-- `'T' + str(time)` and the newline (cshogi/CSA.py:100-106, 117-119), if a time is given. -/
def timeText : Option Nat → List Char
  | none => []
  | some t => 'T' :: (natChars t ++ ['\n'])

/-- `Exporter.move` (cshogi/CSA.py:90-107) without a comment and with the default separator; `none` if the move has no text. -/
def exportMove (c : Color) (m : Move) (t : Option Nat) : Option (List Char) :=
  m.toCSA.map fun k => signChar c :: (k ++ ('\n' :: timeText t))

/-- The moves one after the other; the exporter changes its own side to move each time. -/
def exportMoves : Color → List (Move × Option Nat) → Option (List Char)
  | _, [] => some []
  | c, (m, t) :: l => (exportMove c m t).bind fun x => (exportMoves c.opp l).map fun y => x ++ y

/-- `Exporter.endgame` (cshogi/CSA.py:109-120). -/
def exportEnd (e : List Char) (t : Option Nat) : List Char := e ++ ('\n' :: timeText t)

/-- A whole record. -/
def exportGame (p : Position) (ms : List (Move × Option Nat)) (e : List Char) (t : Option Nat) : Option (List Char) :=
  (exportMoves p.turn ms).map fun x => exportInfo p ++ (x ++ exportEnd e t)

end Csa
end Verif
