import Verif.Model.Attack
import Verif.Model.Hand
import Verif.Model.Move

/-!
# Positions, making and unmaking moves (position.hpp, position.cpp)

Arrays are functions, `kingSquare_[c] == SquareNum` ("no king") is `none`, the chain of `previous` pointers is the list
`prev` (nearest first). Zobrist tables are a parameter, so every theorem holds whatever the random generator produced.
Array accesses that the code would make out of range are described by `doMoveDefined` / `undoMoveDefined`.
`int` counters (`gamePly_`, `pliesFromNull`, `continuousCheck`) are integers; their overflow is not modelled.
-/

namespace Verif

open Bitboard

/-- The tables `zobrist_`, `zobHand_` (src/position.hpp:548-550) after `initZobrist` (src/position.cpp:2813-2827): any
values whose lowest bit is clear (`& ~UINT64_C(1)`). -/
structure Zobrist where
  board : PieceType → Square → Color → BitVec 64
  hand : HandPiece → Color → BitVec 64
  board_even : ∀ pt s c, (board pt s c).getLsbD 0 = false
  hand_even : ∀ hp c, (hand hp c).getLsbD 0 = false

/-- `zobTurn_` (src/position.hpp:549). -/
def zobTurn : BitVec 64 := 1#64

/-- `struct StateInfo` (src/position.hpp:53-70) without the `previous` pointer. -/
structure StateInfo where
  pliesFromNull : Int
  continuousCheck : Color → Int
  boardKey : BitVec 64
  handKey : BitVec 64
  checkersBB : Bitboard
  hand : Hand

/-- `StateInfo::key` (src/position.hpp:69). -/
def StateInfo.key (s : StateInfo) : BitVec 64 := s.boardKey + s.handKey

/-- `class Position` (src/position.hpp:529-546). -/
structure Position where
  byType : PieceType → Bitboard
  byColor : Color → Bitboard
  golds : Bitboard
  piece : Square → Piece
  kingSquare : Color → Option Square
  hand : Color → Hand
  turn : Color
  st : StateInfo
  prev : List StateInfo
  gamePly : Int

/-- Write one entry of an array indexed by numbers, squares or colours (C++ subscript assignment). -/
def upd {α β : Type} [DecidableEq α] (f : α → β) (a : α) (v : β) : α → β := fun x => if x = a then v else f x

namespace Position

/-- `bbOf(pt, c)` (src/position.hpp:267). -/
def bbOf (p : Position) (pt : PieceType) (c : Color) : Bitboard := p.byType pt &&& p.byColor c
/-- `bbOf(pt1, pt2)` (src/position.hpp:268). -/
def bbOf2 (p : Position) (a b : PieceType) : Bitboard := p.byType a ||| p.byType b
/-- `bbOf(pt1, pt2, c)` (src/position.hpp:269). -/
def bbOf2c (p : Position) (a b : PieceType) (c : Color) : Bitboard := p.bbOf2 a b &&& p.byColor c
/-- `bbOf(pt1, pt2, pt3)` (src/position.hpp:270). -/
def bbOf3 (p : Position) (a b d : PieceType) : Bitboard := p.bbOf2 a b ||| p.byType d
/-- `bbOf(pt1, pt2, pt3, pt4)` (src/position.hpp:274-276). -/
def bbOf4 (p : Position) (a b d e : PieceType) : Bitboard := p.bbOf3 a b d ||| p.byType e
/-- `bbOf(pt1, .., pt5)` (src/position.hpp:277-281). -/
def bbOf5 (p : Position) (a b d e f : PieceType) : Bitboard := p.bbOf4 a b d e ||| p.byType f
/-- `occupiedBB` (src/position.hpp:282). -/
def occupied (p : Position) : Bitboard := p.byType PT.Occupied
/-- `emptyBB` (src/position.hpp:288). -/
def emptyBB (p : Position) : Bitboard := p.occupied ^^^ allOne
/-- `goldsBB(c)` (src/position.hpp:291). -/
def goldsC (p : Position) (c : Color) : Bitboard := p.golds &&& p.byColor c
/-- `inCheck`, Python `is_check` (src/position.hpp:326). -/
def inCheck (p : Position) : Bool := p.st.checkersBB.isAny

/-- `attacksFrom(pt, c, sq, occupied)` (src/position.cpp:239-259). Types above 14 are `UNREACHABLE` in the code. -/
def attacksFrom (pt : PieceType) (c : Color) (s : Square) (occ : Bitboard) : Bitboard :=
  match pt with
  | 0 => zero
  | 1 => pawnAttack c s
  | 2 => lanceAttack c s occ
  | 3 => knightAttack c s
  | 4 => silverAttack c s
  | 5 => bishopAttack s occ
  | 6 => rookAttack s occ
  | 7 => goldAttack c s
  | 9 => goldAttack c s
  | 10 => goldAttack c s
  | 11 => goldAttack c s
  | 12 => goldAttack c s
  | 8 => kingAttack s
  | 13 => horseAttack s occ
  | 14 => dragonAttack s occ
  | _ => allOne

/-- `attackersTo(sq, occupied)`: attackers of both colours (src/position.cpp:3836-3853). -/
def attackersToBoth (p : Position) (s : Square) (occ : Bitboard) : Bitboard :=
  (((pawnAttack .black s &&& p.byType PT.Pawn)
    ||| (lanceAttack .black s occ &&& p.byType PT.Lance)
    ||| (knightAttack .black s &&& p.byType PT.Knight)
    ||| (silverAttack .black s &&& p.byType PT.Silver)
    ||| (goldAttack .black s &&& p.golds))
   &&& p.byColor .white)
  ||| (((pawnAttack .white s &&& p.byType PT.Pawn)
    ||| (lanceAttack .white s occ &&& p.byType PT.Lance)
    ||| (knightAttack .white s &&& p.byType PT.Knight)
    ||| (silverAttack .white s &&& p.byType PT.Silver)
    ||| (goldAttack .white s &&& p.golds))
   &&& p.byColor .black)
  ||| (bishopAttack s occ &&& p.bbOf2 PT.Bishop PT.Horse)
  ||| (rookAttack s occ &&& p.bbOf2 PT.Rook PT.Dragon)
  ||| (kingAttack s &&& p.bbOf3 PT.King PT.Horse PT.Dragon)

/-- `attackersTo(c, sq, occupied)` (src/position.cpp:3856-3866). -/
def attackersTo (p : Position) (c : Color) (s : Square) (occ : Bitboard) : Bitboard :=
  ((pawnAttack c.opp s &&& p.byType PT.Pawn)
    ||| (lanceAttack c.opp s occ &&& p.byType PT.Lance)
    ||| (knightAttack c.opp s &&& p.byType PT.Knight)
    ||| (silverAttack c.opp s &&& p.bbOf3 PT.Silver PT.King PT.Dragon)
    ||| (goldAttack c.opp s &&& (p.bbOf2 PT.King PT.Horse ||| p.golds))
    ||| (bishopAttack s occ &&& p.bbOf2 PT.Bishop PT.Horse)
    ||| (rookAttack s occ &&& p.bbOf2 PT.Rook PT.Dragon))
  &&& p.byColor c

/-- `attackersToExceptKing(c, sq)` (src/position.cpp:3869-3879). -/
def attackersToExceptKing (p : Position) (c : Color) (s : Square) : Bitboard :=
  ((pawnAttack c.opp s &&& p.byType PT.Pawn)
    ||| (lanceAttack c.opp s p.occupied &&& p.byType PT.Lance)
    ||| (knightAttack c.opp s &&& p.byType PT.Knight)
    ||| (silverAttack c.opp s &&& p.bbOf2 PT.Silver PT.Dragon)
    ||| (goldAttack c.opp s &&& (p.golds ||| p.byType PT.Horse))
    ||| (bishopAttack s p.occupied &&& p.bbOf2 PT.Bishop PT.Horse)
    ||| (rookAttack s p.occupied &&& p.bbOf2 PT.Rook PT.Dragon))
  &&& p.byColor c

/-- `attackersToIsAny(c, sq, occupied)` (src/position.hpp:349-351). -/
def attackersToIsAny (p : Position) (c : Color) (s : Square) (occ : Bitboard) : Bool := (p.attackersTo c s occ).isAny

/-- `between.isOneBit<false>()` (src/bitboard.hpp:207-210 with `Crossover = false`, the build with POPCNT): counts the
bits of the two words OR-ed together. -/
def isOneBitMerged (b : Bitboard) : Bool := count1s (b.p0 ||| b.p1) == 1

/-- `hiddenCheckers<FindPinned, BetweenIsUs>` (src/position.hpp:486-518). -/
def hiddenCheckers (p : Position) (findPinned betweenIsUs : Bool) : Bitboard :=
  let us := p.turn
  let them := us.opp
  match p.kingSquare (if findPinned then us else them) with
  | none => zero
  | some ksq =>
    let pinners := p.byColor (if findPinned then them else us) &&&
      ((p.byType PT.Lance &&& lanceAttackToEdge (if findPinned then us else them) ksq) |||
       (p.bbOf2 PT.Rook PT.Dragon &&& rookAttackToEdge ksq) |||
       (p.bbOf2 PT.Bishop PT.Horse &&& bishopAttackToEdge ksq))
    pinners.toList.foldl (fun result sq =>
      let between := betweenBB sq ksq &&& p.occupied
      if between.isAny && isOneBitMerged between && between.andIsAny (p.byColor (if betweenIsUs then us else them))
      then result ||| between else result) zero

/-- `pinnedBB` (src/position.hpp:297). -/
def pinnedBB (p : Position) : Bitboard := p.hiddenCheckers true true
/-- `discoveredCheckBB<BetweenIsUs>` (src/position.hpp:302). -/
def discoveredCheckBB (p : Position) (betweenIsUs : Bool) : Bitboard := p.hiddenCheckers false betweenIsUs

/-- `isDiscoveredCheck<false>` (src/position.hpp:317-320); also `isPinnedIllegal<false>` (src/position.hpp:311-314),
which has the same body. When there is no king both callers pass an empty board, so the alignment is not looked up. -/
def leavesLine (src dst : Square) (ksq : Option Square) (bb : Bitboard) : Bool :=
  bb.isSet src && (match ksq with | none => false | some k => !isAlignedT src dst k)

/-- `CheckInfo::checkBB` (src/position.cpp:207-237). The entry `Occupied` is not written by the code when there is a
king; it is never read for a real piece type. -/
def checkBB (p : Position) (pt : PieceType) : Bitboard :=
  let them := p.turn.opp
  match p.kingSquare them with
  | none => zero
  | some ksq =>
    match pt with
    | 1 => pawnAttack them ksq
    | 2 => lanceAttack them ksq p.occupied
    | 3 => knightAttack them ksq
    | 4 => silverAttack them ksq
    | 5 => bishopAttack ksq p.occupied
    | 6 => rookAttack ksq p.occupied
    | 7 => goldAttack them ksq
    | 8 => zero
    | 9 => goldAttack them ksq
    | 10 => goldAttack them ksq
    | 11 => goldAttack them ksq
    | 12 => goldAttack them ksq
    | 13 => bishopAttack ksq p.occupied ||| kingAttack ksq
    | 14 => rookAttack ksq p.occupied ||| kingAttack ksq
    | _ => zero

/-- `moveGivesCheck(move, ci)` (src/position.cpp:3798-3824); `moveGivesCheck(move)` calls it with a fresh
`CheckInfo`. -/
def moveGivesCheck (p : Position) (m : Move) : Bool :=
  let to := sqN m.dst
  if m.isDrop then
    (p.checkBB m.pieceTypeDropped).isSet to
  else
    let src := sqN m.src
    (p.checkBB (m.pieceTypeToOf m.pieceTypeFrom)).isSet to ||
      leavesLine src to (p.kingSquare p.turn.opp) (p.discoveredCheckBB true)

/-- `computeBoardKey` (src/position.cpp:3210-3219). -/
def computeBoardKey (Z : Zobrist) (p : Position) : BitVec 64 :=
  let sum := (List.finRange 81).foldl (fun r s =>
    if p.piece s ≠ 0 then r + Z.board (pieceType (p.piece s)) s (pieceColor (p.piece s)) else r) 0#64
  if p.turn = .white then sum ^^^ zobTurn else sum

/-- `computeHandKey` (src/position.cpp:3221-3231). -/
def computeHandKey (Z : Zobrist) (p : Position) : BitVec 64 :=
  (List.range 7).foldl (fun r hp =>
    [Color.black, Color.white].foldl (fun r c =>
      (List.range ((p.hand c).numOf hp)).foldl (fun r _ => r + Z.hand hp c) r) r) 0#64

/-- `findCheckers` (src/position.hpp:476-479): the value stored in `checkersBB`. -/
def findCheckers (p : Position) : Bitboard :=
  match p.kingSquare p.turn with
  | none => zero
  | some ksq => p.attackersToExceptKing p.turn.opp ksq

/-- The five gold-like types (src/position.cpp:584, 645, 3361). -/
def computeGolds (p : Position) : Bitboard := p.bbOf5 PT.Gold PT.ProPawn PT.ProLance PT.ProKnight PT.ProSilver

/-- Every array access of `doMove` (and of the `CheckInfo` and `moveGivesCheck` it uses) is in range: squares below 81,
piece types 1..14, and hand tables (7 entries) only indexed with real hand pieces. -/
def doMoveDefined (m : Move) : Bool :=
  decide (m.dst < 81) &&
  (if m.isDrop then decide (ptToHand m.pieceTypeDropped < 7)
   else decide (1 ≤ m.pieceTypeFrom) && decide (m.pieceTypeToOf m.pieceTypeFrom ≤ 14) &&
     (decide (m.cap = 0) || decide (ptToHand m.cap < 7)))

/-- The drop branch of `doMove` (src/position.cpp:500-524), with the common prologue and epilogue. -/
def doDrop (Z : Zobrist) (p : Position) (m : Move) (isCheck : Bool) : Position :=
  let us := p.turn
  let to := sqN m.dst
  let ptTo := m.pieceTypeDropped
  let hpTo := ptToHand ptTo
  -- xorBBs (src/position.cpp:835-839)
  let byType := upd p.byType PT.Occupied ((p.byType PT.Occupied).xorBit to)
  let byType := upd byType ptTo ((byType ptTo).xorBit to)
  let q := { p with
    byType := byType
    byColor := upd p.byColor us ((p.byColor us).xorBit to)
    piece := upd p.piece to (mkPiece us ptTo)
    hand := upd p.hand us ((p.hand us).minusOne hpTo)
    gamePly := p.gamePly + 1
    prev := p.st :: p.prev
    turn := us.opp }
  { q with
    golds := q.computeGolds
    st := {
      pliesFromNull := p.st.pliesFromNull + 1
      continuousCheck := upd p.st.continuousCheck us (if isCheck then p.st.continuousCheck us + 2 else 0)
      boardKey := (p.st.boardKey ^^^ zobTurn) + Z.board ptTo to us
      handKey := p.st.handKey - Z.hand hpTo us
      checkersBB := if isCheck then setMask to else zero
      hand := q.hand us.opp } }

/-- The checkers computed by the board-move branch of `doMove` when the move gives check (src/position.cpp:558-578):
`p` is the position before the move (for `CheckInfo`), `q` has the pieces already moved. -/
def checkersAfter (p q : Position) (src to : Square) (ptTo : PieceType) : Bitboard :=
  let us := p.turn
  let direct := p.checkBB ptTo &&& setMask to
  match q.kingSquare us.opp with
  | none => direct
  | some ksq =>
    if leavesLine src to (some ksq) (p.discoveredCheckBB true) then
      match squareRelation src ksq with
      | 2 => direct ||| (rookAttackFile src q.occupied &&& q.byColor us)
      | 3 => direct ||| (rookAttackRank ksq q.occupied &&& q.bbOf2c PT.Rook PT.Dragon us)
      | 4 => direct ||| (bishopAttack ksq q.occupied &&& q.bbOf2c PT.Bishop PT.Horse us)
      | 5 => direct ||| (bishopAttack ksq q.occupied &&& q.bbOf2c PT.Bishop PT.Horse us)
      | _ => direct
    else direct

/-- The board-move branch of `doMove` (src/position.cpp:525-583), with the common prologue and epilogue. -/
def doBoard (Z : Zobrist) (p : Position) (m : Move) (isCheck : Bool) : Position :=
  let us := p.turn
  let them := us.opp
  let to := sqN m.dst
  let src := sqN m.src
  let ptFrom := m.pieceTypeFrom
  let ptTo := m.pieceTypeToOf ptFrom
  let cap := m.cap
  let byType := upd p.byType ptFrom ((p.byType ptFrom).xorBit src)
  let byType := upd byType ptTo ((byType ptTo).xorBit to)
  let byColor := upd p.byColor us ((p.byColor us).xorBit2 src to)
  let piece := upd p.piece src 0
  let piece := upd piece to (mkPiece us ptTo)
  let boardKey := (p.st.boardKey ^^^ zobTurn) - Z.board ptFrom src us + Z.board ptTo to us
  let boardKey := if cap ≠ 0 then boardKey - Z.board cap to them else boardKey
  let handKey := if cap ≠ 0 then p.st.handKey + Z.hand (ptToHand cap) us else p.st.handKey
  let byType := if cap ≠ 0 then upd byType cap ((byType cap).xorBit to) else byType
  let byColor := if cap ≠ 0 then upd byColor them ((byColor them).xorBit to) else byColor
  let hand := if cap ≠ 0 then upd p.hand us ((p.hand us).plusOne (ptToHand cap)) else p.hand
  let byType := upd byType PT.Occupied (byColor .black ||| byColor .white)
  let q := { p with
    byType := byType
    byColor := byColor
    piece := piece
    hand := hand
    kingSquare := if ptTo = PT.King then upd p.kingSquare us (some to) else p.kingSquare
    gamePly := p.gamePly + 1
    prev := p.st :: p.prev
    turn := them }
  { q with
    golds := q.computeGolds
    st := {
      pliesFromNull := p.st.pliesFromNull + 1
      continuousCheck := upd p.st.continuousCheck us (if isCheck then p.st.continuousCheck us + 2 else 0)
      boardKey := boardKey
      handKey := handKey
      checkersBB := if isCheck then checkersAfter p q src to ptTo else zero
      hand := q.hand them } }

/-- `doMove(move, newSt)`, Python `push` (src/position.cpp:476-594, src/cshogi.h:159-162): `none` when an array would
be accessed out of range. -/
def doMove (Z : Zobrist) (p : Position) (m : Move) : Option Position :=
  if doMoveDefined m then
    some (if m.isDrop then doDrop Z p m (p.moveGivesCheck m) else doBoard Z p m (p.moveGivesCheck m))
  else none

/-- `undoMove(move)`, Python `pop` (src/position.cpp:596-654, src/cshogi.h:164-176). `none` when an array would be
accessed out of range or when there is no previous state. -/
def undoMove (p : Position) (m : Move) : Option Position :=
  match p.prev with
  | [] => none
  | st :: prev =>
    if doMoveDefined m then
      let them := p.turn
      let us := them.opp
      let to := sqN m.dst
      let q :=
        if m.isDrop then
          let ptTo := m.pieceTypeDropped
          { p with
            byType := upd p.byType ptTo ((p.byType ptTo).xorBit to)
            byColor := upd p.byColor us ((p.byColor us).xorBit to)
            piece := upd p.piece to 0
            hand := upd p.hand us ((p.hand us).plusOne (ptToHand ptTo)) }
        else
          let src := sqN m.src
          let ptFrom := m.pieceTypeFrom
          let ptTo := m.pieceTypeToOf ptFrom
          let cap := m.cap
          let byType := if cap ≠ 0 then upd p.byType cap ((p.byType cap).xorBit to) else p.byType
          let byColor := if cap ≠ 0 then upd p.byColor them ((p.byColor them).xorBit to) else p.byColor
          let piece := upd p.piece to (if cap ≠ 0 then mkPiece them cap else 0)
          let byType := upd byType ptFrom ((byType ptFrom).xorBit src)
          let byType := upd byType ptTo ((byType ptTo).xorBit to)
          { p with
            byType := byType
            byColor := upd byColor us ((byColor us).xorBit2 src to)
            piece := upd piece src (mkPiece us ptFrom)
            kingSquare := if ptTo = PT.King then upd p.kingSquare us (some src) else p.kingSquare
            hand := if cap ≠ 0 then upd p.hand us ((p.hand us).minusOne (ptToHand cap)) else p.hand }
      let q := { q with byType := upd q.byType PT.Occupied (q.byColor .black ||| q.byColor .white) }
      some { q with
        golds := q.computeGolds
        turn := us
        st := st
        prev := prev
        gamePly := p.gamePly - 1 }
    else none

/-- The three values `doNullMove` saves in and restores from the backup state (src/position.cpp:656-676); its `hand`
is also written but only ever overwritten again, and `continuousCheck` is not saved. -/
structure NullBackup where
  boardKey : BitVec 64
  handKey : BitVec 64
  pliesFromNull : Int
  hand : Hand

/-- `doNullMove<true>`, Python `push_pass` (src/position.cpp:656-676, src/cshogi.h:178-181). -/
def doNull (p : Position) : Position × NullBackup :=
  let t := p.turn.opp
  ({ p with
    turn := t
    st := { p.st with
      boardKey := p.st.boardKey ^^^ zobTurn
      pliesFromNull := 0
      continuousCheck := upd p.st.continuousCheck t 0
      hand := p.hand t } },
   { boardKey := p.st.boardKey, handKey := p.st.handKey, pliesFromNull := p.st.pliesFromNull, hand := p.hand p.turn })

/-- `doNullMove<false>`, Python `pop_pass` (src/position.cpp:656-676, src/cshogi.h:182-185). -/
def undoNull (p : Position) (b : NullBackup) : Position :=
  let t := p.turn.opp
  { p with
    turn := t
    st := { p.st with
      boardKey := b.boardKey
      handKey := b.handKey
      pliesFromNull := b.pliesFromNull
      hand := p.hand t } }

/-- `getKey`, Python `zobrist_hash` (src/position.hpp:430). -/
def getKey (p : Position) : BitVec 64 := p.st.key

/-- `getBoardKeyAfter` (src/position.cpp:2887-2934). -/
def getBoardKeyAfter (Z : Zobrist) (p : Position) (m : Move) : BitVec 64 :=
  let us := p.turn
  let k := p.st.boardKey ^^^ zobTurn
  let to := sqN m.dst
  if m.isDrop then k + Z.board m.pieceTypeDropped to us
  else
    let src := sqN m.src
    let moved := p.piece src
    let after := if m.isPromotion then moved + 8 else moved
    let toPc := p.piece to
    let k := if toPc ≠ 0 then k - Z.board (pieceType toPc) to (pieceColor toPc) else k
    k - Z.board (pieceType moved) src us + Z.board (pieceType after) to us

/-- `getKeyAfter` (src/position.cpp:2830-2884). -/
def getKeyAfter (Z : Zobrist) (p : Position) (m : Move) : BitVec 64 :=
  let us := p.turn
  let k := p.st.boardKey ^^^ zobTurn
  let h := p.st.handKey
  let to := sqN m.dst
  if m.isDrop then (k + Z.board m.pieceTypeDropped to us) + (h - Z.hand (ptToHand m.pieceTypeDropped) us)
  else
    let src := sqN m.src
    let moved := p.piece src
    let after := if m.isPromotion then moved + 8 else moved
    let toPc := p.piece to
    let k' := if toPc ≠ 0 then k - Z.board (pieceType toPc) to (pieceColor toPc) else k
    let h := if toPc ≠ 0 then h + Z.hand (ptToHand (pieceType toPc)) us else h
    (k' - Z.board (pieceType moved) src us + Z.board (pieceType after) to us) + h

end Position
end Verif
