import Verif.Model.Gen

/-!
# Mate in one move (position.cpp, `mateMoveIn1Ply`)

`mateMoveIn1Ply<US, true>` (src/position.cpp:1289-2799), behind Python `mate_move_in_1ply`, and the helpers it uses. The
template parameter `US` is the side to move (src/position.cpp:2801-2803). The code tries groups of candidate moves one
after the other and returns the first that passes its tests; every group is one function here that returns the first
hit (`none`: go on with the next group). Loops over a bitboard are `List.findSome?` over the squares in visiting order.
The guards `if (toBB)` around loops over `toBB` change nothing and are left out. The square of the opponent's king is
looked up once; when there is no such king the code reads its tables out of range (`mateMoveIn1Ply = none`).
-/

namespace Verif
namespace Position
open Bitboard

/-! ### Tables -/

/-- Union over the squares of a board, the pattern `while (bb) { sq = bb.firstOneFromSQ11(); sum |= f(sq); }`. -/
def unionOver (b : Bitboard) (f : Square → Bitboard) : Bitboard := b.toList.foldl (fun r s => r ||| f s) zero

/-- `TRank123BB`: the promotion zone of `us` as `inFrontMask<US, TRank4>` (src/position.cpp:1453-1454; src/init.cpp:270). -/
def tRank123 (us : Color) : Bitboard := inFrontMask us (match us with | .black => 3 | .white => 5)

/-- `GoldCheckTable` (src/init.cpp:249-260). -/
def goldCheckTable (c : Color) (s : Square) : Bitboard :=
  (unionOver (goldAttack c.opp s) (goldAttack c.opp)).andNot (setMask s ||| goldAttack c.opp s)

/-- `SilverCheckTable` (src/init.cpp:262-289). -/
def silverCheckTable (c : Color) (s : Square) : Bitboard :=
  (unionOver (silverAttack c.opp s) (silverAttack c.opp) |||
   unionOver (goldAttack c.opp s) (fun t => silverAttack c.opp t &&& tRank123 c) |||
   unionOver (goldAttack c.opp s &&& tRank123 c)
     (fun t => silverAttack c.opp t &&& rankMask (match c with | .black => 3 | .white => 5))).andNot
  (setMask s ||| silverAttack c.opp s)

/-- `KnightCheckTable` (src/init.cpp:291-308). -/
def knightCheckTable (c : Color) (s : Square) : Bitboard :=
  unionOver (knightAttack c.opp s) (knightAttack c.opp) |||
  unionOver (goldAttack c.opp s &&& tRank123 c) (knightAttack c.opp)

/-- `LanceCheckTable` (src/init.cpp:310-323). -/
def lanceCheckTable (c : Color) (s : Square) : Bitboard :=
  (lanceAttackToEdge c.opp s ||| unionOver (goldAttack c.opp s &&& tRank123 c) (lanceAttackToEdge c.opp)).andNot
  (setMask s ||| pawnAttack c.opp s)

/-- `Neighbor5x5Table` (src/init.cpp:420-430). -/
def neighbor5x5 (s : Square) : Bitboard := (unionOver (kingAttack s) kingAttack).andNot (setMask s)

/-- `check_around_bb(us, pt, sq)` / `CHECK_AROUND_BB` (src/position.cpp:846-941). The entry for pawns is never read. -/
def checkAround (us : Color) (pt : PieceType) (s : Square) : Bitboard :=
  (match pt with
   | 2 => lanceAttackToEdge us.opp s |||
      (if file s ≠ 0 then lanceAttackToEdge us.opp (sqN (s.val - 9)) ||| setMask (sqN (s.val - 9)) else zero) |||
      (if file s ≠ 8 then lanceAttackToEdge us.opp (sqN (s.val + 9)) ||| setMask (sqN (s.val + 9)) else zero)
   | 3 => unionOver (kingAttack s) (knightAttack us.opp)
   | 4 => unionOver (kingAttack s) (silverAttack us.opp)
   | 7 => unionOver (kingAttack s) (goldAttack us.opp)
   | 5 => unionOver (kingAttack s) bishopAttackToEdge
   | 6 => unionOver (kingAttack s) rookAttackToEdge
   | 8 => unionOver (kingAttack s) kingAttack
   | _ => zero) &&& ~~~setMask s

/-- `sgn` (src/position.cpp:842-844) of a difference of two coordinates. -/
def sgnDiff (a b : Nat) : Int := if a < b then 1 else if b < a then -1 else 0

/-- `NextSquare[s1][s2]` (src/position.cpp:855-856, 944-965): the square behind `s2` seen from `s1`; `none` is
`SquareNum`. -/
def nextSquare (s1 s2 : Square) : Option Square :=
  if (rookAttackToEdge s1 ||| bishopAttackToEdge s1).isSet s2 then
    let f := (file s2 : Int) + sgnDiff (file s1) (file s2)
    let r := (rank s2 : Int) + sgnDiff (rank s1) (rank s2)
    if 0 ≤ f ∧ f < 9 ∧ 0 ≤ r ∧ r < 9 then some (sqOf f.toNat r.toNat) else none
  else none

/-- `Effect8::directions_of(s1, s2)` (src/square.hpp:322-333; filled in src/init.cpp:438-448): where `s2` lies seen from
`s1`: RU 1, R 2, RD 4, U 8, D 16, LU 32, L 64, LD 128. The walk over a board with walls that fills the table is replaced
by its result. -/
def directionsOf (s1 s2 : Square) : Nat :=
  if s1 = s2 then 0
  else if file s1 = file s2 then (if rank s2 < rank s1 then 8 else 16)
  else if rank s1 = rank s2 then (if file s2 < file s1 then 2 else 64)
  else if (rank s1 : Int) - rank s2 = (file s1 : Int) - file s2 then (if file s2 < file s1 then 1 else 128)
  else if (rank s1 : Int) - rank s2 = (file s2 : Int) - file s1 then (if file s2 < file s1 then 4 else 32)
  else 0

/-- `dr & Effect8::DIRECTIONS_DIAG` (src/square.hpp:326). -/
def isDiagDir (dr : Nat) : Bool := (dr &&& 165) != 0

/-- `canPromote(us, from, to)` (src/square.hpp:262-265). -/
def canPromote2 (us : Color) (src to : Square) : Bool := canPromote us src || canPromote us to

/-! ### Helpers on positions -/

/-- `xorBBs(pt, sq, c)` (src/position.cpp:835-839), with `goldsBB_.xorBit(sq)` when `gold` (src/position.cpp:1664-1665):
a piece of the side to move is taken off the bitboards. The piece array is not changed. -/
def lift (p : Position) (pt : PieceType) (sq : Square) (gold : Bool) : Position :=
  let byType := upd p.byType PT.Occupied ((p.byType PT.Occupied).xorBit sq)
  { p with
    byType := upd byType pt ((byType pt).xorBit sq)
    byColor := upd p.byColor p.turn ((p.byColor p.turn).xorBit sq)
    golds := if gold then p.golds.xorBit sq else p.golds }

/-- `canKingEscape(pos, us, sq, bb)` (src/position.cpp:741-764). -/
def canKingEscape (p : Position) (us : Color) (ksq sq : Square) (bb : Bitboard) : Bool :=
  let kingMoveBB := (bb.notAnd ((p.byColor us.opp).notAnd (kingAttack ksq))).clearBit sq
  let tempOccupied := (p.occupied.setBit sq).clearBit ksq
  kingMoveBB.toList.any fun to => !p.attackersToIsAny us to tempOccupied

/-- `canPieceCapture(pos, them, sq, dcBB)` (src/position.cpp:766-783). -/
def canPieceCaptureDc (p : Position) (them : Color) (ksq sq : Square) (dcBB : Bitboard) : Bool :=
  (p.attackersToExceptKing them sq).toList.any fun src => !leavesLine src sq (some ksq) dcBB

/-- `isDiscoveredCheck<IsKnight>` and `isPinnedIllegal<IsKnight>` (src/position.hpp:310-320). -/
def leavesLineN (knight : Bool) (src dst : Square) (ksq : Option Square) (bb : Bitboard) : Bool :=
  if knight then bb.isSet src else leavesLine src dst ksq bb

/-- `attacksSlider(us, slide)` (src/position.cpp:975-996). -/
def attacksSlider (p : Position) (us : Color) (slide : Bitboard) : Bitboard :=
  unionOver (p.bbOf PT.Lance us) (fun s => lanceAttack us s slide) |||
  unionOver (p.bbOf2c PT.Bishop PT.Horse us) (fun s => bishopAttack s slide) |||
  unionOver (p.bbOf2c PT.Rook PT.Dragon us) (fun s => rookAttack s slide)

/-- `attacksSlider(us, avoid_from, occ)` (src/position.cpp:1000-1021). -/
def attacksSliderAvoid (p : Position) (us : Color) (avoid : Square) (occ : Bitboard) : Bitboard :=
  unionOver (p.bbOf PT.Lance us &&& ~~~setMask avoid) (fun s => lanceAttack us s occ) |||
  unionOver (p.bbOf2c PT.Bishop PT.Horse us &&& ~~~setMask avoid) (fun s => bishopAttack s occ) |||
  unionOver (p.bbOf2c PT.Rook PT.Dragon us &&& ~~~setMask avoid) (fun s => rookAttack s occ)

/-- `attacksAroundKingNonSlider<~us>()` (src/position.cpp:1024-1057): attacks of `us` around the king on `ksq`. -/
def aroundNonSlider (p : Position) (us : Color) (ksq : Square) : Bitboard :=
  pawnAttackBB us (p.bbOf PT.Pawn us) |||
  unionOver (p.bbOf PT.Knight us &&& checkAround us PT.Knight ksq) (knightAttack us) |||
  unionOver (p.bbOf PT.Silver us &&& checkAround us PT.Silver ksq) (silverAttack us) |||
  unionOver (p.goldsC us &&& checkAround us PT.Gold ksq) (goldAttack us) |||
  unionOver ((p.bbOf3 PT.Horse PT.Dragon PT.King &&& p.byColor us) &&& checkAround us PT.King ksq) kingAttack

/-- `attacksAroundKingSlider<~us>()` (src/position.cpp:1060-1085). -/
def aroundSlider (p : Position) (us : Color) (ksq : Square) : Bitboard :=
  unionOver (p.bbOf PT.Lance us &&& checkAround us PT.Lance ksq) (fun s => lanceAttack us s p.occupied) |||
  unionOver (p.bbOf2c PT.Bishop PT.Horse us &&& checkAround us PT.Bishop ksq) (fun s => bishopAttack s p.occupied) |||
  unionOver (p.bbOf2c PT.Rook PT.Dragon us &&& checkAround us PT.Rook ksq) (fun s => rookAttack s p.occupied)

/-- `attacksAroundKingNonSliderInAvoiding<~us>(from)` (src/position.cpp:1087-1121). -/
def aroundNonSliderAvoid (p : Position) (us : Color) (ksq avoid : Square) : Bitboard :=
  pawnAttackBB us (p.bbOf PT.Pawn us) |||
  unionOver (p.bbOf PT.Knight us &&& checkAround us PT.Knight ksq &&& ~~~setMask avoid) (knightAttack us) |||
  unionOver (p.bbOf PT.Silver us &&& checkAround us PT.Silver ksq &&& ~~~setMask avoid) (silverAttack us) |||
  unionOver (p.goldsC us &&& checkAround us PT.Gold ksq &&& ~~~setMask avoid) (goldAttack us) |||
  unionOver ((p.bbOf3 PT.Horse PT.Dragon PT.King &&& p.byColor us) &&& checkAround us PT.King ksq &&& ~~~setMask avoid)
    kingAttack

/-- `attacksAroundKingInAvoiding<~us>(from, occ)` (src/position.hpp:381-385). -/
def aroundAvoid (p : Position) (us : Color) (ksq avoid : Square) (occ : Bitboard) : Bitboard :=
  p.aroundNonSliderAvoid us ksq avoid ||| p.attacksSliderAvoid us avoid occ

/-- `pinnedPieces(us, from, to)` (src/position.cpp:1123-1147); `popCount<false>` counts the two words OR-ed together
(src/bitboard.hpp:204). -/
def pinnedPieces (p : Position) (us : Color) (ksq src to : Square) : Bitboard :=
  let avoid := ~~~setMask src
  let pinners := ((p.bbOf2 PT.Rook PT.Dragon &&& rookAttackToEdge ksq) |||
    (p.bbOf2 PT.Bishop PT.Horse &&& bishopAttackToEdge ksq) |||
    (p.byType PT.Lance &&& lanceAttackToEdge us ksq)) &&& avoid &&& p.byColor us.opp
  let newPieces := (p.occupied &&& avoid) ||| setMask to
  pinners.toList.foldl (fun result sq =>
    let b := betweenBB ksq sq &&& newPieces
    if count1s (b.p0 ||| b.p1) ≤ 1 then result ||| (b &&& p.byColor us) else result) zero

/-- `can_king_escape_cangoto(pos, us, from, to, bb_avoid, slide)` (src/position.cpp:1203-1231); `us` is the side whose
king is on `ksq`. -/
def canKingEscapeGoto (p : Position) (us : Color) (ksq src to : Square) (bbAvoid slide : Bitboard) : Bool :=
  let slide := (slide ||| setMask to) ^^^ setMask ksq
  let bb := kingAttack ksq &&& ~~~((bbAvoid ||| p.byColor us) &&& ~~~setMask to)
  bb.toList.any fun escape => !(p.attackersTo us.opp escape slide &&& ~~~setMask src).isAny

/-- The loop of the two versions of `can_piece_capture` (src/position.cpp:1233-1283): some piece of `sum` is not
pinned, or moves along the line of its pin. -/
def anyFree (pinned : Bitboard) (to ksq : Square) (sum : Bitboard) : Bool :=
  sum.toList.any fun src => !pinned.isAny || !(pinned &&& setMask src).isAny || isAlignedT src to ksq

/-- `can_piece_capture(pos, us, to, pinned, slide)` (src/position.cpp:1233-1253). -/
def canCapture (p : Position) (us : Color) (ksq to : Square) (pinned slide : Bitboard) : Bool :=
  anyFree pinned to ksq (p.attackersTo us to slide &&& ~~~p.byType PT.King)

/-- `can_piece_capture(pos, us, to, avoid, pinned, slide)` (src/position.cpp:1257-1281). -/
def canCaptureAvoid (p : Position) (us : Color) (ksq to avoid : Square) (pinned slide : Bitboard) : Bool :=
  anyFree pinned to ksq (p.attackersTo us to slide &&& ~~~(p.byType PT.King ||| setMask avoid))

/-- `canPawnDrop<us>(sq)` (src/position.hpp:387-390). -/
def canPawnDrop (p : Position) (us : Color) (sq : Square) : Bool :=
  (p.hand us).has 0 && !(p.bbOf PT.Pawn us &&& fileMask (file sq)).isAny

/-! ### Drops next to the king -/

/-- The test of one drop (src/position.cpp:1317-1326 and the like). `support` is false for knights. -/
def tryDrop (p : Position) (ksq : Square) (pt : PieceType) (support : Bool) (bb : Bitboard) (to : Square) : Option Move :=
  if (!support || p.attackersToIsAny p.turn to p.occupied) &&
     !p.canKingEscape p.turn ksq to bb && !p.canPieceCaptureDc p.turn.opp ksq to (p.discoveredCheckBB false)
  then some (makeDropMove pt to.val) else none

/-- Rook or lance drops (src/position.cpp:1309-1342). -/
def mateRookDrop (p : Position) (ksq : Square) : Option Move :=
  let us := p.turn
  let target := ~~~p.occupied
  if (p.hand us).has 6 then
    (target &&& rookStepAttacks ksq).toList.findSome? fun to => p.tryDrop ksq PT.Rook true (rookAttackToEdge to) to
  else if (p.hand us).has 1 && isInFrontOf us 8 0 (rank ksq) then
    let to := backSq us ksq
    if p.piece to == 0 then p.tryDrop ksq PT.Lance true (lanceAttackToEdge us to) to else none
  else none

/-- Bishop drops (src/position.cpp:1344-1358). -/
def mateBishopDrop (p : Position) (ksq : Square) : Option Move :=
  if (p.hand p.turn).has 5 then
    (~~~p.occupied &&& bishopStepAttacks ksq).toList.findSome? fun to =>
      p.tryDrop ksq PT.Bishop true (bishopAttackToEdge to) to
  else none

/-- Gold drops (src/position.cpp:1360-1379). -/
def mateGoldDrop (p : Position) (ksq : Square) : Option Move :=
  let us := p.turn
  if (p.hand us).has 4 then
    let toBB := ~~~p.occupied &&&
      (if (p.hand us).has 6 then goldAttack us.opp ksq ^^^ pawnAttack us ksq else goldAttack us.opp ksq)
    toBB.toList.findSome? fun to => p.tryDrop ksq PT.Gold true (goldAttack us to) to
  else none

/-- Silver drops (src/position.cpp:1381-1411). -/
def mateSilverDrop (p : Position) (ksq : Square) : Option Move :=
  let us := p.turn
  let target := ~~~p.occupied
  if (p.hand us).has 3 then
    if (p.hand us).has 4 && (p.hand us).has 5 then none
    else
      let toBB :=
        if (p.hand us).has 4 then target &&& (silverAttack us.opp ksq &&& inFrontMask us (rank ksq))
        else if (p.hand us).has 5 then target &&& goldAndSilverAttacks us.opp ksq
        else target &&& silverAttack us.opp ksq
      toBB.toList.findSome? fun to => p.tryDrop ksq PT.Silver true (silverAttack us to) to
  else none

/-- Knight drops (src/position.cpp:1413-1425). -/
def mateKnightDrop (p : Position) (ksq : Square) : Option Move :=
  if (p.hand p.turn).has 2 then
    (~~~p.occupied &&& knightAttack p.turn.opp ksq).toList.findSome? fun to => p.tryDrop ksq PT.Knight false zero to
  else none

/-! ### Moves next to the king -/

/-- The test of one board move (src/position.cpp:1437-1450 and the like), on the position with the mover lifted.
`support` is false for unpromoted knights, `knight` chooses `isDiscoveredCheck<true>` and `isPinnedIllegal<true>`. -/
def tryMove (p : Position) (ksq : Square) (pt : PieceType) (src to : Square) (pro gold support knight : Bool)
    (bb : Bitboard) : Option Move :=
  let us := p.turn
  let q := p.lift pt src gold
  if (!support || q.attackersToIsAny us to q.occupied) && !q.canKingEscape us ksq to bb &&
     (leavesLineN knight src to (some ksq) (p.discoveredCheckBB true) ||
       !q.canPieceCaptureDc us.opp ksq to (q.discoveredCheckBB false)) &&
     !leavesLineN knight src to (p.kingSquare us) p.pinnedBB
  then some (if pro then genPro p pt src to else genMove p pt src to) else none

/-- `moveTarget` (src/position.cpp:1431). -/
def moveTarget (p : Position) (ksq : Square) : Bitboard := (p.byColor p.turn).notAnd (kingAttack ksq)

/-- `attacksFrom<Dragon>(to, occupiedBB() ^ setMaskBB(ksq))` with the mover lifted (src/position.cpp:1447 and others). -/
def dragonBB (p : Position) (ksq : Square) (pt : PieceType) (src to : Square) : Bitboard :=
  dragonAttack to ((p.lift pt src false).occupied ^^^ setMask ksq)

/-- Dragon moves (src/position.cpp:1435-1463). -/
def mateDragon (p : Position) (ksq : Square) : Option Move :=
  (p.bbOf PT.Dragon p.turn).toList.findSome? fun src =>
    (p.moveTarget ksq &&& dragonAttack src p.occupied).toList.findSome? fun to =>
      p.tryMove ksq PT.Dragon src to false false true false (p.dragonBB ksq PT.Dragon src to)

/-- Rook moves (src/position.cpp:1468-1543): first the rooks in the promotion zone, then the others. -/
def mateRook (p : Position) (ksq : Square) : Option Move :=
  let us := p.turn
  let zone := tRank123 us
  ((p.bbOf PT.Rook us &&& zone).toList.findSome? fun src =>
    (p.moveTarget ksq &&& rookAttack src p.occupied).toList.findSome? fun to =>
      p.tryMove ksq PT.Rook src to true false true false (p.dragonBB ksq PT.Rook src to)) <|>
  ((p.bbOf PT.Rook us).andNot zone).toList.findSome? fun src =>
    let toBB := p.moveTarget ksq &&& rookAttack src p.occupied &&& (rookStepAttacks ksq ||| zone)
    ((toBB &&& zone).toList.findSome? fun to =>
      p.tryMove ksq PT.Rook src to true false true false (p.dragonBB ksq PT.Rook src to)) <|>
    (toBB.andNot zone).toList.findSome? fun to =>
      p.tryMove ksq PT.Rook src to false false true false (rookAttackToEdge to)

/-- Horse moves (src/position.cpp:1545-1574). -/
def mateHorse (p : Position) (ksq : Square) : Option Move :=
  (p.bbOf PT.Horse p.turn).toList.findSome? fun src =>
    (p.moveTarget ksq &&& horseAttack src p.occupied).toList.findSome? fun to =>
      p.tryMove ksq PT.Horse src to false false true false (bishopAttackToEdge to ||| kingAttack to)

/-- Bishop moves (src/position.cpp:1576-1653). -/
def mateBishop (p : Position) (ksq : Square) : Option Move :=
  let us := p.turn
  let zone := tRank123 us
  ((p.bbOf PT.Bishop us &&& zone).toList.findSome? fun src =>
    (p.moveTarget ksq &&& bishopAttack src p.occupied).toList.findSome? fun to =>
      p.tryMove ksq PT.Bishop src to true false true false (bishopAttackToEdge to ||| kingAttack to)) <|>
  ((p.bbOf PT.Bishop us).andNot zone).toList.findSome? fun src =>
    let toBB := p.moveTarget ksq &&& bishopAttack src p.occupied &&& (bishopStepAttacks ksq ||| zone)
    ((toBB &&& zone).toList.findSome? fun to =>
      p.tryMove ksq PT.Bishop src to true false true false (bishopAttackToEdge to ||| kingAttack to)) <|>
    (toBB.andNot zone).toList.findSome? fun to =>
      p.tryMove ksq PT.Bishop src to false false true false (bishopAttackToEdge to)

/-- Moves of golds and promoted minor pieces (src/position.cpp:1655-1691). -/
def mateGold (p : Position) (ksq : Square) : Option Move :=
  let us := p.turn
  (p.goldsC us &&& goldCheckTable us ksq).toList.findSome? fun src =>
    (p.moveTarget ksq &&& goldAttack us src &&& goldAttack us.opp ksq).toList.findSome? fun to =>
      p.tryMove ksq (pieceType (p.piece src)) src to false true true false (goldAttack us to)

/-- Silver moves (src/position.cpp:1693-1832): from the promotion zone, from the five ranks nearest to the player, and
from the fourth rank. -/
def mateSilver (p : Position) (ksq : Square) : Option Move :=
  let us := p.turn
  let zone := tRank123 us
  let home := inFrontMask us.opp (match us with | .black => 3 | .white => 5)
  let chk := silverAttack us.opp ksq
  let chkPro := goldAttack us.opp ksq
  let cand := p.bbOf PT.Silver us &&& silverCheckTable us ksq
  let pro (src to : Square) := p.tryMove ksq PT.Silver src to true false true false (goldAttack us to)
  let non (src to : Square) := p.tryMove ksq PT.Silver src to false false true false (silverAttack us to)
  ((cand &&& zone).toList.findSome? fun src =>
    let toBB := p.moveTarget ksq &&& silverAttack us src
    ((toBB &&& chkPro).toList.findSome? (pro src)) <|>
    ((toBB &&& chk).andNot (inFrontMask us.opp (rank ksq))).toList.findSome? (non src)) <|>
  ((cand.andNot zone &&& home).toList.findSome? fun src =>
    (p.moveTarget ksq &&& silverAttack us src &&& chk).toList.findSome? (non src)) <|>
  ((cand.andNot zone).andNot home).toList.findSome? fun src =>
    let toBB := p.moveTarget ksq &&& silverAttack us src
    ((toBB &&& zone &&& chkPro).toList.findSome? (pro src)) <|>
    (toBB &&& chk).toList.findSome? (non src)

/-- Knight moves (src/position.cpp:1834-1881). -/
def mateKnight (p : Position) (ksq : Square) : Option Move :=
  let us := p.turn
  (p.bbOf PT.Knight us &&& knightCheckTable us ksq).toList.findSome? fun src =>
    let toBB := (p.byColor us).notAnd (knightAttack us src)
    ((toBB &&& (goldAttack us.opp ksq &&& tRank123 us)).toList.findSome? fun to =>
      p.tryMove ksq PT.Knight src to true false true true (goldAttack us to)) <|>
    (toBB &&& knightAttack us.opp ksq).toList.findSome? fun to =>
      p.tryMove ksq PT.Knight src to false false false true zero

/-- Lance moves (src/position.cpp:1883-1943). -/
def mateLance (p : Position) (ksq : Square) : Option Move :=
  let us := p.turn
  (p.bbOf PT.Lance us &&& lanceCheckTable us ksq).toList.findSome? fun src =>
    let toBB := p.moveTarget ksq &&& lanceAttack us src p.occupied
    ((toBB &&& (goldAttack us.opp ksq &&& tRank123 us)).toList.findSome? fun to =>
      p.tryMove ksq PT.Lance src to true false true false (goldAttack us to)) <|>
    (if (toBB &&& (pawnAttack us.opp ksq &&& inFrontMask us.opp (match us with | .black => 1 | .white => 7))).isAny then
      let to := backSq us ksq
      p.tryMove ksq PT.Lance src to false false true false (lanceAttackToEdge us to)
    else none)

/-- `from + TDeltaN` (src/position.cpp:1962): one rank forwards. -/
def frontSq (us : Color) (s : Square) : Square := backSq us.opp s

/-- Pawn moves (src/position.cpp:1945-2017). -/
def matePawn (p : Position) (ksq : Square) : Option Move :=
  let us := p.turn
  let krank := rank ksq
  if isInFrontOf us 7 1 krank then
    (if isInFrontOf us 3 5 krank then
      let toPro := p.moveTarget ksq &&& goldAttack us.opp ksq &&& tRank123 us
      (p.bbOf PT.Pawn us &&& pawnAttackBB us.opp toPro).toList.findSome? fun src =>
        p.tryMove ksq PT.Pawn src (frontSq us src) true false true false (goldAttack us (frontSq us src))
    else none) <|>
    (let to := backSq us ksq
     let src := backSq us to
     if (p.bbOf PT.Pawn us).isSet src && !(p.byColor us).isSet to && isBehind us 1 7 krank then
       p.tryMove ksq PT.Pawn src to false false true false zero
     else none)
  else none

/-! ### Distant checks, when the opponent holds nothing but pawns -/

/-- Which piece is dropped for a check from the direction `dr` (src/position.cpp:2087-2107). -/
def farDropType (us : Color) (h : Hand) (dr : Nat) : Option PieceType :=
  if isDiagDir dr then (if h.has 5 then some PT.Bishop else none)
  else if (dr == match us with | .black => 16 | .white => 8) && h.has 1 then some PT.Lance
  else if h.has 6 then some PT.Rook
  else none

/-- The lines of the dropped piece (src/position.cpp:2127-2135, 2148-2155). -/
def farEdge (dr : Nat) (s : Square) : Bitboard := if isDiagDir dr then bishopAttackToEdge s else rookAttackToEdge s

/-- `!(~edge & escape_bb)` after a drop on `to` (src/position.cpp:2125-2135, 2146-2155). -/
def farCovered (p : Position) (ksq : Square) (dr : Nat) (to : Square) : Bool :=
  let us := p.turn
  let movable := ~~~p.byColor us.opp &&& kingAttack ksq
  let escape := movable &&& ~~~(p.aroundNonSlider us ksq ||| p.attacksSlider us (p.occupied ||| setMask to))
  !(~~~farEdge dr to &&& escape).isAny

/-- Drops two or three squares away from the king (src/position.cpp:2087-2157). -/
def mateFarDrop (p : Position) (ksq one to : Square) (escCount : Nat) : Option Move :=
  let us := p.turn
  let them := us.opp
  let dr := directionsOf ksq one
  let dc := p.discoveredCheckBB false
  match farDropType us (p.hand us) dr with
  | none => none
  | some pt =>
    if p.piece to ≠ 0 then none
    else if p.canCapture them ksq one dc p.occupied then none
    else if p.canCapture them ksq to dc p.occupied then none
    else if p.farCovered ksq dr to then some (makeDropMove pt to.val)
    else if escCount ≤ 2 then
      match nextSquare one to with
      | none => none
      | some far =>
        if p.piece far ≠ 0 then none
        else if p.canPawnDrop them to then none
        else if p.canCapture them ksq far dc p.occupied then none
        else if p.farCovered ksq dr far then some (makeDropMove pt far.val)
        else none
    else none

/-- The sliders that may move to `to` (src/position.cpp:2161-2180, 2231-2243). -/
def farMovers (p : Position) (dr : Nat) (to : Square) : Bitboard :=
  let us := p.turn
  if !isDiagDir dr then
    let canLance := dr == match us with | .black => 16 | .white => 8
    let isRook := (rookAttackToEdge to).andIsAny (p.bbOf2c PT.Rook PT.Dragon us)
    let isDragon := (kingAttack to).andIsAny (p.bbOf PT.Dragon us)
    let isLance := canLance && (lanceAttackToEdge us.opp to).andIsAny (p.bbOf PT.Lance us)
    (if isRook then rookAttack to p.occupied &&& p.bbOf2c PT.Rook PT.Dragon us else zero) |||
    (if isDragon then kingAttack to &&& p.bbOf PT.Dragon us else zero) |||
    (if isLance then lanceAttack us.opp to p.occupied &&& p.bbOf PT.Lance us else zero)
  else
    let isBishop := (bishopAttackToEdge to).andIsAny (p.bbOf2c PT.Bishop PT.Horse us)
    let isHorse := (kingAttack to).andIsAny (p.bbOf PT.Horse us)
    (if isBishop then bishopAttack to p.occupied &&& p.bbOf2c PT.Bishop PT.Horse us else zero) |||
    (if isHorse then kingAttack to &&& p.bbOf PT.Horse us else zero)

/-- `bb_attacks` of a slider moved to `to` (src/position.cpp:2201-2213, 2272). -/
def farAttacks (p : Position) (dr : Nat) (src to : Square) : Bitboard :=
  if isDiagDir dr then rookAttackToEdge to ||| bishopAttackToEdge to
  else if pieceType (p.piece src) = PT.Lance then rookAttackToEdge to
  else if canPromote2 p.turn src to || pieceType (p.piece src) = PT.Dragon then
    rookAttackToEdge to ||| bishopAttackToEdge to
  else rookAttackToEdge to

/-- The test of one slider move (src/position.cpp:2182-2229, 2245-2286; the two copies ask their questions in different
orders, which makes no difference). -/
def tryFar (p : Position) (ksq one to : Square) (dr : Nat) (src : Square) : Option Move :=
  let us := p.turn
  let them := us.opp
  let dc := p.discoveredCheckBB false
  let slide := p.occupied ^^^ setMask src
  if leavesLine src to (p.kingSquare us) p.pinnedBB then none
  else if p.canCapture them ksq to dc slide then none
  else if p.canCaptureAvoid them ksq one to dc slide then none
  else if (kingAttack ksq &&& ~~~(p.byColor them ||| p.aroundAvoid us ksq src (slide ||| setMask to) |||
      p.farAttacks dr src to)).isAny then none
  else
    let pt := pieceType (p.piece src)
    some (if pt ≠ PT.Lance ∧ canPromote2 us src to ∧ !pt.testBit 3 then genPro p pt src to else genMove p pt src to)

/-- Moves of sliders to a square two away from the king (src/position.cpp:2158-2290). -/
def mateFarMove (p : Position) (ksq one to : Square) : Option Move :=
  let dr := directionsOf ksq one
  (p.farMovers dr to).toList.findSome? fun src => p.tryFar ksq one to dr src

/-- The body of the loop over the empty neighbours of the king (src/position.cpp:2058-2290). -/
def mateFarOne (p : Position) (ksq : Square) (escCount : Nat) (one : Square) : Option Move :=
  let us := p.turn
  let them := us.opp
  match nextSquare ksq one with
  | none => none
  | some to =>
    if p.piece to ≠ 0 ∧ pieceColor (p.piece to) = us then none
    else if p.canPawnDrop them one then none
    else if pieceType (p.piece to) = PT.Pawn ∧ file to = file one ∧ (p.hand them).has 0 then none
    else p.mateFarDrop ksq one to escCount <|> p.mateFarMove ksq one to

/-- Distant checks (src/position.cpp:2035-2292). -/
def mateFar (p : Position) (ksq : Square) : Option Move :=
  let us := p.turn
  let them := us.opp
  if (p.hand them).exceptPawnExists then none
  else
    let movable := ~~~p.byColor them &&& kingAttack ksq
    let escape := movable &&& ~~~(p.aroundNonSlider us ksq ||| p.aroundSlider us ksq)
    let escCount := escape.popCount
    if 4 ≤ escCount then none
    else (~~~p.occupied &&& kingAttack ksq).toList.findSome? (p.mateFarOne ksq escCount)

/-! ### Double checks -/

/-- A pawn that promotes and uncovers another check (src/position.cpp:2313-2345). -/
def doublePawn (p : Position) (ksq src : Square) : Option Move :=
  let us := p.turn
  if file src = file ksq then none
  else
    let to := frontSq us src
    if p.piece to ≠ 0 ∧ pieceColor (p.piece to) ≠ us.opp then none
    else if !canPromote us to then none
    else
      let bbAttacks := goldAttack us to
      if !(bbAttacks &&& setMask ksq).isAny then none
      else if leavesLine src to (p.kingSquare us) p.pinnedBB then none
      else if p.canKingEscapeGoto us.opp ksq src to bbAttacks (p.occupied ^^^ setMask src) then none
      else some (genPro p PT.Pawn src to)

/-- One destination in the branches for knights and silvers (src/position.cpp:2353-2362, 2366-2376, 2387-2396,
2400-2410). A move that gives check is skipped by the test on `bb_attacks`. -/
def doubleStep (p : Position) (ksq : Square) (pt : PieceType) (src : Square) (pro : Bool) (attack : Square → Bitboard)
    (to : Square) : Option Move :=
  let us := p.turn
  if isAlignedT src to ksq then none
  else if pro && !canPromote2 us src to then none
  else if (attack to &&& setMask ksq).isAny then none
  else if leavesLine src to (p.kingSquare us) p.pinnedBB then none
  else if p.canKingEscapeGoto us.opp ksq src to (attack to) (p.occupied ^^^ setMask src) then none
  else some (if pro then genPro p pt src to else genMove p pt src to)

/-- Knights (src/position.cpp:2349-2379). -/
def doubleKnight (p : Position) (ksq src : Square) : Option Move :=
  let us := p.turn
  if !(checkAround us PT.Knight ksq &&& setMask src).isAny then none
  else
    ((knightAttack us src &&& knightAttack us.opp ksq &&& ~~~p.byColor us).toList.findSome?
      (p.doubleStep ksq PT.Knight src false (knightAttack us))) <|>
    (knightAttack us src &&& goldAttack us.opp ksq).toList.findSome?
      (p.doubleStep ksq PT.Knight src true (goldAttack us))

/-- Silvers (src/position.cpp:2381-2412). -/
def doubleSilver (p : Position) (ksq src : Square) : Option Move :=
  let us := p.turn
  if !(checkAround us PT.Silver ksq &&& setMask src).isAny then none
  else
    ((silverAttack us src &&& silverAttack us.opp ksq &&& ~~~p.byColor us).toList.findSome?
      (p.doubleStep ksq PT.Silver src false (silverAttack us))) <|>
    (silverAttack us src &&& goldAttack us.opp ksq &&& ~~~p.byColor us).toList.findSome?
      (p.doubleStep ksq PT.Silver src true (goldAttack us))

/-- The piece type the code goes on with: promoted minor pieces are called `Gold` (src/position.cpp:2414-2419,
2572-2579). -/
def asGold (pt : PieceType) : PieceType :=
  if pt = PT.ProPawn ∨ pt = PT.ProLance ∨ pt = PT.ProKnight ∨ pt = PT.ProSilver then PT.Gold else pt

/-- Destinations from which golds, bishops, rooks, horses and dragons give check (src/position.cpp:2414-2468); `none`:
the piece is skipped. -/
def doubleTargets (p : Position) (ksq src : Square) (pt : PieceType) : Option Bitboard :=
  let us := p.turn
  let near := kingAttack ksq &&& (if canPromote us src then allOne else enemyField us)
  match pt with
  | 7 => if !(checkAround us PT.Gold ksq &&& setMask src).isAny then none
         else some (goldAttack us src &&& goldAttack us.opp ksq)
  | 5 => some ((bishopAttack ksq p.occupied ||| near) &&& bishopAttack src p.occupied)
  | 13 => some (horseAttack src p.occupied &&& horseAttack ksq p.occupied)
  | 6 => some ((rookAttack ksq p.occupied ||| near) &&& rookAttack src p.occupied)
  | 14 => some (dragonAttack src p.occupied &&& dragonAttack ksq p.occupied)
  | _ => none

/-- `bb_attacks` in the common loop (src/position.cpp:2490-2511). -/
def doubleAttacks (us : Color) (pt : PieceType) (promo : Bool) (to : Square) : Bitboard :=
  match pt with
  | 7 => goldAttack us to
  | 5 => if promo then bishopAttackToEdge to ||| kingAttack to else bishopAttackToEdge to
  | 13 => bishopAttackToEdge to ||| kingAttack to
  | 6 => if promo then rookAttackToEdge to ||| kingAttack to else rookAttackToEdge to
  | 14 => rookAttackToEdge to ||| kingAttack to
  | _ => zero

/-- The test of one destination in the common loop (src/position.cpp:2473-2518; the silver part is never reached because
silvers have their own branch). -/
def tryDouble (p : Position) (ksq src : Square) (pt : PieceType) (to : Square) : Option Move :=
  let us := p.turn
  let promo := canPromote us src || canPromote us to
  if isAlignedT src to ksq then none
  else if leavesLine src to (p.kingSquare us) p.pinnedBB then none
  else if p.canKingEscapeGoto us.opp ksq src to (doubleAttacks us pt promo to) (p.occupied ^^^ setMask src) then none
  else some (if promo ∧ !pt.testBit 3 ∧ pt ≠ PT.Gold then genPro p pt src to else genMove p pt src to)

/-- Double checks by one piece (src/position.cpp:2305-2532). -/
def mateDoubleOne (p : Position) (ksq src : Square) : Option Move :=
  match pieceType (p.piece src) with
  | 1 => p.doublePawn ksq src
  | 2 => none
  | 3 => p.doubleKnight ksq src
  | 4 => p.doubleSilver ksq src
  | pt =>
    match p.doubleTargets ksq src (asGold pt) with
    | none => none
    | some bb => (bb &&& ~~~p.byColor p.turn).toList.findSome? (p.tryDouble ksq src (asGold pt))

/-- Double checks (src/position.cpp:2297-2533). -/
def mateDouble (p : Position) (ksq : Square) : Option Move :=
  (p.discoveredCheckBB true).toList.findSome? (p.mateDoubleOne ksq)

/-! ### Discovered checks, when the opponent holds nothing but pawns -/

/-- The ranks from which a knight is tried (src/position.cpp:2569-2572). -/
def knightRows (us : Color) : Bitboard :=
  match us with
  | .black => rankMask 2 ||| rankMask 3 ||| rankMask 4
  | .white => rankMask 4 ||| rankMask 5 ||| rankMask 6

/-- `bb_attacks`: where the uncovering piece may go (src/position.cpp:2563-2602); `none`: the piece is skipped. -/
def discTargets (p : Position) (ksq src : Square) : Option Bitboard :=
  let us := p.turn
  match pieceType (p.piece src) with
  | 3 => if !(knightRows us &&& setMask src).isAny then none
         else some (knightAttack us src &&& ~~~goldAttack us.opp ksq)
  | 4 => some (silverAttack us src)
  | 7 => some (goldAttack us src &&& ~~~goldAttack us.opp ksq)
  | 9 => some (goldAttack us src &&& ~~~goldAttack us.opp ksq)
  | 10 => some (goldAttack us src &&& ~~~goldAttack us.opp ksq)
  | 11 => some (goldAttack us src &&& ~~~goldAttack us.opp ksq)
  | 12 => some (goldAttack us src &&& ~~~goldAttack us.opp ksq)
  | 5 => some (bishopAttack src p.occupied)
  | 13 => some (horseAttack src p.occupied &&& ~~~kingAttack ksq)
  | 6 => some (rookAttack src p.occupied)
  | 14 => some (dragonAttack src p.occupied &&& ~~~kingAttack ksq)
  | _ => none

/-- `bb_attacks` after the move (src/position.cpp:2664-2708); `none`: a silver that cannot promote. -/
def discAttacks (us : Color) (pt : PieceType) (src to : Square) (newSlide : Bitboard) : Option Bitboard :=
  match pt with
  | 4 => if canPromote2 us src to then some (goldAttack us to) else none
  | 3 => some (goldAttack us to)
  | 7 => some (goldAttack us to)
  | 5 => some (if canPromote2 us src to then horseAttack to newSlide else bishopAttack to newSlide)
  | 13 => some (horseAttack to newSlide)
  | 6 => some (if canPromote2 us src to then dragonAttack to newSlide else rookAttack to newSlide)
  | 14 => some (dragonAttack to newSlide)
  | _ => none

/-- The walk from the king to the uncovered slider (src/position.cpp:2731-2756, 2780-2793): true when no square on the
way can be answered on. `fuel` bounds the rounds; a walk has at most 8. -/
def discWalk (p : Position) (ksq src to : Square) (capPawn : Bool) (newPinned newSlide : Bitboard) :
    Nat → Square → Square → Bool
  | 0, _, _ => false
  | n + 1, s1, s2 =>
    let them := p.turn.opp
    if p.canCaptureAvoid them ksq s2 to newPinned newSlide then false
    else if s2 ≠ src ∧ p.piece s2 ≠ 0 then true
    else if p.canPawnDrop them s2 || (capPawn && file s2 == file to) then false
    else match nextSquare s1 s2 with
      | none => true
      | some s3 => discWalk p ksq src to capPawn newPinned newSlide n s2 s3

/-- The first square of the walk, `ksq + (nextSquare(ksq, from) - from)` (src/position.cpp:2732-2733). There is always a
square behind `from`, the one of the uncovered slider. -/
def discStart (ksq src : Square) : Option Square := (nextSquare ksq src).map fun n => sqN (ksq.val + n.val - src.val)

/-- The last three questions for one way of moving to `to` (src/position.cpp:2712-2756, 2771-2793): no check by the moved
piece, no escape, nothing to be done on the line. -/
def discMates (p : Position) (ksq src to : Square) (bbAttacks : Bitboard) : Bool :=
  let us := p.turn
  let them := us.opp
  let newSlide := (p.occupied ^^^ setMask src) ||| setMask to
  let capPawn := pieceType (p.piece to) == PT.Pawn
  if (bbAttacks &&& setMask ksq).isAny then false
  else if (kingAttack ksq &&&
      ~~~(bbAttacks ||| p.aroundAvoid us ksq src (newSlide ^^^ setMask ksq) ||| p.byColor them)).isAny then false
  else match discStart ksq src with
    | none => false
    | some s2 => p.discWalk ksq src to capPawn (p.pinnedPieces them ksq src to) newSlide 9 ksq s2

/-- The test of one destination (src/position.cpp:2620-2799). -/
def tryDisc (p : Position) (ksq src : Square) (pt : PieceType) (to : Square) : Option Move :=
  let us := p.turn
  let them := us.opp
  let newSlide := (p.occupied ^^^ setMask src) ||| setMask to
  let capPawn := pieceType (p.piece to) == PT.Pawn
  if isAlignedT src to ksq then none
  else if leavesLine src to (p.kingSquare us) p.pinnedBB then none
  else if p.canPawnDrop them src then none
  else if capPawn && file src == file to then none
  else if p.canCaptureAvoid them ksq src to (p.pinnedPieces them ksq src to) newSlide then none
  else if (kingAttack ksq &&& setMask to).isAny && !(p.attackersTo us to p.occupied ^^^ setMask src).isAny then none
  else
    (match discAttacks us pt src to newSlide with
     | none => none
     | some bb =>
       if p.discMates ksq src to bb then
         some (if canPromote2 us src to ∧ !(p.piece src).testBit 3 ∧ pt ≠ PT.Gold then genPro p pt src to
               else genMove p pt src to)
       else none) <|>
    (if pt = PT.Silver ∧ p.discMates ksq src to (silverAttack us to) then some (genMove p PT.Silver src to) else none)

/-- Discovered checks by one piece (src/position.cpp:2545-2799). -/
def mateDiscOne (p : Position) (ksq src : Square) : Option Move :=
  let us := p.turn
  let atk := p.attackersTo us.opp src p.occupied &&& ~~~setMask ksq
  if atk.isAny && decide (2 ≤ atk.popCount) then none
  else
    let atk := if atk.isAny then atk else neighbor5x5 ksq &&& ~~~p.byColor us
    match p.discTargets ksq src with
    | none => none
    | some bb => (bb &&& atk).toList.findSome? (p.tryDisc ksq src (asGold (pieceType (p.piece src))))

/-- Discovered checks (src/position.cpp:2540-2799). -/
def mateDisc (p : Position) (ksq : Square) : Option Move :=
  if (p.hand p.turn.opp).exceptPawnExists then none
  else (p.discoveredCheckBB true &&& neighbor5x5 ksq).toList.findSome? (p.mateDiscOne ksq)

/-! ### The whole function -/

/-- The groups in the order of the code (src/position.cpp:1307-2799). -/
def mateGroups (p : Position) (ksq : Square) : List (Option Move) :=
  [p.mateRookDrop ksq, p.mateBishopDrop ksq, p.mateGoldDrop ksq, p.mateSilverDrop ksq, p.mateKnightDrop ksq,
   p.mateDragon ksq, p.mateRook ksq, p.mateHorse ksq, p.mateBishop ksq, p.mateGold ksq, p.mateSilver ksq,
   p.mateKnight ksq, p.mateLance ksq, p.matePawn ksq, p.mateFar ksq, p.mateDouble ksq, p.mateDisc ksq]

/-- `mateMoveIn1Ply<true>()`, Python `mate_move_in_1ply` (src/position.cpp:1289-2803, src/cshogi.h:242): 0 when no mate
was found, `none` when the opponent has no king. -/
def mateMoveIn1Ply (p : Position) : Option Move :=
  (p.kingSquare p.turn.opp).map fun ksq => ((p.mateGroups ksq).findSome? id).getD 0#32

end Position
end Verif
