import Verif.Model.Mate1

/-!
# Generation of checking moves (generateMoves.cpp, init.cpp, position.cpp)

`GenerateMoves<Check, US, ALL>` (src/generateMoves.cpp:1648-2127) and `GenerateMoves<CheckAll, US>` (2129-2135), which calls it
with `ALL = true`. The mate search of src/mate.cpp uses the latter. The template parameter `US` is the side to move. Lists are in
the order the code writes them. `none` marks a missing king of the opponent, whose square 81 would index the tables out of range.
-/

namespace Verif
namespace Position
open Bitboard

/-! ### Tables -/

/-- `PawnCheckTable` (src/init.cpp:325-345). -/
def pawnCheckTable (c : Color) (s : Square) : Bitboard :=
  (unionOver (pawnAttack c.opp s) (pawnAttack c.opp) |||
   unionOver (goldAttack c.opp s &&& tRank123 c) (pawnAttack c.opp)).andNot (setMask s)

/-- `BishopCheckTable` (src/init.cpp:347-374). -/
def bishopCheckTable (c : Color) (s : Square) : Bitboard :=
  (unionOver (bishopAttack s zero) (fun t => bishopAttack t zero) |||
   unionOver (kingAttack s &&& tRank123 c) (fun t => bishopAttack t zero) |||
   unionOver (kingAttack s) (fun t => bishopAttack t zero &&& tRank123 c)).andNot (setMask s)

/-- `HorseCheckTable` (src/init.cpp:376-389). -/
def horseCheckTable (s : Square) : Bitboard :=
  (unionOver (horseAttack s zero) (fun t => horseAttack t zero)).andNot (setMask s)

/-! ### Board moves -/

/-- `generatCheckMoves<US, ALL>` (src/generateMoves.cpp:751-812): all ways to move the piece from `src` to `to`. -/
def pieceMoves (p : Position) (us : Color) (all : Bool) (pt : PieceType) (src to : Square) : List Move :=
  match pt with
  | 1 => if canPromote us to then
      genPro p pt src to :: (if all then (if isBehind us 0 8 (rank to) then [genMove p pt src to] else []) else [])
    else [genMove p pt src to]
  | 2 => if canPromote us to then
      genPro p pt src to :: (if all then (if isBehind us 0 8 (rank to) then [genMove p pt src to] else [])
        else (if isBehind us 1 7 (rank to) then [genMove p pt src to] else []))
    else [genMove p pt src to]
  | 3 => if canPromote us to then
      genPro p pt src to :: (if isBehind us 1 7 (rank to) then [genMove p pt src to] else [])
    else [genMove p pt src to]
  | 4 => (if canPromote us to || canPromote us src then [genPro p pt src to] else []) ++ [genMove p pt src to]
  | 5 => if canPromote us to || canPromote us src then
      genPro p pt src to :: (if all then [genMove p pt src to] else []) else [genMove p pt src to]
  | 6 => if canPromote us to || canPromote us src then
      genPro p pt src to :: (if all then [genMove p pt src to] else []) else [genMove p pt src to]
  | 0 => []
  | _ => [genMove p pt src to]

/-- `x`: the pieces that may give check themselves (src/generateMoves.cpp:1674-1684). -/
def checkMovers (p : Position) (ksq : Square) : Bitboard :=
  ((p.byType PT.Pawn &&& pawnCheckTable p.turn ksq) |||
   (p.byType PT.Lance &&& lanceCheckTable p.turn ksq) |||
   (p.byType PT.Knight &&& knightCheckTable p.turn ksq) |||
   (p.byType PT.Silver &&& silverCheckTable p.turn ksq) |||
   (p.golds &&& goldCheckTable p.turn ksq) |||
   (p.byType PT.Bishop &&& bishopCheckTable p.turn ksq) |||
   p.bbOf2 PT.Rook PT.Dragon |||
   (p.byType PT.Horse &&& horseCheckTable ksq)) &&& p.byColor p.turn

/-- The `switch` for a piece that both may uncover a check and is in `x`, moving on the line to the king
(src/generateMoves.cpp:1712-1777). -/
def alignedChecks (p : Position) (all : Bool) (ksq src to : Square) : List Move :=
  let us := p.turn
  let pt := pieceType (p.piece src)
  match pt with
  | 1 => if (pawnAttack us src).isSet to then
        if canPromote us to then genPro p pt src to :: (if all then [genMove p pt src to] else []) else [genMove p pt src to]
      else []
  | 4 => (if (silverAttack us.opp ksq &&& silverAttack us src).isSet to then [genMove p pt src to] else []) ++
      (if (goldAttack us.opp ksq &&& silverAttack us src).isSet to then
        (if canPromote us to || canPromote us src then [genPro p pt src to] else []) else [])
  | 7 => if (goldAttack us.opp ksq &&& goldAttack us src).isSet to then [genMove p pt src to] else []
  | 9 => if (goldAttack us.opp ksq &&& goldAttack us src).isSet to then [genMove p pt src to] else []
  | 10 => if (goldAttack us.opp ksq &&& goldAttack us src).isSet to then [genMove p pt src to] else []
  | 11 => if (goldAttack us.opp ksq &&& goldAttack us src).isSet to then [genMove p pt src to] else []
  | 12 => if (goldAttack us.opp ksq &&& goldAttack us src).isSet to then [genMove p pt src to] else []
  | 13 => if (horseAttack ksq p.occupied &&& horseAttack src p.occupied).isSet to then [genMove p pt src to] else []
  | 14 => if (dragonAttack ksq p.occupied &&& dragonAttack src p.occupied).isSet to then [genMove p pt src to] else []
  | _ => []

/-- The first loop: pieces that uncover a check when they leave the line (src/generateMoves.cpp:1694-1781). -/
def uncoverChecks (p : Position) (all : Bool) (ksq src : Square) : List Move :=
  (attacksFrom (pieceType (p.piece src)) p.turn src p.occupied &&& ~~~p.byColor p.turn).toList.flatMap fun to =>
    if !isAlignedT src to ksq then pieceMoves p p.turn all (pieceType (p.piece src)) src to
    else if (p.checkMovers ksq).isSet src then alignedChecks p all ksq src to
    else []

/-- `betweenBB(from, ksq) & occupiedBB()` when that is a single enemy piece (e.g. src/generateMoves.cpp:1831-1833). -/
def soleBlocker (p : Position) (ksq src : Square) : Option Square :=
  let dstBB := betweenBB src ksq &&& p.occupied
  if dstBB.isOneBit && (dstBB &&& p.byColor p.turn.opp).isAny then some (sqN dstBB.first) else none

/-- Pawns (src/generateMoves.cpp:1797-1814). -/
def pawnChecks (p : Position) (all : Bool) (ksq src : Square) : List Move :=
  (pawnAttack p.turn src &&& ~~~p.byColor p.turn).toList.flatMap fun to =>
    if canPromote p.turn to then
      genPro p PT.Pawn src to :: (if all then (if (pawnAttack p.turn.opp ksq).isSet to then [genMove p PT.Pawn src to] else []) else [])
    else [genMove p PT.Pawn src to]

/-- Lances (src/generateMoves.cpp:1815-1851). -/
def lanceChecks (p : Position) (all : Bool) (ksq src : Square) : List Move :=
  let us := p.turn
  if file ksq ≠ file src then
    (goldAttack us.opp ksq &&& lanceAttack us src p.occupied &&& ~~~p.byColor us).toList.flatMap fun to =>
      if canPromote us to then [genPro p PT.Lance src to] else []
  else
    match p.soleBlocker ksq src with
    | none => []
    | some to =>
      if (pawnAttack us.opp ksq).isSet to && canPromote us to then
        genPro p PT.Lance src to :: (if all then [genMove p PT.Lance src to]
          else (if isBehind us 1 7 (rank to) then [genMove p PT.Lance src to] else []))
      else [genMove p PT.Lance src to]

/-- Knights (src/generateMoves.cpp:1852-1866). -/
def knightChecks (p : Position) (ksq src : Square) : List Move :=
  let us := p.turn
  ((knightAttack us.opp ksq &&& knightAttack us src &&& ~~~p.byColor us).toList.map fun to => genMove p PT.Knight src to) ++
  (goldAttack us.opp ksq &&& knightAttack us src &&& ~~~p.byColor us).toList.flatMap fun to =>
    if canPromote us to then [genPro p PT.Knight src to] else []

/-- Silvers (src/generateMoves.cpp:1867-1881). -/
def silverChecks (p : Position) (ksq src : Square) : List Move :=
  let us := p.turn
  ((silverAttack us.opp ksq &&& silverAttack us src &&& ~~~p.byColor us).toList.map fun to => genMove p PT.Silver src to) ++
  (goldAttack us.opp ksq &&& silverAttack us src &&& ~~~p.byColor us).toList.flatMap fun to =>
    if canPromote us to || canPromote us src then [genPro p PT.Silver src to] else []

/-- Golds and promoted minor pieces (src/generateMoves.cpp:1882-1893). -/
def goldChecks (p : Position) (ksq src : Square) : List Move :=
  (goldAttack p.turn.opp ksq &&& goldAttack p.turn src &&& ~~~p.byColor p.turn).toList.map fun to =>
    genMove p (pieceType (p.piece src)) src to

/-- `abs(makeFile(ksq) - makeFile(from)) == abs(makeRank(ksq) - makeRank(from))` (src/generateMoves.cpp:1897, 1985). -/
def sameDiagonal (a b : Square) : Bool :=
  ((file a : Int) - file b).natAbs == ((rank a : Int) - rank b).natAbs

/-- `makeFile(ksq) == makeFile(from) || makeRank(ksq) == makeRank(from)`, the negation of the condition in
src/generateMoves.cpp:1943 and 2006. -/
def sameCross (a b : Square) : Bool := file a == file b || rank a == rank b

/-- Bishops and rooks (src/generateMoves.cpp:1894-1937, 1938-1981): `near` are the squares from which the promoted piece
attacks the king, `line` those from which the piece itself does, `reach` those it moves to. -/
def sliderChecks (p : Position) (all : Bool) (pt : PieceType) (onLine : Bool) (near line reach : Bitboard) (ksq src : Square) : List Move :=
  let us := p.turn
  if !onLine then
    (near &&& reach &&& ~~~p.byColor us).toList.flatMap fun to =>
      if canPromote us to || canPromote us src then
        genPro p pt src to :: (if all then (if line.isSet to then [genMove p pt src to] else []) else [])
      else if line.isSet to then [genMove p pt src to] else []
  else
    match p.soleBlocker ksq src with
    | none => []
    | some to =>
      if canPromote us to || canPromote us src then genPro p pt src to :: (if all then [genMove p pt src to] else [])
      else [genMove p pt src to]

/-- Horses (src/generateMoves.cpp:1982-2002). -/
def horseChecks (p : Position) (ksq src : Square) : List Move :=
  if !sameDiagonal ksq src then
    (horseAttack ksq p.occupied &&& horseAttack src p.occupied &&& ~~~p.byColor p.turn).toList.map fun to => genMove p PT.Horse src to
  else
    match p.soleBlocker ksq src with
    | none => []
    | some to => [genMove p PT.Horse src to]

/-- What a dragon on a line with the king adds to its squares: the single enemy piece between (src/generateMoves.cpp:2016-2019). -/
def blockerBB (p : Position) (ksq src : Square) : Bitboard :=
  let dstBB := betweenBB src ksq &&& p.occupied
  if dstBB.isOneBit && (dstBB &&& p.byColor p.turn.opp).isAny then dstBB else zero

/-- Dragons (src/generateMoves.cpp:2003-2026). -/
def dragonChecks (p : Position) (ksq src : Square) : List Move :=
  if !sameCross ksq src then
    (dragonAttack ksq p.occupied &&& dragonAttack src p.occupied &&& ~~~p.byColor p.turn).toList.map fun to => genMove p PT.Dragon src to
  else
    ((kingAttack ksq &&& kingAttack src &&& ~~~p.byColor p.turn) ||| p.blockerBB ksq src).toList.map fun to => genMove p PT.Dragon src to

/-- The second loop: pieces that give check themselves (src/generateMoves.cpp:1787-2029). -/
def directChecks (p : Position) (all : Bool) (ksq src : Square) : List Move :=
  match pieceType (p.piece src) with
  | 1 => pawnChecks p all ksq src
  | 2 => lanceChecks p all ksq src
  | 3 => knightChecks p ksq src
  | 4 => silverChecks p ksq src
  | 7 => goldChecks p ksq src
  | 9 => goldChecks p ksq src
  | 10 => goldChecks p ksq src
  | 11 => goldChecks p ksq src
  | 12 => goldChecks p ksq src
  | 5 => sliderChecks p all PT.Bishop (sameDiagonal ksq src) (horseAttack ksq p.occupied) (bishopAttack ksq p.occupied)
      (bishopAttack src p.occupied) ksq src
  | 6 => sliderChecks p all PT.Rook (sameCross ksq src) (dragonAttack ksq p.occupied) (rookAttack ksq p.occupied)
      (rookAttack src p.occupied) ksq src
  | 13 => horseChecks p ksq src
  | 14 => dragonChecks p ksq src
  | _ => []

/-- All board moves before the removal of moves that expose the own king (src/generateMoves.cpp:1686-2030). -/
def boardChecks (p : Position) (all : Bool) (ksq : Square) : List Move :=
  let x := p.checkMovers ksq
  let y := p.discoveredCheckBB true
  (y.toList.flatMap fun src => uncoverChecks p all ksq src) ++ ((x ||| y) ^^^ y).toList.flatMap fun src => directChecks p all ksq src

/-! ### Drops -/

/-- `TRank9`: the rank nearest to the player (src/generateMoves.cpp:2050). -/
def tRank9 : Color → Nat
  | .black => 8
  | .white => 0

/-- The drop of a pawn (src/generateMoves.cpp:2049-2082). -/
def pawnDropChecks (p : Position) (ksq : Square) : Option (List Move) :=
  let us := p.turn
  let toBB := ~~~p.occupied &&& pawnAttack us.opp ksq
  let toBB := (p.bbOf PT.Pawn us).toList.foldl clearFile toBB
  if rank ksq ≠ tRank9 us then
    let sq := backSq us ksq
    if toBB.isSet sq && p.piece sq == 0 then
      (p.isPawnDropCheckMate us sq).map fun mate => (if !mate then [makeDropMove PT.Pawn sq.val] else []) ++
        (toBB.xorBit sq).toList.map fun to => makeDropMove PT.Pawn to.val
    else some (toBB.toList.map fun to => makeDropMove PT.Pawn to.val)
  else some (toBB.toList.map fun to => makeDropMove PT.Pawn to.val)

/-- One of the other drop loops (src/generateMoves.cpp:2084-2124): `hp` is in hand, the piece is dropped on empty squares of
`bb`. -/
def dropChecks (p : Position) (hp : HandPiece) (pt : PieceType) (bb : Bitboard) : List Move :=
  if (p.hand p.turn).has hp then (~~~p.occupied &&& bb).toList.map fun to => makeDropMove pt to.val else []

/-- The drops (src/generateMoves.cpp:2044-2124). -/
def dropsCheck (p : Position) (ksq : Square) : Option (List Move) :=
  let us := p.turn
  (if (p.hand us).has 0 then pawnDropChecks p ksq else some []).map fun pawns => pawns ++
    dropChecks p 1 PT.Lance (lanceAttack us.opp ksq p.occupied) ++
    dropChecks p 2 PT.Knight (knightAttack us.opp ksq) ++
    dropChecks p 3 PT.Silver (silverAttack us.opp ksq) ++
    dropChecks p 4 PT.Gold (goldAttack us.opp ksq) ++
    dropChecks p 5 PT.Bishop (bishopAttack ksq p.occupied) ++
    dropChecks p 6 PT.Rook (rookAttack ksq p.occupied)

/-! ### The generator -/

/-- `GenerateMoves<Check, US, ALL>` (src/generateMoves.cpp:1648-2127); `all = true` is `CheckAll`. The filter is
`pseudoLegalMoveIsLegal<true, false>`, which is the one of `Gen.lean` because no drop is in the list yet. -/
def genCheck (p : Position) (all : Bool) : Option (List Move) :=
  match p.kingSquare p.turn.opp with
  | none => none
  | some ksq =>
    let l := boardChecks p all ksq
    (dropsCheck p ksq).map fun drops =>
      filterSwap (fun m => p.pseudoLegalMoveIsLegal m p.pinnedBB) l.length l ++ drops

/-- `checkMoveIsEvasion` (src/position.cpp:318-346), called only in check. `none`: no own king. -/
def checkMoveIsEvasion (p : Position) (m : Move) : Option Bool :=
  let to := sqN m.dst
  if m.pieceTypeFrom = PT.King then
    some (!p.attackersToIsAny p.turn.opp to (p.occupied.clearBit (sqN m.src)))
  else
    let checkSq := p.st.checkersBB.popFirst
    if checkSq.2.isAny then some false
    else
      match p.kingSquare p.turn with
      | none => none
      | some ksq => some ((betweenBB (sqN checkSq.1) ksq ||| p.st.checkersBB).isSet to)

end Position
end Verif
