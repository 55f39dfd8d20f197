import Verif.Model.Position

/-!
# Move generation and legality tests (generateMoves.cpp, generateMoves.hpp, position.cpp)

Lists in the order the code writes them. The template parameter `US` is the side to move (`generateMoves`,
src/generateMoves.cpp:2151-2155); the template conditions `MT == NonEvasion || ALL` are the parameter `all`.
`none` marks table reads out of range, which happen when a king that the code looks up is not on the board.
The capacity of the move buffer is treated in C47.
-/

namespace Verif
namespace Position
open Bitboard

/-- `isBehind<US, BRANK, WRANK>` (src/square.hpp:95-96). -/
def isBehind (us : Color) (brank wrank target : Nat) : Bool :=
  match us with
  | .black => decide (brank < target)
  | .white => decide (target < wrank)

/-- `makeNonPromoteMove<MT>` for the capture-aware move types (src/generateMoves.hpp:94-111). -/
def genMove (p : Position) (pt : PieceType) (src to : Square) : Move :=
  makeCaptureMove (pieceType (p.piece to)) pt src.val to.val
/-- `makePromoteMove<MT>` (src/generateMoves.hpp:94-106). -/
def genPro (p : Position) (pt : PieceType) (src to : Square) : Move := genMove p pt src to ||| Move.promoteFlag

/-! ### Pawn-drop mate -/

/-- `canPieceCapture(pos, them, sq)` (src/position.cpp:786-802): some piece of `them` other than the king captures on
`sq` without exposing its king. The loop runs over the attackers in board order. -/
def canPieceCapture (p : Position) (them : Color) (sq : Square) : Bool :=
  (p.attackersToExceptKing them sq).toList.any fun src =>
    !leavesLine src sq (p.kingSquare them) (p.discoveredCheckBB false)

/-- `isPawnDropCheckMate(us, sq)` (src/position.cpp:808-833). `none`: no king of the opponent. -/
def isPawnDropCheckMate (p : Position) (us : Color) (sq : Square) : Option Bool :=
  let them := us.opp
  if p.canPieceCapture them sq then some false
  else
    match p.kingSquare them with
    | none => none
    | some ksq =>
      let tempOccupied := p.occupied ||| setMask sq
      let kingMoveBB := (p.byColor them).notAnd (kingAttack ksq)
      some (!(kingMoveBB.toList.any fun to => !p.attackersToIsAny us to tempOccupied))

/-! ### Drops -/

/-- `TDeltaS` (src/generateMoves.cpp:242, 352): the square one rank backwards for the player. -/
def backSq (us : Color) (s : Square) : Square := match us with | .black => sqN (s.val + 1) | .white => sqN (s.val - 1)

/-- `toBB.p(part) & ~squareFileMask(pawnsSquare).p(part)` (src/generateMoves.cpp:236-238): only the word that holds the
pawn is changed. -/
def clearFile (b : Bitboard) (s : Square) : Bitboard :=
  if 62 < s.val then ⟨b.p0, b.p1 &&& ~~~(squareFileMask s).p1⟩ else ⟨b.p0 &&& ~~~(squareFileMask s).p0, b.p1⟩

/-- The pawn part of `generateDropMoves` (src/generateMoves.cpp:229-263). -/
def dropPawns (p : Position) (us : Color) (target : Bitboard) : Option (List Move) :=
  let tRank1 := match us with | .black => 0 | .white => 8
  let tRank9 := match us with | .black => 8 | .white => 0
  let toBB := target.andNot (rankMask tRank1)
  let toBB := (p.bbOf PT.Pawn us).toList.foldl clearFile toBB
  match p.kingSquare us.opp with
  | none => none
  | some ksq =>
    if rank ksq ≠ tRank9 then
      let sq := backSq us ksq
      if toBB.isSet sq && p.piece sq == 0 then
        match p.isPawnDropCheckMate us sq with
        | none => none
        | some mate => some ((if !mate then [makeDropMove PT.Pawn sq.val] else []) ++
            (toBB.xorBit sq).toList.map fun to => makeDropMove PT.Pawn to.val)
      else some (toBB.toList.map fun to => makeDropMove PT.Pawn to.val)
    else some (toBB.toList.map fun to => makeDropMove PT.Pawn to.val)

/-- `haveHand[noKnightLanceIdx ..]` (src/generateMoves.cpp:275-278). -/
def handRest (h : Hand) : List PieceType :=
  (if h.has 3 then [PT.Silver] else []) ++ (if h.has 4 then [PT.Gold] else []) ++
  (if h.has 5 then [PT.Bishop] else []) ++ (if h.has 6 then [PT.Rook] else [])
/-- `haveHand[noKnightIdx ..]` (src/generateMoves.cpp:273-278). -/
def handNoKnight (h : Hand) : List PieceType := (if h.has 1 then [PT.Lance] else []) ++ handRest h
/-- `haveHand` (src/generateMoves.cpp:271-278). -/
def handAll (h : Hand) : List PieceType := (if h.has 2 then [PT.Knight] else []) ++ handNoKnight h

/-- One of the unrolled loops of `generateDropMoves` (src/generateMoves.cpp:291-321): for every destination, a drop of
every listed type. (The `switch` on the number of types only chooses how often the body is unrolled.) -/
def dropLoop (pts : List PieceType) (toBB : Bitboard) : List Move :=
  toBB.toList.flatMap fun to => pts.map fun pt => makeDropMove pt to.val

/-- The other part of `generateDropMoves` (src/generateMoves.cpp:266-323). -/
def dropOthers (p : Position) (us : Color) (target : Bitboard) : List Move :=
  let hand := p.hand us
  if hand.exceptPawnExists then
    let tRank2BB := rankMask (match us with | .black => 1 | .white => 7)
    let tRank1BB := rankMask (match us with | .black => 0 | .white => 8)
    (if (handRest hand).isEmpty then [] else dropLoop (handRest hand) (target &&& tRank1BB)) ++
    (if (handNoKnight hand).isEmpty then [] else dropLoop (handNoKnight hand) (target &&& tRank2BB)) ++
    dropLoop (handAll hand) (target &&& ~~~(tRank2BB ||| tRank1BB))
  else []

/-- `generateDropMoves<US>` (src/generateMoves.cpp:225-326). -/
def genDrops (p : Position) (us : Color) (target : Bitboard) : Option (List Move) :=
  if (p.hand us).has 0 then (dropPawns p us target).map (· ++ dropOthers p us target)
  else some (dropOthers p us target)

/-! ### Board moves -/

/-- `GeneratePieceMoves<MT, Pawn, US, ALL>` (src/generateMoves.cpp:346-384). -/
def genPawn (p : Position) (us : Color) (all : Bool) (target : Bitboard) : List Move :=
  let tRank1 := match us with | .black => 0 | .white => 8
  let tRank123 := inFrontMask us (match us with | .black => 3 | .white => 5)
  let toBB := pawnAttackBB us (p.bbOf PT.Pawn us) &&& target
  let toOn123 := toBB &&& tRank123
  let rest := if toOn123.isAny then toBB.andNot tRank123 else toBB
  (toOn123.toList.flatMap fun to =>
    genPro p PT.Pawn (backSq us to) to ::
      (if all && rank to != tRank1 then [genMove p PT.Pawn (backSq us to) to] else [])) ++
  rest.toList.map fun to => genMove p PT.Pawn (backSq us to) to

/-- `GeneratePieceMoves<MT, Lance, US, ALL>` (src/generateMoves.cpp:386-415). -/
def genLance (p : Position) (us : Color) (all : Bool) (target : Bitboard) : List Move :=
  (p.bbOf PT.Lance us).toList.flatMap fun src =>
    (attacksFrom PT.Lance us src p.occupied &&& target).toList.flatMap fun to =>
      if canPromote us to then
        genPro p PT.Lance src to ::
          (if all then (if isBehind us 0 8 (rank to) then [genMove p PT.Lance src to] else [])
           else (if isBehind us 1 7 (rank to) then [genMove p PT.Lance src to] else []))
      else [genMove p PT.Lance src to]

/-- `GeneratePieceMoves<MT, Knight, US, ALL>` (src/generateMoves.cpp:417-436). -/
def genKnight (p : Position) (us : Color) (target : Bitboard) : List Move :=
  (p.bbOf PT.Knight us).toList.flatMap fun src =>
    (attacksFrom PT.Knight us src p.occupied &&& target).toList.flatMap fun to =>
      if canPromote us to then
        genPro p PT.Knight src to :: (if isBehind us 1 7 (rank to) then [genMove p PT.Knight src to] else [])
      else [genMove p PT.Knight src to]

/-- `GeneratePieceMoves<MT, Silver, US, ALL>` (src/generateMoves.cpp:438-455). -/
def genSilver (p : Position) (us : Color) (target : Bitboard) : List Move :=
  (p.bbOf PT.Silver us).toList.flatMap fun src =>
    (attacksFrom PT.Silver us src p.occupied &&& target).toList.flatMap fun to =>
      (if canPromote us src || canPromote us to then [genPro p PT.Silver src to] else []) ++ [genMove p PT.Silver src to]

/-- `generateBishopOrRookMoves<MT, PT, US, ALL>` (src/generateMoves.cpp:196-219). -/
def genBishopOrRook (p : Position) (pt : PieceType) (us : Color) (all : Bool) (target : Bitboard) : List Move :=
  (p.bbOf pt us).toList.flatMap fun src =>
    (attacksFrom pt us src p.occupied &&& target).toList.flatMap fun to =>
      if canPromote us src || canPromote us to then
        genPro p pt src to :: (if all then [genMove p pt src to] else [])
      else [genMove p pt src to]

/-- `GeneratePieceMoves<MT, GoldHorseDragon, US, ALL>` (src/generateMoves.cpp:328-345). -/
def genGoldHorseDragon (p : Position) (us : Color) (target : Bitboard) : List Move :=
  ((p.golds ||| p.bbOf2 PT.Horse PT.Dragon) &&& p.byColor us).toList.flatMap fun src =>
    (attacksFrom (pieceType (p.piece src)) us src p.occupied &&& target).toList.map fun to =>
      genMove p (pieceType (p.piece src)) src to

/-- `GeneratePieceMoves<MT, King, US, ALL>` (src/generateMoves.cpp:468-477). `none`: no own king. -/
def genKing (p : Position) (us : Color) (target : Bitboard) : Option (List Move) :=
  (p.kingSquare us).map fun src =>
    (kingAttack src &&& target).toList.map fun to => genMove p PT.King src to

/-- The seven calls for the pieces other than the king (src/generateMoves.cpp:653-659, 679-685). -/
def genPieces (p : Position) (us : Color) (all : Bool) (target : Bitboard) : List Move :=
  genPawn p us all target ++ genLance p us all target ++ genKnight p us target ++ genSilver p us target ++
  genBishopOrRook p PT.Bishop us all target ++ genBishopOrRook p PT.Rook us all target ++
  genGoldHorseDragon p us target

/-- `GenerateMoves<NonEvasion, US>` (src/generateMoves.cpp:671-691). -/
def genNonEvasion (p : Position) : Option (List Move) :=
  let us := p.turn
  (genDrops p us p.emptyBB).bind fun drops =>
    let target := p.emptyBB ||| p.byColor us.opp
    (genKing p us target).map fun king => drops ++ genPieces p us true target ++ king

/-! ### Evasions -/

/-- `makeBannedKingTo<THEM>` (src/generateMoves.cpp:556-606): what is OR-ed to the banned squares for one checking
piece. `none`: the piece is a king, empty or not of colour `them` (`UNREACHABLE`). -/
def bannedKingTo (p : Position) (them : Color) (checkSq ksq : Square) : Option Bitboard :=
  if p.piece checkSq / 16 ≠ them.idx then none
  else
    match pieceType (p.piece checkSq) with
    | 1 => some zero
    | 3 => some zero
    | 2 => some (lanceAttackToEdge them checkSq)
    | 4 => some (silverAttack them checkSq)
    | 7 => some (goldAttack them checkSq)
    | 9 => some (goldAttack them checkSq)
    | 10 => some (goldAttack them checkSq)
    | 11 => some (goldAttack them checkSq)
    | 12 => some (goldAttack them checkSq)
    | 5 => some (bishopAttackToEdge checkSq)
    | 13 => some (bishopAttackToEdge checkSq ||| kingAttack checkSq)
    | 6 => some (rookAttackToEdge checkSq)
    | 14 => if (squareRelation checkSq ksq).testBit 2 then some (dragonAttack checkSq p.occupied)
            else some (rookAttackToEdge checkSq ||| kingAttack checkSq)
    | _ => none

/-- The loop over the checking pieces (src/generateMoves.cpp:629-636). -/
def bannedLoop (p : Position) (them : Color) (ksq : Square) : List Square → Bitboard → Option Bitboard
  | [], bb => some bb
  | s :: l, bb =>
    match bannedKingTo p them s ksq with
    | none => none
    | some b => bannedLoop p them ksq l (bb ||| b)

/-- `GenerateMoves<Evasion, US, ALL>` (src/generateMoves.cpp:613-666). The checkers are not empty when it is called.
After the loop `checkSq` is the last checker visited. `none`: no own king, or an unreachable case. -/
def genEvasion (p : Position) (all : Bool) : Option (List Move) :=
  let us := p.turn
  match p.kingSquare us with
  | none => none
  | some ksq =>
    let checkers := p.st.checkersBB
    match bannedLoop p us.opp ksq checkers.toList zero with
    | none => none
    | some banned =>
      let bb := banned.notAnd ((p.byColor us).notAnd (kingAttack ksq))
      let king := bb.toList.map fun to => genMove p PT.King ksq to
      match checkers.toList.reverse with
      | [] => none
      | checkSq :: others =>
        if !others.isEmpty then some king
        else
          let target1 := betweenBB checkSq ksq
          let target2 := target1 ||| checkers
          if target1.isAny then
            (genDrops p us target1).map fun drops => king ++ genPieces p us all target2 ++ drops
          else some (king ++ genPieces p us all target2)

/-! ### Legal moves -/

/-- `pseudoLegalMoveIsLegal<false, false>` (src/position.cpp:266-287). -/
def pseudoLegalMoveIsLegal (p : Position) (m : Move) (pinned : Bitboard) : Bool :=
  if m.isDrop then true
  else
    let src := sqN m.src
    let to := sqN m.dst
    if pieceType (p.piece src) = PT.King then !p.attackersToIsAny p.turn.opp to p.occupied
    else !leavesLine src to (p.kingSquare p.turn) pinned

/-- The removal loop (src/generateMoves.cpp:704-709, 726-731): a rejected move is overwritten by the last one.
`fuel` is the number of rounds; the length of the list suffices because every round shortens what is left. -/
def filterSwap (ok : Move → Bool) : Nat → List Move → List Move
  | 0, l => l
  | _ + 1, [] => []
  | n + 1, m :: l =>
    if ok m then m :: filterSwap ok n l
    else match l.getLast? with
      | none => []
      | some last => filterSwap ok n (last :: l.dropLast)

/-- The pseudo-legal moves, Python `pseudo_legal_moves` (src/generateMoves.cpp:741-751 with `all`; 720-724). -/
def genPseudo (p : Position) (all : Bool) : Option (List Move) :=
  if p.inCheck then genEvasion p all else genNonEvasion p

/-- `GenerateMoves<LegalAll, US>` (`all = true`; Python `legal_moves`, src/generateMoves.cpp:716-736) and
`GenerateMoves<Legal, US>` (`all = false`, src/generateMoves.cpp:694-714). -/
def genLegal (p : Position) (all : Bool) : Option (List Move) :=
  (genPseudo p all).map fun l => filterSwap (fun m => p.pseudoLegalMoveIsLegal m p.pinnedBB) l.length l

/-- `__Board::is_game_over` (src/cshogi.h:196-199). -/
def isGameOver (p : Position) : Option Bool := (genLegal p true).map List.isEmpty

/-! ### Legality of a given move -/

/-- In `moveIsPseudoLegal`, the test of a drop against a check (src/position.cpp:364-377). -/
def dropAnswersCheck (p : Position) (to : Square) : Option Bool :=
  if p.inCheck then
    match p.kingSquare p.turn with
    | none => none
    | some ksq =>
      let checkSq := p.st.checkersBB.popFirst
      if checkSq.2.isAny then some false
      else some ((betweenBB (sqN checkSq.1) ksq).isSet to)
  else some true

/-- `to + TDeltaN` as a number (src/position.cpp:383-384); it need not be a square. -/
def frontNo (us : Color) (to : Square) : Int :=
  match us with
  | .black => (to.val : Int) - 1
  | .white => (to.val : Int) + 1

/-- `moveIsPseudoLegal<false>(move)` (src/position.cpp:354-463, `Searching = false`), Python `is_pseudo_legal`.
`none`: an array is read out of range. -/
def moveIsPseudoLegal (p : Position) (m : Move) : Option Bool :=
  let us := p.turn
  let them := us.opp
  if hd : m.dst < 81 then
    let to : Square := ⟨m.dst, hd⟩
    if m.isDrop then
      let pt := m.pieceTypeDropped
      -- `pieceTypeToHandPiece(ptFrom)` has 16 entries, `HandPieceMask` 7
      if pt ≤ 15 ∧ ptToHand pt < 7 then
        if !(p.hand us).has (ptToHand pt) || p.piece to != 0 then some false
        else
          match p.dropAnswersCheck to with
          | none => none
          | some false => some false
          | some true =>
            if pt = PT.Pawn then
              if (p.bbOf PT.Pawn us &&& fileMask (file to)).isAny then some false
              else
                -- `to + TDeltaN == kingSquare(them)`, where an absent king is 81
                let king : Int := match p.kingSquare them with | none => 81 | some k => (k.val : Int)
                if frontNo us to = king then (p.isPawnDropCheckMate us to).map (!·) else some true
            else some true
      else none
    else
      let src := sqN m.src
      let ptFrom := m.pieceTypeFrom
      if p.piece src ≠ mkPiece us ptFrom || (p.byColor us).isSet to then some false
      -- `attacksFrom(pt, ..)`: types above 14 are `UNREACHABLE`
      else if 14 < ptFrom then none
      else if !(attacksFrom ptFrom us src p.occupied).isSet to then some false
      else if p.inCheck then
        if ptFrom = PT.King then some (!p.attackersToIsAny them to (p.occupied.clearBit src))
        else
          match p.kingSquare us with
          | none => none
          | some ksq =>
            let checkSq := p.st.checkersBB.popFirst
            if checkSq.2.isAny then some false
            else some ((betweenBB (sqN checkSq.1) ksq ||| p.st.checkersBB).isSet to)
      else some true
  -- no such square: fine only if the test fails before `piece(to)` or `bbOf(us).isSet(to)` is read
  else if m.isDrop then
    let pt := m.pieceTypeDropped
    if pt ≤ 15 ∧ ptToHand pt < 7 ∧ (p.hand us).has (ptToHand pt) = false then some false else none
  else if p.piece (sqN m.src) ≠ mkPiece us m.pieceTypeFrom then some false else none

/-- `__Board::moveIsLegal`, Python `is_legal` (src/cshogi.h:254-260). -/
def isLegal (p : Position) (m : Move) : Option Bool :=
  (p.moveIsPseudoLegal m).map fun b => b && p.pseudoLegalMoveIsLegal m p.pinnedBB

end Position
end Verif
