import Verif.Model.MateSearch

/-!
# The df-pn mate search (dfpn.cpp, dfpn.h), behind Python `DfPn`

The transposition table is a function from board keys to the entries of a cluster in the order of their creation; a reference to an
entry is its key and its place in the cluster. (`tt` is a `std::unordered_map` of vectors of owning pointers: references stay valid.)

As in `MateSearch.lean`, the position is passed along and returned; `none` marks an undefined step or a search that has not ended
within the allowed number of nested calls and rounds (`fuel`).

Simplified:
* Proof and disproof numbers are integers; sums of more than 2 ^ 31 are out of reach.
* The flag `stop`, which another thread may set, is a function of the number of searched nodes.
* While the children of a node are read, the code keeps its intermediate results in the entry of the node. The model writes the entry
  when all children have been read. This makes a difference only if a position and its successor have the same board key.
-/

namespace Verif

namespace Hand
/-- `Hand::exists<HP>()` as the masked value (src/hand.hpp:57-66). -/
def field (h : Hand) (hp : HandPiece) : BitVec 32 := h &&& mask hp

/-- The mask of the kinds the opponent does not hold, in `Hand::setPP` (src/hand.hpp:95-102). -/
def absentMask (them : Hand) : BitVec 32 :=
  (if them.has 0 then 0#32 else mask 0) ||| (if them.has 1 then 0#32 else mask 1) ||| (if them.has 2 then 0#32 else mask 2) |||
  (if them.has 3 then 0#32 else mask 3) ||| (if them.has 4 then 0#32 else mask 4) ||| (if them.has 5 then 0#32 else mask 5) |||
  (if them.has 6 then 0#32 else mask 6)

/-- `Hand::setPP` (src/hand.hpp:94-109). -/
def setPP (h us them : Hand) : Hand := (h &&& ~~~absentMask them) ||| (us &&& absentMask them)

/-- The bitwise union of seven fields, `pawn | lance | knight | silver | gold | bishop | rook`. -/
def join (f : HandPiece → BitVec 32) : Hand := f 0 ||| f 1 ||| f 2 ||| f 3 ||| f 4 ||| f 5 ||| f 6

/-- One summand of `dp` (src/dfpn.cpp:201-207). -/
def dpField (us them : Hand) (hp : HandPiece) : BitVec 32 := if us.has hp then us.field hp + them.field hp else 0#32

/-- `dp(us, them)` (src/dfpn.cpp:198-209). -/
def dp (us them : Hand) : Hand :=
  dpField us them 0 + dpField us them 1 + dpField us them 2 + dpField us them 3 + dpField us them 4 + dpField us them 5 + dpField us them 6
end Hand

namespace Dfpn
open Position

/-- `REPEAT` (src/dfpn.cpp:11). -/
def repeatMark : Nat := 4294967294

/-- `kInfinitePnDn` (src/dfpn.cpp:163). -/
def inf : Int := 100000000

/-- `TTEntry` (src/dfpn.h:8-14). -/
structure Entry where
  hand : Hand
  pn : Int
  dn : Int
  depth : Nat
  num : Nat
  deriving DecidableEq

/-- A new entry (src/dfpn.cpp:117). -/
def Entry.fresh (hand : Hand) (depth : Nat) : Entry := ⟨hand, 1, 1, depth, 0⟩

/-- `TranspositionTable::tt` (src/dfpn.h:37). -/
abbrev Table := BitVec 64 → List Entry

/-- `tt.clear()` (src/dfpn.cpp:159-161). -/
def Table.empty : Table := fun _ => []

/-- A reference to an entry. -/
structure Ref where
  key : BitVec 64
  idx : Nat
  deriving DecidableEq

def Table.get (T : Table) (r : Ref) : Entry := (T r.key)[r.idx]?.getD (.fresh 0#32 0)

/-- Assigning to an entry. -/
def Table.put (T : Table) (r : Ref) (e : Entry) : Table := fun k => if k = r.key then (T k).set r.idx e else T k

/-- An entry is used for another hand by the superiority rule (src/dfpn.cpp:83-92, 97-106). -/
def Entry.serves (e : Entry) (hand : Hand) : Bool :=
  if e.pn = 0 then hand.isEqualOrSuperior e.hand && e.num != repeatMark
  else if e.dn = 0 then e.hand.isEqualOrSuperior hand && e.num != repeatMark
  else false

/-- The inner loop of `LookUpDirect` (src/dfpn.cpp:81-93): the place of the first such entry. -/
def findRest (hand : Hand) : List Entry → Nat → Option Nat
  | [], _ => none
  | e :: l, i => if e.serves hand then some i else findRest hand l (i + 1)

/-- The loop of `LookUpDirect` (src/dfpn.cpp:75-113). The maxima `max_pn` and `max_dn` are never used. -/
def find (hand : Hand) (depth : Nat) : List Entry → Nat → Option Nat
  | [], _ => none
  | e :: l, i =>
    if hand = e.hand ∧ depth = e.depth then some ((findRest hand l (i + 1)).getD i)
    else if e.serves hand then some i
    else find hand depth l (i + 1)

/-- `LookUpDirect` (src/dfpn.cpp:71-119). -/
def Table.look (T : Table) (key : BitVec 64) (hand : Hand) (depth : Nat) : Table × Ref :=
  match find hand depth (T key) 0 with
  | some i => (T, ⟨key, i⟩)
  | none => (fun k => if k = key then T k ++ [.fresh hand depth] else T k, ⟨key, (T key).length⟩)

/-- The hand of the attacking side. -/
def attHand (orNode : Bool) (p : Position) : Hand := p.hand (if orNode then p.turn else p.turn.opp)

/-- `gamePly()` as `uint16_t`. -/
def depthOf (ply : Int) : Nat := (ply % 65536).toNat

/-- `LookUp<or_node>(n)` (src/dfpn.cpp:121-124). -/
def Table.node (T : Table) (orNode : Bool) (p : Position) : Table × Ref := T.look p.st.boardKey (attHand orNode p) (depthOf p.gamePly)

/-- The hand after a move, in `GetChildFirstEntry` (src/dfpn.cpp:129-145). -/
def childHand (orNode : Bool) (p : Position) (m : Move) : Hand :=
  if orNode then
    if m.isDrop then (p.hand p.turn).minusOne m.handPieceDropped
    else if p.piece (sqN m.dst) ≠ 0 then (p.hand p.turn).plusOne (ptToHand (pieceType (p.piece (sqN m.dst))))
    else p.hand p.turn
  else p.hand p.turn.opp

/-- `GetChildFirstEntry` (src/dfpn.cpp:126-148): a move with the key and the hand of the position after it. -/
structure Child where
  move : Move
  key : BitVec 64
  hand : Hand

def child (Z : Zobrist) (orNode : Bool) (p : Position) (m : Move) : Child := ⟨m, getBoardKeyAfter Z p m, childHand orNode p m⟩

/-- `LookUpDirect(*ttkey.entries, ttkey.hand, n.gamePly() + 1)` (src/dfpn.cpp:534, 655), also `LookUpChildEntry` (151-157). -/
def Table.child (T : Table) (p : Position) (c : Child) : Table × Ref := T.look c.key c.hand (depthOf (p.gamePly + 1))

/-- `MovePicker<or_node>` (src/dfpn.cpp:24-63), the same as the one of mate.cpp. -/
def picker (orNode : Bool) (p : Position) : Option (List Move) := if orNode then orPicker p p.inCheck else andPicker p

/-- `moveGivesNeighborCheck` (src/dfpn.cpp:165-196). -/
def neighborCheck (p : Position) (m : Move) : Option Bool :=
  let them := p.turn.opp
  (p.kingSquare them).map fun ksq =>
    let to := sqN m.dst
    match m.pieceTypeTo with
    | 1 => (pawnAttack them ksq).isSet to
    | 2 => (pawnAttack them ksq).isSet to
    | 3 => (knightAttack them ksq).isSet to
    | 4 => (silverAttack them ksq).isSet to
    | 5 => (bishopAttack ksq Bitboard.allOne).isSet to
    | 6 => (rookAttack ksq Bitboard.allOne).isSet to
    | 13 => (kingAttack ksq).isSet to
    | 14 => (kingAttack ksq).isSet to
    | 8 => false
    | _ => (goldAttack them ksq).isSet to

/-- The pieces in hand needed for a mating move (src/dfpn.cpp:287-296, 377-387). -/
def mateHand (p : Position) (m : Move) : Option Hand :=
  let h := if m.isDrop then Hand.empty.plusOne m.handPieceDropped else Hand.empty
  (neighborCheck p m).map fun near => if near then h else h.setPP (p.hand p.turn) (p.hand p.turn.opp)

/-! ### Fixed-depth searches at new nodes -/

/-- The replies in the three-ply search (src/dfpn.cpp:311-334). -/
def replies3 (Z : Zobrist) : List Move → Position → Table → Option (Bool × Position × Table)
  | [], p, T => some (true, p, T)
  | m :: l, p, T =>
    if p.moveGivesCheck m then some (false, p, T)
    else (doMoveGC Z p m false).bind fun p' => p'.mateMoveIn1Ply.bind fun r =>
      if r = 0#32 then (undoMove p' m).map fun p => (false, p, T)
      else
        let T' := (T.node true p').1
        let e1 := (T.node true p').2
        (undoMove p' m).bind fun p => replies3 Z l p (T'.put e1 { T'.get e1 with pn := 0, dn := inf + 2 })

/-- The three-ply search at an OR node with entry `r` (src/dfpn.cpp:251-355). The answer tells whether the node is proved. -/
def checks3 (Z : Zobrist) (maxDepth : Int) (r : Ref) : List Move → Position → Table → Option (Bool × Position × Table)
  | [], p, T => some (false, p, T)
  | m :: l, p, T =>
    (doMoveGC Z p m true).bind fun p' => (p'.isDraw 16).bind fun d =>
      if d = .win then (undoMove p' m).bind fun p => checks3 Z maxDepth r l p T
      else
        let T' := (T.node false p').1
        let e2 := (T.node false p').2
        (andPicker p').bind fun l2 =>
          if l2.isEmpty then
            (undoMove p' m).bind fun p => (mateHand p m).map fun h =>
              let T' := T'.put e2 { T'.get e2 with pn := 0, dn := inf + 1 }
              (true, p, T'.put r { T'.get r with pn := 0, dn := inf, hand := h })
          else if maxDepth < p'.gamePly + 2 then
            (undoMove p' m).bind fun p =>
              checks3 Z maxDepth r l p (T'.put e2 { T'.get e2 with pn := inf, dn := 0, num := repeatMark })
          else
            (replies3 Z l2 p' T').bind fun res => (undoMove res.2.1 m).bind fun p =>
              let T' := res.2.2
              if res.1 then
                let T' := T'.put e2 { T'.get e2 with pn := 0, dn := inf }
                some (true, p, T'.put r { T'.get r with pn := 0, dn := inf })
              else
                checks3 Z maxDepth r l p
                  (if (T'.get e2).num = 0 then T'.put e2 { T'.get e2 with num := 1, pn := l2.length, dn := l2.length } else T')

/-- The hand for a node from which a reply leads to a position without checks (src/dfpn.cpp:406-425). -/
def refuteHand (p : Position) (m : Move) (own child : Hand) : Hand :=
  if m.isDrop then child.minusOne m.handPieceDropped
  else if p.piece (sqN m.dst) ≠ 0 then
    let hp := ptToHand (pieceType (p.piece (sqN m.dst)))
    if child.numOf hp < own.numOf hp then child.plusOne hp else own
  else own

/-- The two-ply search at an AND node with entry `r` (src/dfpn.cpp:358-437). The answer tells whether the node is settled. -/
def replies2 (Z : Zobrist) (r : Ref) : List Move → Position → Table → Option (Bool × Position × Table)
  | [], p, T => some (true, p, T.put r { T.get r with pn := 0, dn := inf })
  | m :: l, p, T =>
    if p.moveGivesCheck m then some (false, p, T)
    else (doMoveGC Z p m false).bind fun p' => p'.mateMoveIn1Ply.bind fun mate =>
      if mate = 0#32 then
        (orPicker p' p'.inCheck).bind fun l2 =>
          if l2.isEmpty then
            let T' := (T.node true p').1
            let e1 := (T.node true p').2
            let h := Hand.dp (p'.hand p'.turn) (p'.hand p'.turn.opp)
            let T' := T'.put e1 { T'.get e1 with pn := inf, dn := 0, hand := h }
            (undoMove p' m).map fun p =>
              (true, p, T'.put r { T'.get r with pn := inf, dn := 0, hand := refuteHand p m (T'.get r).hand h })
          else (undoMove p' m).map fun p => (false, p, T)
      else
        let T' := (T.node true p').1
        let e1 := (T.node true p').2
        (mateHand p' mate).bind fun h => (undoMove p' m).bind fun p =>
          replies2 Z r l p (T'.put e1 { T'.get e1 with pn := 0, dn := inf + 2, hand := h })

/-! ### The general search -/

/-- The `switch` on repetitions (src/dfpn.cpp:442-493): the numbers the node gets, if it is settled. -/
def verdict (orNode : Bool) : Repetition → Option (Int × Int)
  | .win => some (if orNode then (0, inf) else (inf, 0))
  | .lose => some (if orNode then (inf, 0) else (0, inf))
  | .draw => some (inf, 0)
  | .superior => if orNode then none else some (inf, 0)
  | .none => none
  | .inferior => none

/-- What is gathered while the children are read. -/
structure Acc where
  /-- the entry of the node -/
  e : Entry
  /-- minimum or maximum of the children's hands, kind by kind -/
  hands : HandPiece → BitVec 32
  /-- `repeat` (OR nodes), `all_mate` (AND nodes) -/
  flag : Bool
  /-- `best_pn`, `second_best_pn`, `best_dn` (OR nodes); `best_dn`, `second_best_dn`, `best_pn` (AND nodes) -/
  best : Int
  second : Int
  other : Int
  bestNum : Nat
  move : Option Move

/-- The proof hand of an OR node with a proved child (src/dfpn.cpp:543-560). -/
def orHand (p : Position) (m : Move) (own child : Hand) : Hand :=
  if m.isDrop then
    if child.numOf m.handPieceDropped < own.numOf m.handPieceDropped then child.plusOne m.handPieceDropped else own
  else if p.piece (sqN m.dst) ≠ 0 then
    let hp := ptToHand (pieceType (p.piece (sqN m.dst)))
    if child.has hp then child.minusOne hp else child
  else own

/-- The children of an OR node (src/dfpn.cpp:532-608). -/
def scanOr (p : Position) : List Child → Table → Acc → Table × Acc
  | [], T, a => (T, a)
  | c :: l, T, a =>
    let T' := (T.child p c).1
    let ce := T'.get (T.child p c).2
    if ce.pn = 0 then (T', { a with e := { a.e with pn := 0, dn := inf, hand := orHand p c.move a.e.hand ce.hand } })
    else
      scanOr p l T'
        { e := { a.e with pn := min a.e.pn ce.pn, dn := a.e.dn + ce.dn }
          hands := if a.e.dn = 0 ∧ ce.dn = 0 then fun hp => if ce.hand.field hp < a.hands hp then ce.hand.field hp else a.hands hp else a.hands
          flag := a.flag || (decide (ce.dn = 0) && decide (ce.num = repeatMark))
          best := if ce.pn < a.best ∨ ce.pn = a.best ∧ ce.num < a.bestNum then ce.pn else a.best
          second := if ce.pn < a.best ∨ ce.pn = a.best ∧ ce.num < a.bestNum then a.best
            else if ce.pn < a.second then ce.pn else a.second
          other := if ce.pn < a.best ∨ ce.pn = a.best ∧ ce.num < a.bestNum then ce.dn else a.other
          bestNum := if ce.pn < a.best ∨ ce.pn = a.best ∧ ce.num < a.bestNum then ce.num else a.bestNum
          move := if ce.pn < a.best ∨ ce.pn = a.best ∧ ce.num < a.bestNum then some c.move else a.move }

/-- The disproof hand of an OR node (src/dfpn.cpp:617-626). -/
def orField (own : Hand) (f : HandPiece → BitVec 32) (hp : HandPiece) : BitVec 32 :=
  if own.field hp = 0#32 then 0#32 else if f hp < own.field hp then own.field hp else f hp

/-- After the children of an OR node (src/dfpn.cpp:609-633). -/
def closeOr (a : Acc) : Entry :=
  let e := { a.e with dn := min a.e.dn inf }
  if e.dn = 0 then
    if a.flag then { e with num := repeatMark } else { e with hand := Hand.join (orField e.hand a.hands) }
  else e

/-- The disproof hand of an AND node with a disproved child (src/dfpn.cpp:691-713). -/
def andHand (p : Position) (m : Move) (own child : Hand) : Hand :=
  if m.isDrop then
    if own.numOf m.handPieceDropped < child.numOf m.handPieceDropped then child.minusOne m.handPieceDropped else own
  else if p.piece (sqN m.dst) ≠ 0 then
    let hp := ptToHand (pieceType (p.piece (sqN m.dst)))
    if child.numOf hp < own.numOf hp then child.plusOne hp else own
  else own

/-- The children of an AND node (src/dfpn.cpp:653-729). -/
def scanAnd (p : Position) : List Child → Table → Acc → Table × Acc
  | [], T, a => (T, a)
  | c :: l, T, a =>
    let T' := (T.child p c).1
    let ce := T'.get (T.child p c).2
    let hands := if a.flag ∧ ce.pn = 0 then fun hp => if a.hands hp < ce.hand.field hp then ce.hand.field hp else a.hands hp else a.hands
    let flag := a.flag && decide (ce.pn = 0)
    if ce.dn = 0 then
      (T', { a with
        hands := hands
        flag := flag
        e := if ce.num = repeatMark then { a.e with pn := inf, dn := 0, num := repeatMark }
          else { a.e with pn := inf, dn := 0, hand := andHand p c.move a.e.hand ce.hand } })
    else
      scanAnd p l T'
        { e := { a.e with pn := a.e.pn + ce.pn, dn := min a.e.dn ce.dn }
          hands := hands
          flag := flag
          best := if ce.dn < a.best ∨ ce.dn = a.best ∧ ce.num < a.bestNum then ce.dn else a.best
          second := if ce.dn < a.best ∨ ce.dn = a.best ∧ ce.num < a.bestNum then a.best
            else if ce.dn < a.second then ce.dn else a.second
          other := if ce.dn < a.best ∨ ce.dn = a.best ∧ ce.num < a.bestNum then ce.pn else a.other
          bestNum := a.bestNum
          move := if ce.dn < a.best ∨ ce.dn = a.best ∧ ce.num < a.bestNum then some c.move else a.move }

/-- `checkersBB() & attacksFrom<King>(ksq) || checkersBB() & attacksFrom<Knight>(turn, ksq)` (src/dfpn.cpp:746). -/
def contactCheck (p : Position) : Option Bool :=
  (p.kingSquare p.turn).map fun ksq =>
    (p.st.checkersBB &&& kingAttack ksq).isAny || (p.st.checkersBB &&& knightAttack p.turn ksq).isAny

/-- The proof hand of an AND node (src/dfpn.cpp:736-743). -/
def andField (own : Hand) (f : HandPiece → BitVec 32) (hp : HandPiece) : BitVec 32 :=
  if own.field hp < f hp then own.field hp else f hp

/-- After the children of an AND node (src/dfpn.cpp:730-753). -/
def closeAnd (p : Position) (a : Acc) : Option Entry :=
  let e := { a.e with pn := min a.e.pn inf }
  if e.pn = 0 then
    (contactCheck p).map fun near =>
      let h := Hand.join (andField e.hand a.hands)
      { e with hand := if near then h else h.setPP (p.hand p.turn.opp) (p.hand p.turn) }
  else some e

/-- The start of a round (src/dfpn.cpp:507, 515-531, 636-652): the entry with its counter raised, and fresh minima or maxima. -/
def startAcc (orNode : Bool) (e : Entry) : Acc :=
  { e := { e with
      num := (e.num + 1) % 4294967296
      pn := if orNode then inf else 0
      dn := if orNode then 0 else inf }
    hands := fun _ => if orNode then 0xffffffff#32 else 0#32
    flag := !orNode
    best := inf
    second := inf
    other := 0
    bestNum := 4294967295
    move := none }

/-- Reading the children (src/dfpn.cpp:513-754). -/
def scan (orNode : Bool) (p : Position) (cs : List Child) (T : Table) (e : Entry) : Option (Table × Acc × Entry) :=
  if orNode then
    let r := scanOr p cs T (startAcc true e)
    some (r.1, r.2, closeOr r.2)
  else
    let r := scanAnd p cs T (startAcc false e)
    (closeAnd p r.2).map fun e => (r.1, r.2, e)

/-- `thpn_child` (src/dfpn.cpp:631, 751). -/
def thpnChild (orNode : Bool) (thpn : Int) (e : Entry) (a : Acc) : Int :=
  if orNode then min thpn (a.second + 1) else min (thpn - e.pn + a.other) inf

/-- `thdn_child` (src/dfpn.cpp:632, 752). -/
def thdnChild (orNode : Bool) (thdn : Int) (e : Entry) (a : Acc) : Int :=
  if orNode then min (thdn - e.dn + a.other) inf else min thdn (a.second + 1)

/-- The limits of a search: `maxDepth`, `maxSearchNode`, `stop`. -/
structure Limits where
  maxDepth : Int
  maxNode : Nat
  stop : Nat → Bool

/-- What a search works on: the position, the table, `searchedNode`. -/
structure State where
  pos : Position
  tt : Table
  nodes : Nat

/-- The type of `dfpn_inner`: `orNode`, `thpn`, `thdn`. -/
abbrev Inner := Bool → Int → Int → State → Option State

/-- The rounds at a node with entry `r` and children `cs` (src/dfpn.cpp:495-768), at most `fuel` of them. -/
def rounds (Z : Zobrist) (L : Limits) (inner : Inner) (orNode : Bool) (r : Ref) (cs : List Child) (thpn thdn : Int) :
    Nat → State → Option State
  | 0, _ => none
  | fuel + 1, s =>
    if s.nodes < L.maxNode ∧ L.stop s.nodes = false then
      (scan orNode s.pos cs s.tt (s.tt.get r)).bind fun res =>
        let T := res.1.put r res.2.2
        if thpn ≤ res.2.2.pn ∨ thdn ≤ res.2.2.dn then some { s with tt := T }
        else res.2.1.move.bind fun m => (doMove Z s.pos m).bind fun p' =>
          (inner (!orNode) (thpnChild orNode thpn res.2.2 res.2.1) (thdnChild orNode thdn res.2.2 res.2.1)
            ⟨p', T, (s.nodes + 1) % 4294967296⟩).bind fun s' =>
          (undoMove s'.pos m).bind fun p => rounds Z L inner orNode r cs thpn thdn fuel { s' with pos := p }
    else some s

/-- The general part (src/dfpn.cpp:441-768). -/
def general (Z : Zobrist) (L : Limits) (inner : Inner) (fuel : Nat) (orNode : Bool) (r : Ref) (l : List Move) (thpn thdn : Int)
    (s : State) : Option State :=
  (s.pos.isDraw 16).bind fun d =>
    match verdict orNode d with
    | some v => some { s with tt := s.tt.put r { s.tt.get r with pn := v.1, dn := v.2, num := repeatMark } }
    | none => rounds Z L inner orNode r (l.map (child Z orNode s.pos)) thpn thdn fuel s

/-- The fixed-depth search at a new node (src/dfpn.cpp:248-439). -/
def shallow (Z : Zobrist) (L : Limits) (orNode : Bool) (r : Ref) (l : List Move) (p : Position) (T : Table) : Option (Bool × Position × Table) :=
  if (T.get r).num = 0 then
    if orNode then checks3 Z L.maxDepth r l p T else replies2 Z r l p T
  else some (false, p, T)

/-- `dfpn_inner<or_node>` (src/dfpn.cpp:211-769). -/
def inner (Z : Zobrist) (L : Limits) : Nat → Inner
  | 0, _, _, _, _ => none
  | fuel + 1, orNode, thpn, thdn, s =>
    let T := (s.tt.node orNode s.pos).1
    let r := (s.tt.node orNode s.pos).2
    if orNode ∧ L.maxDepth < s.pos.gamePly + 1 then
      some { s with tt := T.put r { T.get r with pn := inf, dn := 0, num := repeatMark } }
    else (picker orNode s.pos).bind fun l =>
      if l.isEmpty then
        some { s with tt := T.put r (if orNode then
          { T.get r with pn := inf, dn := 0, hand := Hand.dp (s.pos.hand s.pos.turn) (s.pos.hand s.pos.turn.opp) }
          else { T.get r with pn := 0, dn := inf }) }
      else (shallow Z L orNode r l s.pos T).bind fun res =>
        if res.1 then some { s with pos := res.2.1, tt := res.2.2 }
        else general Z L (inner Z L fuel) fuel orNode r l thpn thdn { s with pos := res.2.1, tt := res.2.2 }

/-- `std::min(r.gamePly() + kMaxDepth, draw_ply)` as `uint16_t` (src/dfpn.cpp:881, 904). -/
def maxDepthOf (ply depth drawPly : Int) : Int := min (ply + depth) drawPly % 65536

/-- A `DfPn` object: `kMaxDepth`, `draw_ply` (one more than the argument of the constructor), `maxSearchNode`, `stop`. -/
structure Config where
  depth : Int
  drawPly : Int
  maxNode : Nat
  stop : Nat → Bool

def Config.limits (c : Config) (p : Position) : Limits := ⟨maxDepthOf p.gamePly c.depth c.drawPly, c.maxNode, c.stop⟩

/-- `DfPn::dfpn` (src/dfpn.cpp:865-894). -/
def search (Z : Zobrist) (c : Config) (fuel : Nat) (p : Position) : Option (Bool × Position × Table) :=
  let go := (inner Z (c.limits p) fuel true inf inf ⟨p, .empty, 0⟩).map fun s =>
    let R := s.tt.node true s.pos
    (decide ((R.1.get R.2).pn = 0), s.pos, R.1)
  if p.inCheck then go
  else p.mateMoveIn1Ply.bind fun m =>
    if m = 0#32 then go
    else
      let R := Table.empty.child p (child Z true p m)
      some (true, p, R.1.put R.2 { R.1.get R.2 with pn := 0, dn := inf + 1 })

/-- `DfPn::dfpn_andnode`, Python `search_andnode` (src/dfpn.cpp:896-908, src/cshogi.h:886-888). -/
def searchAnd (Z : Zobrist) (c : Config) (fuel : Nat) (p : Position) : Option (Bool × Position × Table) :=
  (inner Z (c.limits p) fuel false inf inf ⟨p, .empty, 0⟩).map fun s =>
    let R := s.tt.node false s.pos
    (decide ((R.1.get R.2).pn = 0), s.pos, R.1)

/-- The loop of `dfpn_move` (src/dfpn.cpp:773-779). -/
def moveLoop (Z : Zobrist) (p : Position) : List Move → Table → Move
  | [], _ => 0#32
  | m :: l, T =>
    let R := T.child p (child Z true p m)
    if (R.1.get R.2).pn = 0 then m else moveLoop Z p l R.1

/-- `DfPn::dfpn_move`, Python `get_move` (src/dfpn.cpp:771-782, src/cshogi.h:892-894). -/
def getMove (Z : Zobrist) (p : Position) (T : Table) : Option Move := (orPicker p p.inCheck).map fun l => moveLoop Z p l T

/-! ### The principal variation -/

/-- What `get_pv_inner` gives: the number of plies (negative if no mate was found), the position and the table it worked on, and the
moves it added to `pv`. -/
structure PvRes where
  depth : Int
  pos : Position
  tt : Table
  pv : List Move

/-- The loop at an OR node (src/dfpn.cpp:788-812); `I` is `get_pv_inner`. -/
def pvOr (Z : Zobrist) (I : Bool → Position → Table → Option PvRes) : List Move → Position → Table → Option PvRes
  | [], p, T => some ⟨-inf, p, T, []⟩
  | m :: l, p, T =>
    let R := T.child p (child Z true p m)
    if (R.1.get R.2).pn = 0 then
      if (R.1.get R.2).dn = inf + 1 then some ⟨1, p, R.1, [m]⟩
      else (doMove Z p m).bind fun p' => (p'.isDraw 256).bind fun d =>
        if d = .none ∨ d = .superior then
          (I false p' R.1).bind fun s => (undoMove s.pos m).map fun p => ⟨s.depth + 1, p, s.tt, m :: s.pv⟩
        else (undoMove p' m).bind fun p => pvOr Z I l p R.1
    else pvOr Z I l p R.1

/-- After a reply with entry `e` (src/dfpn.cpp:826-845). -/
def pvReply (I : Bool → Position → Table → Option PvRes) (e : Entry) (p : Position) (T : Table) : Option PvRes :=
  if e.dn = inf + 2 ∧ p.inCheck = false then
    p.mateMoveIn1Ply.bind fun r => if r ≠ 0#32 then some ⟨1, p, T, [r]⟩ else I true p T
  else I true p T

/-- The loop at an AND node (src/dfpn.cpp:814-857) with `max_depth` and `max_pv`. -/
def pvAnd (Z : Zobrist) (I : Bool → Position → Table → Option PvRes) : List Move → Position → Table → Int → List Move → Option PvRes
  | [], p, T, d, pv => some (if 0 < d then ⟨d + 1, p, T, pv⟩ else ⟨-inf, p, T, []⟩)
  | m :: l, p, T, d, pv =>
    let R := T.child p (child Z false p m)
    if (R.1.get R.2).pn = 0 then
      (doMove Z p m).bind fun p' => (pvReply I (R.1.get R.2) p' R.1).bind fun s => (undoMove s.pos m).bind fun p =>
        if d < s.depth then pvAnd Z I l p s.tt s.depth (m :: s.pv) else pvAnd Z I l p s.tt d pv
    else pvAnd Z I l p R.1 d pv

/-- `get_pv_inner<or_node>` (src/dfpn.cpp:784-858), with at most `fuel` nested calls. -/
def pvInner (Z : Zobrist) : Nat → Bool → Position → Table → Option PvRes
  | 0, _, _, _ => none
  | fuel + 1, orNode, p, T => (picker orNode p).bind fun l =>
    if orNode then pvOr Z (pvInner Z fuel) l p T else pvAnd Z (pvInner Z fuel) l p T 0 []

/-- `DfPn::get_pv`, Python `get_pv` (src/dfpn.cpp:861-863, src/cshogi.h:895-898). -/
def getPv (Z : Zobrist) (fuel : Nat) (p : Position) (T : Table) : Option PvRes := pvInner Z fuel true p T

/-- Python `search` (src/cshogi.h:878-885): the answer, and the position, the table and `pv` afterwards. -/
def pySearch (Z : Zobrist) (c : Config) (fuel : Nat) (p : Position) : Option (Bool × PvRes) :=
  (search Z c fuel p).bind fun r =>
    if r.1 then (getPv Z fuel r.2.1 r.2.2).map fun s => (true, s) else some (false, ⟨0, r.2.1, r.2.2, []⟩)

end Dfpn
end Verif
