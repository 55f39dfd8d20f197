import Verif.Model.Bitboard

/-!
# Attack tables and sliding attacks (bitboard.hpp, init.cpp, square.hpp)

The tables filled by `initTable` (src/init.cpp:453-471) are modelled as functions that return the value stored at an
index by the initialisation loops; the loops over the indices themselves are not modelled. The order of
initialisation is respected: every function only uses functions of tables that are filled earlier.
-/

namespace Verif

open Bitboard

/-- `makeSquare(f, r)` (src/square.hpp:129-131) on numbers. Only used with file and rank below 9, where no
wrap-around happens. -/
def sqOf (f r : Nat) : Square := Fin.ofNat 81 (f * 9 + r)

/-- A square held as a number (`enum Square` values, src/square.hpp:33-45). Only used below 81. -/
def sqN (n : Nat) : Square := Fin.ofNat 81 n

/-! ### Lance -/

/-- `lanceBlockMask` (src/init.cpp:31-33). -/
def lanceBlockMask (s : Square) : Bitboard := squareFileMask s &&& ~~~(rankMask 8 ||| rankMask 0)

/-- Upward loop of `lanceAttackCalc` (src/init.cpp:41-47); `r` is the current `rank`. -/
def lanceUp (f : Nat) (occ : Bitboard) : Nat → Bitboard → Bitboard
  | 0, bb => bb
  | r + 1, bb =>
    let sq := sqOf f r
    let bb := bb ||| setMask sq
    if occ.isSet sq then bb else lanceUp f occ r bb

/-- Downward loop of `lanceAttackCalc` (src/init.cpp:49-55); `n` is `8 - rank`, the number of ranks below. -/
def lanceDown (f : Nat) (occ : Bitboard) : Nat → Bitboard → Bitboard
  | 0, bb => bb
  | n + 1, bb =>
    let sq := sqOf f (8 - n)
    let bb := bb ||| setMask sq
    if occ.isSet sq then bb else lanceDown f occ n bb

/-- `lanceAttackCalc` (src/init.cpp:37-58). -/
def lanceAttackCalc (c : Color) (s : Square) (occ : Bitboard) : Bitboard :=
  lanceDown (file s) occ (8 - rank s) (lanceUp (file s) occ (rank s) zero) &&& inFrontMask c (rank s)

/-- Loop of `indexToOccupied` (src/init.cpp:69-73); `n` rounds left, round number `i`. -/
def indexToOccupiedLoop (index : Nat) : Nat → Nat → Bitboard → Bitboard → Bitboard
  | 0, _, _, result => result
  | n + 1, i, mask, result =>
    let sq := sqN mask.popFirst.1
    indexToOccupiedLoop index n (i + 1) mask.popFirst.2 (if index.testBit i then result.setBit sq else result)

/-- `indexToOccupied` (src/init.cpp:66-75). -/
def indexToOccupied (index bits : Nat) (blockMask : Bitboard) : Bitboard :=
  indexToOccupiedLoop index bits 0 blockMask zero

/-- `LanceAttack[c][sq][i]` as filled by `initLanceAttacks` (src/init.cpp:78-91). -/
def lanceTable (c : Color) (s : Square) (i : Nat) : Bitboard :=
  lanceAttackCalc c s (indexToOccupied i 7 (lanceBlockMask s))

/-- `Slide` (src/bitboard.hpp:455-465): 1, 10, .., 55 for files 1..7, then 1 and 10 again. -/
def slide (s : Square) : Nat := if file s < 7 then file s * 9 + 1 else (file s - 7) * 9 + 1

/-- `Bitboard::part` (src/bitboard.hpp:283) and `p(part)`. -/
def word (b : Bitboard) (s : Square) : BitVec 64 := if 62 < s.val then b.p1 else b.p0

/-- The table index `(occupied.p(part) >> Slide[sq]) & 127` (src/bitboard.hpp:607-608, 613-614). -/
def lanceIndex (s : Square) (occ : Bitboard) : Nat := ((word occ s >>> slide s) &&& 127#64).toNat

/-- `lanceAttack` (src/bitboard.hpp:606-610). -/
def lanceAttack (c : Color) (s : Square) (occ : Bitboard) : Bitboard := lanceTable c s (lanceIndex s occ)

/-- `rookAttackFile` (src/bitboard.hpp:612-616). -/
def rookAttackFile (s : Square) (occ : Bitboard) : Bitboard :=
  lanceTable .black s (lanceIndex s occ) ||| lanceTable .white s (lanceIndex s occ)

/-! ### Rook along the rank -/

/-- Squares to the left (src/init.cpp:99-100) and right (src/init.cpp:103-104) of a square on its rank, OR-ed. -/
def rookLeft (s : Square) : Bitboard :=
  (List.range (8 - file s)).foldl (fun bb i => bb ||| setMask (sqOf (file s + 1 + i) (rank s))) zero
/-- See `rookLeft`; the files are visited downwards (src/init.cpp:103-104). -/
def rookRight (s : Square) : Bitboard :=
  (List.range (file s)).foldl (fun bb i => bb ||| setMask (sqOf (file s - 1 - i) (rank s))) zero

/-- `RookAttackRankToMask[sq]` (src/init.cpp:93-115): `(mask_hi, mask_lo)`. -/
def rookRankMask (s : Square) : Bitboard × Bitboard := unpack (rookRight s).byteReverse (rookLeft s)

/-- `rookAttackRank` (src/bitboard.hpp:619-649). -/
def rookAttackRank (s : Square) (occ : Bitboard) : Bitboard :=
  let maskHi := (rookRankMask s).1
  let maskLo := (rookRankMask s).2
  let rocc := occ.byteReverse
  let hl := unpack rocc occ
  let hi := hl.1 &&& maskHi
  let lo := hl.2 &&& maskLo
  let t := decrement hi lo
  let t1 := (t.1 ^^^ hi) &&& maskHi
  let t0 := (t.2 ^^^ lo) &&& maskLo
  let r := unpack t1 t0
  r.1.byteReverse ||| r.2

/-- `rookAttack` (src/bitboard.hpp:650-652). -/
def rookAttack (s : Square) (occ : Bitboard) : Bitboard := rookAttackRank s occ ||| rookAttackFile s occ

/-! ### Bishop -/

/-- `class Bitboard256` (src/bitboard.hpp:303-445): four words `p_[0] .. p_[3]`. -/
structure Bitboard256 where
  p0 : BitVec 64
  p1 : BitVec 64
  p2 : BitVec 64
  p3 : BitVec 64
  deriving DecidableEq

namespace Bitboard256

/-- `Bitboard256(b1, b2)` (src/bitboard.hpp:313-321). -/
def pair (a b : Bitboard) : Bitboard256 := ⟨a.p0, a.p1, b.p0, b.p1⟩
/-- `Bitboard256(b1)` (src/bitboard.hpp:311, 322). -/
def dup (a : Bitboard) : Bitboard256 := ⟨a.p0, a.p1, a.p0, a.p1⟩

/-- `operator &` (src/bitboard.hpp:324-334). -/
instance : AndOp Bitboard256 := ⟨fun a b => ⟨a.p0 &&& b.p0, a.p1 &&& b.p1, a.p2 &&& b.p2, a.p3 &&& b.p3⟩⟩
/-- `operator |` (src/bitboard.hpp:335-345). -/
instance : OrOp Bitboard256 := ⟨fun a b => ⟨a.p0 ||| b.p0, a.p1 ||| b.p1, a.p2 ||| b.p2, a.p3 ||| b.p3⟩⟩
/-- `operator ^` (src/bitboard.hpp:346-356). -/
instance : XorOp Bitboard256 := ⟨fun a b => ⟨a.p0 ^^^ b.p0, a.p1 ^^^ b.p1, a.p2 ^^^ b.p2, a.p3 ^^^ b.p3⟩⟩

/-- `byteReverse` (src/bitboard.hpp:362-378). With AVX2 (`avx = true`) each 128-bit lane is reversed in place; the
portable text also swaps the two lanes. -/
def byteReverse (avx : Bool) (a : Bitboard256) : Bitboard256 :=
  if avx then ⟨bswap64 a.p1, bswap64 a.p0, bswap64 a.p3, bswap64 a.p2⟩
  else ⟨bswap64 a.p3, bswap64 a.p2, bswap64 a.p1, bswap64 a.p0⟩

/-- `merge` (src/bitboard.hpp:380-392). -/
def merge (a : Bitboard256) : Bitboard := ⟨a.p0 ||| a.p2, a.p1 ||| a.p3⟩

/-- `unpack` (src/bitboard.hpp:394-409): `(hiOut, loOut)`. -/
def unpack (hiIn loIn : Bitboard256) : Bitboard256 × Bitboard256 :=
  (⟨loIn.p1, hiIn.p1, loIn.p3, hiIn.p3⟩, ⟨loIn.p0, hiIn.p0, loIn.p2, hiIn.p2⟩)

/-- The borrow `(lo == 0)` (src/bitboard.hpp:424-427). -/
def borrow (x : BitVec 64) : BitVec 64 := if x = 0#64 then 1#64 else 0#64

/-- `decrement` (src/bitboard.hpp:412-434): `(hiOut, loOut)`. -/
def decrement (hiIn loIn : Bitboard256) : Bitboard256 × Bitboard256 :=
  (⟨hiIn.p0 - borrow loIn.p0, hiIn.p1 - borrow loIn.p1, hiIn.p2 - borrow loIn.p2, hiIn.p3 - borrow loIn.p3⟩,
   ⟨loIn.p0 - 1#64, loIn.p1 - 1#64, loIn.p2 - 1#64, loIn.p3 - 1#64⟩)

end Bitboard256

/-- The walk of `initBishopAttacks` (src/init.cpp:136-147) in one of the four diagonal directions: `west` says
whether the file grows, `north` whether the rank shrinks. `fuel` bounds the rounds; a walk has at most 8. -/
def bishopWalk (west north : Bool) : Nat → Nat → Bitboard → Bitboard
  | 0, _, bb => bb
  | fuel + 1, sq, bb =>
    if north && sq % 9 == 0 then bb
    else if !north && sq % 9 == 8 then bb
    else if west && sq / 9 == 8 then bb
    else if !west && sq / 9 == 0 then bb
    else
      let sq := (if west then sq + 9 else sq - 9)
      let sq := (if north then sq - 1 else sq + 1)
      bishopWalk west north fuel sq (bb ||| setMask (sqN sq))

/-- `bishopToBB[i]` before the byte reversal (src/init.cpp:128-150). -/
def bishopDiag (west north : Bool) (s : Square) : Bitboard := bishopWalk west north 9 s.val zero

/-- `BishopAttackToMask[sq][0]` (src/init.cpp:154-163). -/
def bishopMaskLo (s : Square) : Bitboard256 :=
  .pair ⟨(bishopDiag true true s).p0, (bishopDiag false true s).byteReverse.p0⟩
        ⟨(bishopDiag true false s).p0, (bishopDiag false false s).byteReverse.p0⟩
/-- `BishopAttackToMask[sq][1]` (src/init.cpp:154-163). -/
def bishopMaskHi (s : Square) : Bitboard256 :=
  .pair ⟨(bishopDiag true true s).p1, (bishopDiag false true s).byteReverse.p1⟩
        ⟨(bishopDiag true false s).p1, (bishopDiag false false s).byteReverse.p1⟩

/-- `bishopAttack` (src/bitboard.hpp:655-683), in the AVX2 (`avx = true`) and the portable variant. -/
def bishopAttackV (avx : Bool) (s : Square) (occ : Bitboard) : Bitboard :=
  let maskLo := bishopMaskLo s
  let maskHi := bishopMaskHi s
  let occ2 := Bitboard256.dup occ
  let rocc2 := Bitboard256.dup occ.byteReverse
  let hl := Bitboard256.unpack rocc2 occ2
  let hi := hl.1 &&& maskHi
  let lo := hl.2 &&& maskLo
  let t := Bitboard256.decrement hi lo
  let t1 := (t.1 ^^^ hi) &&& maskHi
  let t0 := (t.2 ^^^ lo) &&& maskLo
  let r := Bitboard256.unpack t1 t0
  (r.1.byteReverse avx ||| r.2).merge

/-- `bishopAttack` as built by setup.py (AVX2). -/
def bishopAttack (s : Square) (occ : Bitboard) : Bitboard := bishopAttackV true s occ

/-! ### Step tables -/

/-- `KingAttack` (src/init.cpp:167-170). -/
def kingAttack (s : Square) : Bitboard := rookAttack s allOne ||| bishopAttack s allOne
/-- `GoldAttack` (src/init.cpp:172-176). -/
def goldAttack (c : Color) (s : Square) : Bitboard := (kingAttack s &&& inFrontMask c (rank s)) ||| rookAttack s allOne
/-- `SilverAttack` (src/init.cpp:178-182). -/
def silverAttack (c : Color) (s : Square) : Bitboard :=
  (kingAttack s &&& inFrontMask c (rank s)) ||| bishopAttack s allOne
/-- `PawnAttack` (src/init.cpp:195-199). -/
def pawnAttack (c : Color) (s : Square) : Bitboard := silverAttack c s ^^^ bishopAttack s allOne
/-- `bishopStepAttacks` (src/bitboard.hpp:719). -/
def bishopStepAttacks (s : Square) : Bitboard := silverAttack .black s &&& silverAttack .white s
/-- `rookStepAttacks` (src/bitboard.hpp:717). -/
def rookStepAttacks (s : Square) : Bitboard := goldAttack .black s &&& goldAttack .white s
/-- `goldAndSilverAttacks` (src/bitboard.hpp:721). -/
def goldAndSilverAttacks (c : Color) (s : Square) : Bitboard := goldAttack c s &&& silverAttack c s
/-- `KnightAttack` (src/init.cpp:184-193). -/
def knightAttack (c : Color) (s : Square) : Bitboard :=
  let bb := pawnAttack c s
  if bb.isAny then bishopStepAttacks (sqN bb.first) &&& inFrontMask c (rank s) else zero

/-- `dragonAttack` (src/bitboard.hpp:696). -/
def dragonAttack (s : Square) (occ : Bitboard) : Bitboard := rookAttack s occ ||| kingAttack s
/-- `horseAttack` (src/bitboard.hpp:697). -/
def horseAttack (s : Square) (occ : Bitboard) : Bitboard := bishopAttack s occ ||| kingAttack s
/-- `queenAttack` (src/bitboard.hpp:698). -/
def queenAttack (s : Square) (occ : Bitboard) : Bitboard := rookAttack s occ ||| bishopAttack s occ

/-- `pawnAttack(c, Bitboard)` (src/bitboard.hpp:693-694): shift of a whole board of pawns. -/
def pawnAttackBB (c : Color) (b : Bitboard) : Bitboard := match c with | .black => b.shr 1 | .white => b.shl 1

/-! ### Relations between squares -/

/-- `enum Direction` (src/square.hpp:170-178): Misc 0, File 2, Rank 3, NESW 4, NWSE 5, as filled into
`SquareRelation` by `initSquareRelation` (src/init.cpp:201-221). -/
def squareRelation (s t : Square) : Nat :=
  if s = t then 0
  else if file s = file t then 2
  else if rank s = rank t then 3
  else if (rank s : Int) - rank t = (file s : Int) - file t then 4
  else if (rank s : Int) - rank t = (file t : Int) - file s then 5
  else 0

/-- `isAligned<false>` (src/square.hpp:190-199). -/
def isAligned (src dst ksq : Square) : Bool :=
  squareRelation src ksq != 0 && squareRelation src ksq == squareRelation src dst
/-- `isAligned<true>` (src/square.hpp:190-199), for squares known to be on a line with the king. -/
def isAlignedT (src dst ksq : Square) : Bool := squareRelation src ksq == squareRelation src dst

/-- `BetweenBB` / `betweenBB` (src/init.cpp:234-246; src/bitboard.hpp:701). `direc & DirecCross` is the bit of value
2, `direc & DirecDiag` the bit of value 4. -/
def betweenBB (s t : Square) : Bitboard :=
  if s = t then zero
  else if (squareRelation s t).testBit 1 then rookAttack s (setMask t) &&& rookAttack t (setMask s)
  else if (squareRelation s t).testBit 2 then bishopAttack s (setMask t) &&& bishopAttack t (setMask s)
  else zero

/-- `rookAttackToEdge` (src/init.cpp:227; src/bitboard.hpp:702). -/
def rookAttackToEdge (s : Square) : Bitboard := rookAttack s zero
/-- `bishopAttackToEdge` (src/init.cpp:228; src/bitboard.hpp:703). -/
def bishopAttackToEdge (s : Square) : Bitboard := bishopAttack s zero
/-- `lanceAttackToEdge` (src/init.cpp:229-230; src/bitboard.hpp:704). -/
def lanceAttackToEdge (c : Color) (s : Square) : Bitboard := lanceAttack c s zero

end Verif
