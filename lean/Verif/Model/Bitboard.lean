import Verif.Model.Types

/-!
# Bitboards (bitboard.hpp, bitboard.cpp, common.hpp)

The portable (non-SSE) code paths are modelled; the SSE/AVX paths compute the same 128-bit operations. The one
place where the portable and the AVX2 text differ (`Bitboard256::byteReverse`) is modelled in both variants in
`Verif/Model/Attack.lean`.
-/

namespace Verif

/-- `class Bitboard` (src/bitboard.hpp:36-297): two `u64` words; squares 0..62 in `p0`, 63..80 in `p1`. -/
structure Bitboard where
  p0 : BitVec 64
  p1 : BitVec 64
  deriving DecidableEq

namespace Bitboard

/-- `merge` and `operator bool` / `isAny` (src/bitboard.hpp:54-62). -/
def isAny (b : Bitboard) : Bool := (b.p0 ||| b.p1) != 0#64

/-- `operator &` (src/bitboard.hpp:80-88, 125). -/
instance : AndOp Bitboard := ⟨fun a b => ⟨a.p0 &&& b.p0, a.p1 &&& b.p1⟩⟩
/-- `operator |` (src/bitboard.hpp:89-97, 126). -/
instance : OrOp Bitboard := ⟨fun a b => ⟨a.p0 ||| b.p0, a.p1 ||| b.p1⟩⟩
/-- `operator ^` (src/bitboard.hpp:98-106, 127). -/
instance : XorOp Bitboard := ⟨fun a b => ⟨a.p0 ^^^ b.p0, a.p1 ^^^ b.p1⟩⟩
/-- `operator ~` (src/bitboard.hpp:71-79): all 128 bits are flipped, also the 47 that are no squares. -/
instance : Complement Bitboard := ⟨fun a => ⟨~~~a.p0, ~~~a.p1⟩⟩

/-- `operator <<` (src/bitboard.hpp:107-115, 128): per word, no carry between the words. -/
def shl (a : Bitboard) (i : Nat) : Bitboard := ⟨a.p0 <<< i, a.p1 <<< i⟩
/-- `operator >>` (src/bitboard.hpp:116-124, 129). -/
def shr (a : Bitboard) (i : Nat) : Bitboard := ⟨a.p0 >>> i, a.p1 >>> i⟩

/-- `andIsAny` (src/bitboard.hpp:64-70). -/
def andIsAny (a b : Bitboard) : Bool := (a &&& b).isAny
/-- `andEqualNot` (src/bitboard.hpp:139-146): `a & ~b`. -/
def andNot (a b : Bitboard) : Bitboard := a &&& ~~~b
/-- `notThisAnd` (src/bitboard.hpp:148-156): `~a & b`. -/
def notAnd (a b : Bitboard) : Bitboard := ~~~a &&& b

/-- `SetMaskBB` (src/bitboard.cpp:25-107). -/
def setMask (s : Square) : Bitboard :=
  if s.val < 63 then ⟨1#64 <<< s.val, 0#64⟩ else ⟨0#64, 1#64 <<< (s.val - 63)⟩

/-- `isSet` (src/bitboard.hpp:157-160). -/
def isSet (b : Bitboard) (s : Square) : Bool := b.andIsAny (setMask s)
/-- `setBit` (src/bitboard.hpp:161). -/
def setBit (b : Bitboard) (s : Square) : Bitboard := b ||| setMask s
/-- `clearBit` (src/bitboard.hpp:162). -/
def clearBit (b : Bitboard) (s : Square) : Bitboard := b.andNot (setMask s)
/-- `xorBit(sq)` (src/bitboard.hpp:163). -/
def xorBit (b : Bitboard) (s : Square) : Bitboard := b ^^^ setMask s
/-- `xorBit(sq1, sq2)` (src/bitboard.hpp:164). -/
def xorBit2 (b : Bitboard) (s t : Square) : Bitboard := b ^^^ (setMask s ||| setMask t)

/-- `allOneBB` (src/bitboard.hpp:450). -/
def allOne : Bitboard := ⟨0x7fffffffffffffff#64, 0x3ffff#64⟩
/-- `allZeroBB` (src/bitboard.hpp:451). -/
def zero : Bitboard := ⟨0#64, 0#64⟩

/-- `firstOneFromLSB` (src/common.hpp:159-161): count-trailing-zeros. The hardware instruction is modelled by its
definition (least set bit). For 0 the builtin is undefined; the value 63 is the one of the portable table. -/
def ctz (b : BitVec 64) : Nat := ((List.range 64).find? (fun i => b.getLsbD i)).getD 63

/-- `count1s` (src/common.hpp:206-210): population count, modelled by its definition. -/
def count1s (b : BitVec 64) : Nat := (List.range 64).countP (fun i => b.getLsbD i)

/-- Clear the lowest set bit, `p & (p - 1)` (src/bitboard.hpp:171, 180). -/
def clearLow (b : BitVec 64) : BitVec 64 := b &&& (b - 1#64)

/-- `firstOneFromSQ11` (src/bitboard.hpp:168-192): the square found and the board with it removed. -/
def popFirst (b : Bitboard) : Nat × Bitboard :=
  if b.p0 ≠ 0#64 then (ctz b.p0, ⟨clearLow b.p0, b.p1⟩)
  else (ctz b.p1 + 63, ⟨b.p0, clearLow b.p1⟩)

/-- `constFirstOneFromSQ11` (src/bitboard.hpp:194-200). -/
def first (b : Bitboard) : Nat := if b.p0 ≠ 0#64 then ctz b.p0 else ctz b.p1 + 63

/-- `popCount` (src/bitboard.hpp:203-204, `Crossover = true`). -/
def popCount (b : Bitboard) : Nat := count1s b.p0 + count1s b.p1

/-- `isOneBit` (src/bitboard.hpp:207-218), the version without POPCNT. -/
def isOneBit (b : Bitboard) : Bool :=
  if !b.isAny then false
  else if b.p0 ≠ 0#64 then ((b.p0 &&& (b.p0 - 1#64)) ||| b.p1) == 0#64
  else (b.p1 &&& (b.p1 - 1#64)) == 0#64

/-- `isOneBit` with POPCNT (src/bitboard.hpp:209-210). -/
def isOneBitPop (b : Bitboard) : Bool := b.popCount == 1

/-- The loop `while (bb) { sq = bb.firstOneFromSQ11(); ... }` (used throughout, e.g. src/init.cpp:254-257; same
visiting order as `FOREACH_BB`, src/bitboard.hpp:729-739): the squares visited, in order. `fuel` bounds the number
of rounds; 128 always suffices because every round clears one bit. -/
def visit : Nat → Bitboard → List Nat
  | 0, _ => []
  | fuel + 1, b => if b.isAny then b.popFirst.1 :: visit fuel b.popFirst.2 else []

/-- The squares visited by the loop, as squares. Indices above 80 (possible only when bits that are no squares are
set) are not squares and are left out; uses of the model are on boards without such bits. -/
def toList (b : Bitboard) : List Square :=
  (visit 128 b).filterMap fun n => if h : n < 81 then some ⟨n, h⟩ else none

/-- `bswap64` (src/common.hpp:171-173): byte reversal of a 64-bit word. -/
def bswap64 (b : BitVec 64) : BitVec 64 :=
  ((b &&& 0xff#64) <<< 56) ||| (((b >>> 8) &&& 0xff#64) <<< 48) ||| (((b >>> 16) &&& 0xff#64) <<< 40) |||
  (((b >>> 24) &&& 0xff#64) <<< 32) ||| (((b >>> 32) &&& 0xff#64) <<< 24) ||| (((b >>> 40) &&& 0xff#64) <<< 16) |||
  (((b >>> 48) &&& 0xff#64) <<< 8) ||| ((b >>> 56) &&& 0xff#64)

/-- `byteReverse` (src/bitboard.hpp:221-233). -/
def byteReverse (b : Bitboard) : Bitboard := ⟨bswap64 b.p1, bswap64 b.p0⟩

/-- `unpack` (src/bitboard.hpp:235-246): returns `(hiOut, loOut)`. -/
def unpack (hiIn loIn : Bitboard) : Bitboard × Bitboard := (⟨loIn.p1, hiIn.p1⟩, ⟨loIn.p0, hiIn.p0⟩)

/-- `decrement` (src/bitboard.hpp:249-267): returns `(hiOut, loOut)`. -/
def decrement (hiIn loIn : Bitboard) : Bitboard × Bitboard :=
  (⟨hiIn.p0 - (if loIn.p0 = 0#64 then 1#64 else 0#64), hiIn.p1 - (if loIn.p1 = 0#64 then 1#64 else 0#64)⟩,
   ⟨loIn.p0 - 1#64, loIn.p1 - 1#64⟩)

/-- `FileMask` / `fileMask` (src/bitboard.hpp:467-475, 491; src/bitboard.cpp:109-111). -/
def fileMask : Nat → Bitboard
  | 7 => ⟨0#64, 0x1ff#64 <<< 0⟩
  | 8 => ⟨0#64, 0x1ff#64 <<< 9⟩
  | f => ⟨0x1ff#64 <<< (9 * f), 0#64⟩

/-- `RankMask` / `rankMask` (src/bitboard.hpp:477-485, 505; src/bitboard.cpp:113-115). -/
def rankMask (r : Nat) : Bitboard := ⟨0x40201008040201#64 <<< r, 0x201#64 <<< r⟩

/-- `InFrontMask` / `inFrontMask` (src/bitboard.hpp:531-573; src/bitboard.cpp:117-120). -/
def inFrontMask : Color → Nat → Bitboard
  | .black, 0 => zero
  | .black, r + 1 => inFrontMask .black r ||| rankMask r
  | .white, r => (List.range (8 - r)).foldl (fun b i => b ||| rankMask (8 - i)) zero

/-- `EnemyField` / `enemyField` (src/bitboard.hpp:575-576). -/
def enemyField : Color → Bitboard
  | .black => rankMask 0 ||| rankMask 1 ||| rankMask 2
  | .white => rankMask 6 ||| rankMask 7 ||| rankMask 8

/-- `squareFileMask` (src/bitboard.hpp:520-523). -/
def squareFileMask (s : Square) : Bitboard := fileMask (file s)
/-- `squareRankMask` (src/bitboard.hpp:526-529). -/
def squareRankMask (s : Square) : Bitboard := rankMask (rank s)

end Bitboard
end Verif
