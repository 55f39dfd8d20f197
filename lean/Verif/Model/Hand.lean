import Verif.Model.Types

/-!
# Packed hands (hand.hpp, hand.cpp)
-/

namespace Verif

/-- `class Hand` (src/hand.hpp:38-142): one `u32`. -/
abbrev Hand := BitVec 32

namespace Hand
/-- `HandPieceShiftBits` (src/hand.hpp:112-118, src/hand.cpp:26-34). Indices above 6 are outside the array; the
model returns 0 there and every use is guarded by `hp < 7` or reported as undefined behaviour by the caller. -/
def shiftBits : HandPiece → Nat
  | 0 => 0 | 1 => 6 | 2 => 10 | 3 => 14 | 4 => 18 | 5 => 22 | 6 => 25
  | _ => 0

/-- Width masks before shifting (src/hand.hpp:119-125). -/
def rawMask : HandPiece → BitVec 32
  | 0 => 0x1f#32 | 1 => 0x7#32 | 2 => 0x7#32 | 3 => 0x7#32 | 4 => 0x7#32 | 5 => 0x3#32 | 6 => 0x3#32
  | _ => 0#32

/-- `HandPieceMask` (src/hand.hpp:119-125, src/hand.cpp:35-43). -/
def mask (hp : HandPiece) : BitVec 32 := rawMask hp <<< shiftBits hp

/-- `HandPieceOne` (src/hand.cpp:45-53). -/
def one (hp : HandPiece) : BitVec 32 := if hp < 7 then 1#32 <<< shiftBits hp else 0#32

/-- `BorrowMask` (src/hand.hpp:133-139). -/
def borrowMask : BitVec 32 :=
  (mask 0 + (1#32 <<< 0)) ||| (mask 1 + (1#32 <<< 6)) ||| (mask 2 + (1#32 <<< 10)) |||
  (mask 3 + (1#32 <<< 14)) ||| (mask 4 + (1#32 <<< 18)) ||| (mask 5 + (1#32 <<< 22)) ||| (mask 6 + (1#32 <<< 25))

/-- `Hand::numOf(handPiece)` (src/hand.hpp:52-54). -/
def numOf (h : Hand) (hp : HandPiece) : Nat := ((h &&& mask hp) >>> shiftBits hp).toNat

/-- `Hand::numOf<HP>()` (src/hand.hpp:43-51): the template version does not mask the rook field. -/
def numOfT (h : Hand) (hp : HandPiece) : Nat :=
  if hp = 6 then (h >>> shiftBits 6).toNat else ((h &&& mask hp) >>> shiftBits hp).toNat

/-- `Hand::exists(handPiece)` as a truth value (src/hand.hpp:57-66). -/
def has (h : Hand) (hp : HandPiece) : Bool := (h &&& mask hp) != 0#32

/-- `Hand::exceptPawnExists` as a truth value (src/hand.hpp:67, 126-128). -/
def exceptPawnExists (h : Hand) : Bool :=
  (h &&& (mask 1 ||| mask 2 ||| mask 3 ||| mask 4 ||| mask 5 ||| mask 6)) != 0#32

/-- `Hand::orEqual` (src/hand.hpp:69). `num` is an `int`; callers pass non-negative values. -/
def orEqual (h : Hand) (num : Nat) (hp : HandPiece) : Hand := h ||| (BitVec.ofNat 32 num <<< shiftBits hp)

/-- `Hand::plusOne` (src/hand.hpp:70). -/
def plusOne (h : Hand) (hp : HandPiece) : Hand := h + one hp

/-- `Hand::minusOne` (src/hand.hpp:71). -/
def minusOne (h : Hand) (hp : HandPiece) : Hand := h - one hp

/-- `Hand::isEqualOrSuperior` (src/hand.hpp:77-90). -/
def isEqualOrSuperior (h ref : Hand) : Bool := ((h - ref) &&& borrowMask) == 0#32

/-- `Hand::set(0)` / `Hand(0)` (src/hand.hpp:92, src/position.cpp `clear`). -/
def empty : Hand := 0#32
end Hand

end Verif
