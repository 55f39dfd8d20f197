import Verif.Model.Move

/-!
# Move labels for dlshogi (cshogi.h)
-/

namespace Verif

/-- `get_move_direction` (src/cshogi.h:794-825); the numbers are those of `enum MOVE_DIRECTION` (src/cshogi.h:39-43). -/
def moveDirection (dirX dirY : Int) : Nat :=
  if dirY < 0 ∧ dirX = 0 then 0
  else if dirY = -2 ∧ dirX = -1 then 8
  else if dirY = -2 ∧ dirX = 1 then 9
  else if dirY < 0 ∧ dirX < 0 then 1
  else if dirY < 0 ∧ dirX > 0 then 2
  else if dirY = 0 ∧ dirX < 0 then 3
  else if dirY = 0 ∧ dirX > 0 then 4
  else if dirY > 0 ∧ dirX = 0 then 5
  else if dirY > 0 ∧ dirX < 0 then 6
  else 7

/-- `__dlshogi_make_move_label` (src/cshogi.h:828-871). `to_sq` and `from_sq` are `u16`. -/
def moveLabel (m : Move) (c : Color) : Nat :=
  let move16 : BitVec 16 := m.truncate 16
  let toSq := move16 &&& 0x7f#16
  let fromSq := (move16 >>> 7) &&& 0x7f#16
  if fromSq.toNat < 81 then
    let toSq := match c with | .white => 80#16 - toSq | .black => toSq
    let fromSq := match c with | .white => 80#16 - fromSq | .black => fromSq
    let dirX : Int := (fromSq.toNat / 9 : Nat) - (toSq.toNat / 9 : Nat)
    let dirY : Int := (toSq.toNat % 9 : Nat) - (fromSq.toNat % 9 : Nat)
    let d := moveDirection dirX dirY
    let d := if (move16 &&& 0b100000000000000#16).toNat > 0 then d + 10 else d
    9 * 9 * d + toSq.toNat
  else
    let toSq := match c with | .white => 80#16 - toSq | .black => toSq
    9 * 9 * (20 + (fromSq.toNat - 81)) + toSq.toNat

end Verif
