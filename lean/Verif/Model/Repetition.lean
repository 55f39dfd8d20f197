import Verif.Model.Board

/-!
# Repetition (position.cpp)
-/

namespace Verif

/-- `enum RepetitionType` (src/position.hpp:41-44), without the compile-time variants `BAN_*_REPETITION`, which the build
does not define. -/
inductive Repetition where
  | none | draw | win | lose | superior | inferior
  deriving DecidableEq

namespace Position

/-- The loop of `isDraw` (src/position.cpp:3246-3268). The list holds the records behind `stp`, nearest first; `none` is a
null pointer being followed. -/
def drawLoop (p : Position) (e : Int) : List StateInfo → Int → Option Repetition
  | _ :: stp :: l, i =>
    if stp.key = p.st.key then
      if i ≤ p.st.continuousCheck p.turn then some .lose
      else if i ≤ p.st.continuousCheck p.turn.opp then some .win
      else some .draw
    else if stp.boardKey = p.st.boardKey ∧ p.st.hand.isEqualOrSuperior stp.hand = true then some .superior
    else if stp.boardKey = p.st.boardKey ∧ stp.hand.isEqualOrSuperior p.st.hand = true then some .inferior
    else if i + 2 ≤ e then drawLoop p e l (i + 2)
    else some .none
  | _, _ => none

/-- `isDraw(checkMaxPly)`, Python `is_draw` (src/position.cpp:3235-3270). -/
def isDraw (p : Position) (maxPly : Int) : Option Repetition :=
  let e := min p.st.pliesFromNull maxPly
  if 4 ≤ e then
    match p.prev with
    | _ :: _ :: l => drawLoop p e l 4
    | _ => none
  else some .none

/-- The loop of `moveIsDraw` (src/position.cpp:3284-3298). -/
def moveDrawLoop (p : Position) (key : BitVec 64) (e : Int) : List StateInfo → Int → Option Repetition
  | _ :: stp :: l, i =>
    if stp.key = key then
      if i ≤ p.st.continuousCheck p.turn then some .win
      else if i ≤ p.st.continuousCheck p.turn.opp then some .lose
      else some .draw
    else if i + 2 ≤ e then moveDrawLoop p key e l (i + 2)
    else some .none
  | _, _ => none

/-- `moveIsDraw(move, checkMaxPly)`, Python `move_is_draw` (src/position.cpp:3272-3301). `checkMaxPly - 1` is undefined for
the smallest `int`. (`pliesFromNull` is an unbounded integer here; 2 ^ 31 plies are out of reach.) -/
def moveIsDraw (Z : Zobrist) (p : Position) (m : Move) (maxPly : Int) : Option Repetition :=
  let e := min p.st.pliesFromNull (maxPly - 1) + 1
  if maxPly - 1 < -2147483648 then none
  else if 4 ≤ e then
    match p.prev with
    | _ :: l => moveDrawLoop p (getKeyAfter Z p m) e l 4
    | _ => none
  else some .none

end Position
end Verif
