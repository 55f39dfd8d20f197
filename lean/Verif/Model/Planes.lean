import Verif.Model.Features

/-!
# The input features of dlshogi (cshogi.h)

Each of the two arrays of floats is first set to zero over a certain length; all later writes store 1. So the outcome is given by that
length and the list of the cells that are set to 1, in order. `use_nyugyoku_features` is a parameter.
-/

namespace Verif
namespace Position
open Bitboard

/-- `MAX_FEATURES1_NUM` (src/cshogi.h:14-16). -/
def maxFeatures1 : Nat := 14 + 14 + 3
/-- `MAX_PIECES_IN_HAND_SUM` (src/cshogi.h:18-34). -/
def maxHandSum : Nat := 8 + 4 + 4 + 4 + 4 + 2 + 2
/-- `MAX_FEATURES2_HAND_NUM` (src/cshogi.h:35). -/
def maxFeatures2Hand : Nat := 2 * maxHandSum
/-- `MAX_FEATURES2_NUM` (src/cshogi.h:36). -/
def maxFeatures2 : Nat := maxFeatures2Hand + 1
/-- `MAX_FEATURES2_NYUGYOKU_NUM` (src/cshogi.h:46-48). -/
def maxNyugyoku : Nat := 1 + 10 + 20

/-- `__dlshogi_get_features1_num` (src/cshogi.h:54-56). -/
def features1Num : Nat := 2 * maxFeatures1
/-- `__dlshogi_get_features2_num` (src/cshogi.h:57-59). -/
def features2Num (use : Bool) : Nat := maxFeatures2 + (if use then 2 * maxNyugyoku else 0)

/-- `c2` (src/cshogi.h:377). -/
def relColor (p : Position) (c : Color) : Color := match p.turn with | .black => c | .white => c.opp

/-- `sq2` (src/cshogi.h:387). -/
def relSquare (p : Position) (s : Square) : Nat := match p.turn with | .black => s.val | .white => 80 - s.val

/-- `attacks[c][pt]` (src/cshogi.h:361-373). -/
def attackMap (p : Position) (c : Color) (pt : PieceType) : Bitboard :=
  (List.finRange 81).foldl (fun acc s =>
    if p.piece s ≠ 0 ∧ pieceColor (p.piece s) = c ∧ pieceType (p.piece s) = pt then
      acc ||| attacksFrom (pieceType (p.piece s)) (pieceColor (p.piece s)) s p.occupied
    else acc) zero

/-- `(*features1)[c2][plane][sq2]`. -/
def cell1 (p : Position) (c : Color) (plane : Nat) (s : Square) : Nat := ((p.relColor c).idx * maxFeatures1 + plane) * 81 + p.relSquare s

/-- The loop over squares for one colour (src/cshogi.h:385-406). -/
def ones1 (p : Position) (c : Color) : List Nat :=
  (List.finRange 81).flatMap fun s =>
    ((List.range 14).flatMap fun i =>
      (if (p.bbOf (i + 1) c).isSet s then [p.cell1 c i s] else []) ++
      (if (p.attackMap c (i + 1)).isSet s then [p.cell1 c (14 + i) s] else [])) ++
    (List.range (min 3 (p.attackersTo c s p.occupied).popCount)).map fun k => p.cell1 c (14 + 14 + k) s

/-- `std::fill_n(plane, 81 * n, 1)` (src/cshogi.h:411-423 and others): `n` planes from `plane` on. -/
def fillPlanes (plane n : Nat) : List Nat := (List.range (81 * n)).map (81 * plane + ·)

/-- The pieces in hand of one colour (src/cshogi.h:408-423). -/
def onesHand (p : Position) (c : Color) : List Nat :=
  let h := p.hand c
  let base := (p.relColor c).idx * maxHandSum
  fillPlanes base (min (h.numOf 0) 8) ++ fillPlanes (base + 8) (h.numOf 1) ++ fillPlanes (base + 12) (h.numOf 2) ++
  fillPlanes (base + 16) (h.numOf 3) ++ fillPlanes (base + 20) (h.numOf 4) ++ fillPlanes (base + 24) (h.numOf 5) ++
  fillPlanes (base + 26) (h.numOf 6)

/-- An `int` compared with a `u32` is converted to `u32` (src/cshogi.h:440, 452). -/
def asU32 (x : Int) : Nat := (x % 4294967296).toNat

/-- The declaration planes of one colour (src/cshogi.h:425-455). -/
def onesNyugyoku (p : Position) (c : Color) : List Nat :=
  let base := maxFeatures2Hand + 1 + (p.relColor c).idx * maxNyugyoku
  let field := campField c
  let king := (p.bbOf PT.King c).andIsAny field
  let own : Int := ((p.byColor c &&& field).popCount : Nat) - (if king then 1 else 0)
  let rest := 10 - own
  let big : Int := ((p.bbOf4 PT.Rook PT.Dragon PT.Bishop PT.Horse &&& field) &&& p.byColor c).popCount
  let small := own - big
  let h := p.hand c
  let val := small + (h.numOf 0 : Nat) + (h.numOf 1 : Nat) + (h.numOf 2 : Nat) + (h.numOf 3 : Nat) + (h.numOf 4 : Nat)
    + (big + (h.numOf 5 : Nat) + (h.numOf 6 : Nat)) * 5
  let restPoint := pointsNeeded c - val
  (if king then fillPlanes base 1 else []) ++
  (if asU32 rest < 10 then fillPlanes (base + 1 + (max 0 rest).toNat) 1 else []) ++
  (if asU32 restPoint < 20 then fillPlanes (base + 1 + 10 + (max 0 restPoint).toNat) 1 else [])

/-- The cells of `features2` set to 1 (src/cshogi.h:375-461). -/
def ones2 (use : Bool) (p : Position) : List Nat :=
  p.onesHand .black ++ (if use then p.onesNyugyoku .black else []) ++ p.onesHand .white ++ (if use then p.onesNyugyoku .white else []) ++
  (if p.inCheck then fillPlanes maxFeatures2Hand 1 else [])

/-- An array of floats, of which only the values 0 and 1 matter. -/
abbrev Floats := Nat → Int

/-- Clearing the first `n` cells and then setting the cells of a list to 1. -/
def paint (n : Nat) (ones : List Nat) (m : Floats) : Floats := fun i => if i ∈ ones then 1 else if i < n then 0 else m i

/-- `_dlshogi_make_input_features` (src/cshogi.h:348-462): both arrays afterwards. The lengths cleared are those of the types
`features1_t` and `features2_t`. -/
def dlshogiFeatures (use : Bool) (p : Position) (m1 m2 : Floats) : Floats × Floats :=
  (paint (2 * maxFeatures1 * 81) (p.ones1 .black ++ p.ones1 .white) m1, paint (maxFeatures2 * 81) (p.ones2 use) m2)

end Position
end Verif
