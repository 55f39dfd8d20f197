import Verif.Model.Position

/-!
# Declaration win and feature planes (search.cpp, cshogi.h)
-/

namespace Verif
namespace Position
open Bitboard

/-- `opponentsField` (src/search.cpp:45, src/cshogi.h:428): the far three ranks. -/
def campField : Color → Bitboard
  | .black => inFrontMask .black 3
  | .white => inFrontMask .white 5

/-- Points needed (src/search.cpp:73, src/cshogi.h:450). -/
def pointsNeeded : Color → Int
  | .black => 28
  | .white => 27

/-- `nyugyoku` (src/search.cpp:27-78, without `LAW_24`), Python `is_nyugyoku`. Counts are `int`;
hand pieces are numbered pawn 0, lance 1, knight 2, silver 3, gold 4, bishop 5, rook 6. -/
def nyugyoku (p : Position) : Bool :=
  if p.inCheck then false
  else
    let us := p.turn
    let field := campField us
    if !(p.bbOf PT.King us).andIsAny field then false
    else
      let own : Int := ((p.byColor us &&& field).popCount : Nat) - 1
      if own < 10 then false
      else
        let big : Int := ((p.bbOf4 PT.Rook PT.Dragon PT.Bishop PT.Horse &&& field) &&& p.byColor us).popCount
        let small := own - big
        let h := p.hand us
        let val := small + (h.numOf 0 : Nat) + (h.numOf 1 : Nat) + (h.numOf 2 : Nat)
          + (h.numOf 3 : Nat) + (h.numOf 4 : Nat)
          + (big + (h.numOf 6 : Nat) + (h.numOf 5 : Nat)) * 5
        if val < pointsNeeded us then false else true

/-- One colour's turn of the loops of `piece_planes` and `piece_planes_rotate` (src/cshogi.h:312-320, 334-343): the cells set
to 1.0, in order. `base` is where `data` points. -/
def planeCells (p : Position) (c : Color) (base : Nat) (f : Square → Nat) : List Nat :=
  (List.range 14).flatMap fun i => (p.bbOf (i + 1) c).toList.map fun s => base + 81 * i + f s

/-- `piece_planes` (src/cshogi.h:307-321): the cells of the caller's array that are set to 1.0. No other cell is written. -/
def piecePlanes (p : Position) : List Nat :=
  p.planeCells .black 0 (fun s => s.val) ++ p.planeCells .white (14 * 81) (fun s => s.val)

/-- `piece_planes_rotate` (src/cshogi.h:324-345). The loop `for (Color c = White; c >= Black; --c)` ends when `c` becomes -1;
that an out-of-range enumerator keeps its value and compares as an `int` is assumed (GCC, Clang and MSVC do so). -/
def piecePlanesRotate (p : Position) : List Nat :=
  match p.turn with
  | .black => p.piecePlanes
  | .white => p.planeCells .white 0 (fun s => 80 - s.val) ++ p.planeCells .black (14 * 81) (fun s => 80 - s.val)

end Position
end Verif
