import Verif.Model.Position

/-!
# Setting up a position (position.hpp, position.cpp)
-/

namespace Verif
namespace Position
open Bitboard

/-- `clear` (src/position.cpp:3830-3833): all zero. (`kingSquare_` is 0 then; every caller overwrites it, the model
already says "no king".) -/
def clear : Position where
  byType _ := zero
  byColor _ := zero
  golds := zero
  piece _ := 0
  kingSquare _ := none
  hand _ := Hand.empty
  turn := .black
  st := { pliesFromNull := 0, continuousCheck := fun _ => 0, boardKey := 0#64, handKey := 0#64, checkersBB := zero,
          hand := Hand.empty }
  prev := []
  gamePly := 0

/-- `setPiece` (src/position.hpp:456-465). -/
def setPiece (p : Position) (pc : Piece) (s : Square) : Position :=
  let c := pieceColor pc
  let pt := pieceType pc
  let byType := upd p.byType pt ((p.byType pt).setBit s)
  { p with
    piece := upd p.piece s pc
    byType := upd byType PT.Occupied ((byType PT.Occupied).setBit s)
    byColor := upd p.byColor c ((p.byColor c).setBit s) }

/-- `setHand(hp, c, num)` (src/position.hpp:466). -/
def setHand (p : Position) (hp : HandPiece) (c : Color) (num : Nat) : Position :=
  { p with hand := upd p.hand c ((p.hand c).orEqual num hp) }

/-- `king_square_or_square_num` (src/position.cpp:31-33). -/
def kingSquareOrNone (b : Bitboard) : Option Square := if b.isAny then some (sqN b.first) else none

/-- The common end of all set-up functions: king squares, golds, keys, the hand of the side to move and the checkers
(src/position.cpp:3359-3361, 3392-3396; 3424-3434; 3485-3495). -/
def finish (Z : Zobrist) (p : Position) : Position :=
  let p := { p with
    kingSquare := fun c => kingSquareOrNone (p.bbOf PT.King c)
    golds := p.computeGolds }
  let p := { p with st := { p.st with
    boardKey := p.computeBoardKey Z
    handKey := p.computeHandKey Z
    hand := p.hand p.turn } }
  { p with st := { p.st with checkersBB := p.findCheckers } }

/-- `Position::set(pieces, pieces_in_hand)`, Python `set_pieces` (src/position.cpp:3405-3435): the turn and the move
number are kept. -/
def setPieces (Z : Zobrist) (p : Position) (pieces : Square → Piece) (inHand : Color → HandPiece → Nat) : Position :=
  let q := (List.finRange 81).foldl (fun q s => if pieces s ≠ 0 then q.setPiece (pieces s) s else q) clear
  let q := [Color.black, Color.white].foldl (fun q c =>
    (List.range 7).foldl (fun q hp => q.setHand hp c (inHand c hp)) q) q
  finish Z { q with turn := p.turn, gamePly := p.gamePly }

/-- `setTurn`, Python `turn` setter (src/position.hpp:395-403). -/
def setTurn (Z : Zobrist) (p : Position) (t : Color) : Position :=
  let p := { p with turn := t }
  let p := { p with st := { p.st with
    boardKey := p.computeBoardKey Z
    handKey := p.computeHandKey Z
    hand := p.hand p.turn } }
  { p with st := { p.st with checkersBB := p.findCheckers } }

end Position
end Verif
