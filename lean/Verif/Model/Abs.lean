import Verif.Model.Position
import Verif.Spec.Rules

/-!
# Reading a model position as a position of the rules

`absPos` reads the piece array, the packed hands and the turn (what the Python properties `pieces`, `pieces_in_hand`
and `turn` show). It does not look at the bitboards, the keys or the king squares: that those agree with it is proved.
-/

namespace Verif
open Spec

/-- Meaning of a piece type code (`enum PieceType`, src/piece.hpp:32-41). -/
def kindOf : PieceType → Option Kind
  | 1 => some .pawn | 2 => some .lance | 3 => some .knight | 4 => some .silver | 5 => some .bishop | 6 => some .rook
  | 7 => some .gold | 8 => some .king | 9 => some .proPawn | 10 => some .proLance | 11 => some .proKnight
  | 12 => some .proSilver | 13 => some .horse | 14 => some .dragon
  | _ => none

/-- Code of a kind (`enum PieceType`, src/piece.hpp:32-41). -/
def Spec.Kind.code : Kind → PieceType
  | .pawn => 1 | .lance => 2 | .knight => 3 | .silver => 4 | .bishop => 5 | .rook => 6 | .gold => 7 | .king => 8
  | .proPawn => 9 | .proLance => 10 | .proKnight => 11 | .proSilver => 12 | .horse => 13 | .dragon => 14

/-- Code of a hand kind (`enum HandPiece`, src/piece.hpp:60-62). -/
def Spec.HKind.code : HKind → HandPiece
  | .pawn => 0 | .lance => 1 | .knight => 2 | .silver => 3 | .gold => 4 | .bishop => 5 | .rook => 6

/-- Meaning of a piece code (`enum Piece`, src/piece.hpp:44-53). -/
def decodePiece (p : Piece) : Option (Color × Kind) := (kindOf (pieceType p)).map fun k => (pieceColor p, k)

/-- The position of the rules shown by a model position. -/
def absPos (p : Position) : Spec.Pos where
  board s := decodePiece (p.piece s)
  hand c h := (p.hand c).numOf h.code
  turn := p.turn

/-- The rule move meant by a 32-bit move, when its squares and piece type make sense. -/
def absMove (m : Move) : Option Mv :=
  if hd : m.dst < 81 then
    if m.isDrop then
      match m.pieceTypeDropped with
      | 1 => some (.drop .pawn ⟨m.dst, hd⟩) | 2 => some (.drop .lance ⟨m.dst, hd⟩)
      | 3 => some (.drop .knight ⟨m.dst, hd⟩) | 4 => some (.drop .silver ⟨m.dst, hd⟩)
      | 5 => some (.drop .bishop ⟨m.dst, hd⟩) | 6 => some (.drop .rook ⟨m.dst, hd⟩)
      | 7 => some (.drop .gold ⟨m.dst, hd⟩)
      | _ => none
    else if hs : m.src < 81 then some (.move ⟨m.src, hs⟩ ⟨m.dst, hd⟩ m.isPromotion)
    else none
  else none

/-- The 32-bit move for a rule move, as made by Python `Board.move(from, to, promotion)` and `Board.drop_move(to, kind)`
(src/cshogi.h:204-213; `boardMove`, `makeDropMove`). -/
def encode (p : Position) : Mv → Move
  | .move s t promote => boardMove p.piece s t promote
  | .drop h t => makeDropMove h.kind.code t.val

end Verif
