import Verif.Model.Position

/-!
# Opening-book keys (book.hpp, book.cpp)
-/

namespace Verif
namespace Position
open Bitboard

/-- `Book::ZobPiece`, `ZobHand`, `ZobTurn` (src/book.hpp:44-46, filled by `Book::init`, src/book.cpp:31-41): any
values. -/
structure BookTable where
  piece : Piece → Square → BitVec 64
  hand : HandPiece → Nat → BitVec 64
  turn : BitVec 64

/-- The loop over the seven hand kinds (src/book.cpp:52-53, 78-79, 81-82). `ZobHand` has 19 entries per kind; counts
above 18 would read out of range. -/
def bookHand (B : BookTable) (h : Hand) (key : BitVec 64) : BitVec 64 :=
  (List.range 7).foldl (fun k hp => k ^^^ B.hand hp (h.numOf hp)) key

/-- `Book::bookKey`, Python `book_key` (src/book.cpp:43-57). -/
def bookKey (B : BookTable) (p : Position) : BitVec 64 :=
  let key := p.occupied.toList.foldl (fun k s => k ^^^ B.piece (p.piece s) s) 0#64
  let key := bookHand B (p.hand p.turn) key
  if p.turn = .white then key ^^^ B.turn else key

/-- `Book::bookKeyAfter`, Python `book_key_after` (src/book.cpp:59-86). -/
def bookKeyAfter (B : BookTable) (p : Position) (key : BitVec 64) (m : Move) : BitVec 64 :=
  let to := sqN m.dst
  let k :=
    if m.isDrop then key ^^^ B.piece (mkPiece p.turn m.pieceTypeDropped) to
    else
      let src := sqN m.src
      let k := key ^^^ B.piece (p.piece src) src
      let k := k ^^^ B.piece (mkPiece p.turn (m.pieceTypeToOf m.pieceTypeFrom)) to
      if m.cap ≠ 0 then k ^^^ B.piece (p.piece to) to else k
  let k := bookHand B (p.hand p.turn) k
  let k := bookHand B (p.hand p.turn.opp) k
  k ^^^ B.turn

end Position
end Verif
