import Verif.Model.Gen
import Verif.Model.Board

/-!
# The move-list objects, and walking through games with them
-/

namespace Verif

open Position

/-- `MoveList` (src/generateMoves.hpp:62-82) behind `LegalMoveList` and `PseudoLegalMoveList`: the generated moves and the
place of `curr_`. -/
structure MoveIter where
  moves : List Move
  curr : Nat

namespace MoveIter

/-- `LegalMoveList.__cinit__` (cshogi/_cshogi.pyx:1209-1210, src/cshogi.h:701-703): the moves are generated at once. `none`:
`generateMoves` has undefined behaviour. -/
def legal (p : Position) : Option MoveIter := (genLegal p true).map fun l => ⟨l, 0⟩

/-- `PseudoLegalMoveList.__cinit__` (cshogi/_cshogi.pyx:1232-1233, src/cshogi.h:719-721). -/
def pseudo (p : Position) : Option MoveIter := (genPseudo p true).map fun l => ⟨l, 0⟩

/-- `__next__` (cshogi/_cshogi.pyx:1215-1220, 1238-1243): `none` is `StopIteration`. -/
def next (it : MoveIter) : Option Move × MoveIter :=
  if it.curr = it.moves.length then (none, it)
  else (it.moves[it.curr]?, { it with curr := it.curr + 1 })

/-- `__len__` (cshogi/_cshogi.pyx:1222-1223, 1245-1246). -/
def len (it : MoveIter) : Nat := it.moves.length

/-- `n` calls of `next`. -/
def takeN : Nat → MoveIter → List (Option Move) × MoveIter
  | 0, it => ([], it)
  | n + 1, it => ((it.next).1 :: (takeN n it.next.2).1, (takeN n it.next.2).2)

end MoveIter

/-- `for m in it: board.push(m); n += visit(board); board.pop()`. The second argument bounds the number of rounds; `none` is
undefined behaviour of a call, or more rounds than that. -/
def forEach (Z : Zobrist) (visit : Board → Option (Nat × Board)) : Nat → MoveIter → Board → Option (Nat × Board)
  | 0, _, _ => none
  | fuel + 1, it, b =>
    match it.next with
    | (none, _) => some (0, b)
    | (some m, it') =>
      (b.push Z m).bind fun b1 => (visit b1).bind fun r => (r.2.pop).bind fun b2 =>
        (forEach Z visit fuel it' b2).bind fun s => some (r.1 + s.1, s.2)

/-- The usual way to count games: `def perft(board, d): return 1 if d == 0 else sum(...)` with one `board` on which the moves
of `board.legal_moves` are pushed and popped while the list is being read. -/
def countGames (Z : Zobrist) : Nat → Board → Option (Nat × Board)
  | 0, b => some (1, b)
  | d + 1, b => (MoveIter.legal b.pos).bind fun it => forEach Z (countGames Z d) (it.len + 1) it b

end Verif
