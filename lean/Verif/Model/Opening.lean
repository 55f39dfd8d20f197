import Verif.Model.Match
import Verif.Model.Push
import Verif.Model.Usi

/-!
# Openings in the match runner (cshogi/cli.py)

Display and files are left out. A line of the file is the text up to and including its newline, as iterating over a file gives it.
-/

namespace Verif.Match
open Position

/-- The words of a line of the file (cli.py:176-180). -/
def openingLine (line : List Char) : List (List Char) :=
  let moves := (Usi.strip line).drop 15
  if moves = [] then [] else Kif.splitAt ' ' moves

/-- `opening_list` (cli.py:172-189): the opening with the given index, or all of them in the order that `random.shuffle` brings about. `none`:
there is no such index. Indices below 0 are left out. -/
def openings (shuffle : List (List (List Char)) → List (List (List Char))) (file : List (List Char)) : Option Nat → Option (List (List (List Char)))
  | some i => ((file.map openingLine)[i]?).map fun x => [x]
  | none => some (shuffle (file.map openingLine))

/-- The opening of game `n` (cli.py:244). `none`: it raises, because the list is empty. -/
def openingFor (l : List (List (List Char))) (n : Nat) : Option (List (List Char)) := l[n / 2 % l.length]?

/-- The moves of an opening (cli.py:244-252), with `moves` and `usi_moves`. -/
def playOpening (Z : Zobrist) (limit : Int) : State → List (List Char) → Out (State × List Move × List (List Char))
  | st, [] => .ok (st, [], [])
  | st, s :: ss => match st.board.pushUsi Z s with
    | none => .ub
    | some (b, m) =>
      let st := { st with board := b, counts := Env.count st.counts b.pos.getKey }
      if b.pos.gamePly > limit then .ok (st, [m], [s])
      else (playOpening Z limit st ss).bind fun x => .ok (x.1, m :: x.2.1, s :: x.2.2)

/-- A game with an opening (cli.py:234-456). -/
def gameFrom (Z : Zobrist) (T : Terms) (p : Position) (clock : Color → Option Int) (limit : Int) (opening : List (List Char)) (rs : List Reply) :
    Out (Option ((Option Color × String) × Board)) :=
  (playOpening Z limit (start p clock) opening).bind fun x => (loop Z T x.1 rs).bind (conclude T)

end Verif.Match
