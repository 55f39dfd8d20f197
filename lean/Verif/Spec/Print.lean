import Verif.Spec.Names
import Verif.Spec.Record

/-!
# A board as one sees it printed
-/

namespace Verif.Spec

/-- Three characters for a square. -/
def printed : Option (Color × Kind) → List Char
  | none => [' ', '*', ' ']
  | some (.black, k) => '+' :: kindName k
  | some (.white, k) => '-' :: kindName k

/-- A hand in the lines below the board. -/
def printedHand (q : Pos) (c : Color) : List (List Char) :=
  (handKinds.filter fun h => decide (0 < q.hand c h)).map fun h =>
    'P' :: (if c = .black then '+' else '-') :: (List.replicate (q.hand c h) ('0' :: '0' :: kindName h.kind)).flatten

end Verif.Spec
