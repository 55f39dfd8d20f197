import Verif.Spec.Parts
import Verif.Spec.Material

/-!
# The letters of the pieces, as SFEN has them
-/

namespace Verif.Spec

/-- The letters of a kind, in capitals. -/
def Kind.capitals : Kind → List Char
  | .pawn => ['P'] | .lance => ['L'] | .knight => ['N'] | .silver => ['S'] | .gold => ['G'] | .bishop => ['B'] | .rook => ['R'] | .king => ['K']
  | .proPawn => ['+', 'P'] | .proLance => ['+', 'L'] | .proKnight => ['+', 'N'] | .proSilver => ['+', 'S'] | .horse => ['+', 'B'] | .dragon => ['+', 'R']

/-- The ranks are lettered. -/
def rankLetter (n : Nat) : Option Char := ['a', 'b', 'c', 'd', 'e', 'f', 'g', 'h', 'i'][n]?

/-- The files are numbered. -/
def fileDigit (n : Nat) : Option Char := ['1', '2', '3', '4', '5', '6', '7', '8', '9'][n]?

end Verif.Spec
