import Verif.Spec.Rules
import Verif.Spec.Start

/-!
# Specification: game records
-/

namespace Verif.Spec

/-- The side that wins. -/
inductive Result where
  | draw | wins (c : Color)
deriving DecidableEq

/-- What the CSA standard says about the end of a game, `side` being the side to move: resignation, running out of time and an
illegal move lose; an illegal action names the side that loses; a declaration wins; the rest is no decision. -/
def resultOf (e : String) (side : Color) : Result :=
  if e = "%TORYO" ∨ e = "%TIME_UP" ∨ e = "%ILLEGAL_MOVE" then .wins side.opp
  else if e = "%+ILLEGAL_ACTION" then .wins .white
  else if e = "%-ILLEGAL_ACTION" then .wins .black
  else if e = "%KACHI" then .wins side
  else .draw

/-- The square a CSA text names by two digits: first the file, then the rank, both from 1. -/
def csaSquare (f r : Nat) (hf : 1 ≤ f ∧ f ≤ 9) (hr : 1 ≤ r ∧ r ≤ 9) : Square := ⟨9 * (f - 1) + (r - 1), by omega⟩

/-- The CSA names of the pieces. -/
def kindName : Kind → List Char
  | .pawn => ['F', 'U'] | .lance => ['K', 'Y'] | .knight => ['K', 'E'] | .silver => ['G', 'I'] | .bishop => ['K', 'A']
  | .rook => ['H', 'I'] | .gold => ['K', 'I'] | .king => ['O', 'U'] | .proPawn => ['T', 'O'] | .proLance => ['N', 'Y']
  | .proKnight => ['N', 'K'] | .proSilver => ['N', 'G'] | .horse => ['U', 'M'] | .dragon => ['R', 'Y']

/-- The digit. -/
def digit (n : Nat) : Char := Char.ofNat (48 + n)

/-- A square and the piece of the starting position on it, as named in a CSA handicap line. -/
def removalText (s : Square) : List Char :=
  digit (s.val / 9 + 1) :: digit (s.val % 9 + 1) :: ((startBoard s).map fun x => kindName x.2).getD []

end Verif.Spec
