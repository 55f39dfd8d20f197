import Verif.Model.Human

/-!
# What it means that a person's moves are played

A request is a move number and a text. The server serves the requests one after the other, and the game looks at any time.
-/

namespace Verif.Spec.Human
open Verif.Web

/-- The accesses of the server, in their order. -/
def served : List Access → List Access
  | [] => []
  | .look :: as => served as
  | a :: as => a :: served as

/-- The number of times the game looked. -/
def looks : List Access → Nat
  | [] => 0
  | .look :: as => looks as + 1
  | _ :: as => looks as

/-- An execution in which the server serves these requests; the last may not be finished. -/
def Serves (rs : List Input) (as : List Access) : Prop := ∃ rest, served as ++ rest = rs.flatMap Input.writes

/-- No request for another move number follows a request for the number `n`. -/
def Settled (n : Int) (rs : List Input) : Prop := rs.Pairwise fun a b => a.number = n → b.number = n

end Verif.Spec.Human
