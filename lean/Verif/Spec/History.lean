import Verif.Spec.Rules
import Verif.Model.Board

/-!
# The game that a sequence of operations leaves standing
-/

namespace Verif.Spec

/-- The moves and passes that have not been taken back, the newest first; `s` are those from before. -/
def standing (s : List Op) : List Op → List Op
  | [] => s
  | .push m :: os => standing (.push m :: s) os
  | .pushPass :: os => standing (.pushPass :: s) os
  | .pop :: os => standing s.tail os
  | .popPass :: os => standing s.tail os

/-- How many of them are moves. -/
def moveCount : List Op → Nat
  | [] => 0
  | .push _ :: os => moveCount os + 1
  | _ :: os => moveCount os

end Verif.Spec
