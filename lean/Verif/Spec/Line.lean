import Verif.Spec.Rules

/-!
# Sequences of legal moves
-/

namespace Verif.Spec

/-- Every move of the list is legal where it is played. -/
def Pos.Line : Pos → List Mv → Prop
  | _, [] => True
  | P, mv :: mvs => P.Legal mv ∧ (P.play mv).Line mvs

/-- The position after the moves. -/
def Pos.after (P : Pos) (mvs : List Mv) : Pos := mvs.foldl Pos.play P

end Verif.Spec
