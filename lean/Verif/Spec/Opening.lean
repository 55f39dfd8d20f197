import Verif.Spec.Line

/-!
# Openings
-/

namespace Verif.Spec

/-- A line of a file of openings: how the game starts, and the texts of its moves. -/
def openingText (texts : List (List Char)) : List Char := "startpos moves".toList ++ texts.flatMap fun t => ' ' :: t

/-- The moves of an opening of which at most `limit` are to be played. -/
def cut (limit : Int) (mvs : List Mv) : List Mv := mvs.take limit.toNat

end Verif.Spec
