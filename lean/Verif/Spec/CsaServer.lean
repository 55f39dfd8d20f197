import Verif.Spec.Geometry

/-!
# Specification: what game servers add to CSA records

Floodgate writes the ratings of the players and a summary of the game into comment lines.
-/

namespace Verif.Spec

/-- The line with the rating of one side. -/
def ratingLine (c : Color) (name value : List Char) : List Char :=
  (match c with | .black => "'black_rate:".toList | .white => "'white_rate:".toList) ++ (name ++ ':' :: value)

/-- The word for the result of side `c` if `winner` won. -/
def verdictWord (winner : Option Color) (c : Color) : List Char :=
  match winner with
  | none => "draw".toList
  | some w => if w = c then "win".toList else "lose".toList

/-- The line with the reason of the end and the results of both sides. -/
def summaryLine (reason black white : List Char) (winner : Option Color) : List Char :=
  "'summary:".toList ++ (reason ++ ':' :: (black ++ ' ' :: (verdictWord winner .black ++
    ':' :: (white ++ ' ' :: verdictWord winner .white))))

example : summaryLine "toryo".toList "A".toList "B".toList (some .white) = "'summary:toryo:A lose:B win".toList := by decide
example : ratingLine .black "A+0123".toList "1530.5".toList = "'black_rate:A+0123:1530.5".toList := by decide

/-- The word the record is given for the reason, if it is given one. -/
def reasonWord (reason : List Char) : Option (List Char) :=
  if reason = "illegal move".toList then some "%ILLEGAL_MOVE".toList
  else if reason = "max_moves".toList then some "%JISHOGI".toList
  else if reason = "abnormal".toList then some "%ERROR".toList
  else none

end Verif.Spec
