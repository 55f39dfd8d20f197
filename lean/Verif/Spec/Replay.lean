import Verif.Spec.Web
import Verif.Spec.CsaFile

/-!
# What a page about a recorded game has to show
-/

namespace Verif.Spec.Web

/-- Moves one after the other with the signs of the sides, every square by its name. -/
def plainLine (P : Pos) : List Mv → List (List Char)
  | [] => []
  | mv :: mvs => (sign P.turn :: kifMove P none mv) :: plainLine (P.play mv) mvs

/-- The words for the ends of games, with the names in CSA records. -/
def endWords : List (List Char × String) :=
  [("投了".toList, "%TORYO"), ("切れ負け".toList, "%TIME_UP"), ("反則負け".toList, "%ILLEGAL_MOVE"), ("入玉宣言".toList, "%KACHI"),
   ("千日手".toList, "%SENNICHITE"), ("持将棋".toList, "%JISHOGI"), ("中断".toList, "%CHUDAN")]

/-- What the last line says: the side to move, and what happened. -/
def readEnd : List Char → Option (Color × String)
  | [] => none
  | c :: t => if c = '▲' then (endWords.lookup t).map fun e => (.black, e) else if c = '△' then (endWords.lookup t).map fun e => (.white, e) else none

end Verif.Spec.Web
