import Verif.Model.Pgn
import Verif.Model.Match

/-!
# PGN files (cshogi/PGN.py, cshogi/cli.py)

What `Exporter.tag_pair` and `Exporter.movetext` append to the file. The clock of the machine is an input. `none` is an exception.
-/

namespace Verif.Pgn

/-- `strftime` with `%m` or `%d`. -/
def twoDigits (n : Nat) : List Char := if n < 10 then '0' :: natChars n else natChars n

/-- `strftime('%Y.%m.%d')` (cshogi/PGN.py:75), for years from 1000 to 9999. -/
def dateTag (d : Nat × Nat × Nat) : List Char := natChars d.1 ++ '.' :: (twoDigits d.2.1 ++ '.' :: twoDigits d.2.2)

/-- `'[Name "' + value + '"]\n'` (cshogi/PGN.py:73-78, 87). -/
def tagLine (name : String) (value : List Char) : List Char := '[' :: (name.toList ++ (' ' :: '"' :: (value ++ ['"', ']', '\n'])))

/-- `Exporter.tag_pair` (cshogi/PGN.py:61-88). -/
def tagPair (names : List Char × List Char) (win : Option Csa.Win) (event site : List Char) (date : Nat × Nat × Nat) (round : Nat) : List Char :=
  tagLine "Event" event ++ (tagLine "Site" site ++ (tagLine "Date" (dateTag date) ++ (tagLine "Round" (natChars round) ++
    (tagLine "White" names.1 ++ (tagLine "Black" names.2 ++ (tagLine "Result" (resultText win) ++ ['\n']))))))

/-- The result handed to `tag_pair` by the match runner (cshogi/cli.py:522-527). -/
def winCode : Option Color → Option Csa.Win
  | some .black => some .black
  | some .white => some .white
  | none => some .draw

/-- What the match runner appends after game `n` (cshogi/cli.py:197-208, 521-530), with the names of the engines. -/
def matchGame (noSwap noMoves : Bool) (engines : List Char × List Char) (date : Nat × Nat × Nat) (n : Nat) (win : Option Color) (ms : List Move) :
    Option (List Char) :=
  let names := if Match.firstIsBlack noSwap n then engines else (engines.2, engines.1)
  let tags := tagPair names (winCode win) ['?'] ['?'] date (n + 1)
  if noMoves then some tags else (movetext ms (winCode win)).map fun t => tags ++ t

/-- What it appends in all, from game `n` on: the date, the winner and the moves of each game. -/
def matchFile (noSwap noMoves : Bool) (engines : List Char × List Char) : Nat → List ((Nat × Nat × Nat) × Option Color × List Move) → Option (List Char)
  | _, [] => some []
  | n, g :: gs => (matchGame noSwap noMoves engines g.1 n g.2.1 g.2.2).bind fun a => (matchFile noSwap noMoves engines (n + 1) gs).map fun b => a ++ b

end Verif.Pgn
