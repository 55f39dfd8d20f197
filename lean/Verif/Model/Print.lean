import Verif.Model.Csa

/-!
# Printing a board (src/position.cpp, src/cshogi.h, cshogi/_cshogi.pyx)
-/

namespace Verif.Csa

/-- The line above the board (src/position.cpp:2941). -/
def printTop : List Char := "'  9  8  7  6  5  4  3  2  1".toList

/-- `Position::print`, Python `repr(board)` (src/position.cpp:2940-2953, src/cshogi.h:153-157, _cshogi.pyx:482-483). Behind its first line the loops are those of
`toCSAPos`, word by word. -/
def printBoard (p : Position) : List Char := printTop ++ '\n' :: toCsaPos p

end Verif.Csa
