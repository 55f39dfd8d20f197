import Verif.Spec.Rules
import Verif.Spec.Record

/-!
# Specification: moves and games in PGN
-/

namespace Verif.Spec

/-- The words of a text, blanks and line breaks between them; `cur` is the word begun. -/
def wordsFrom : List Char → List Char → List (List Char)
  | cur, [] => if cur = [] then [] else [cur]
  | cur, c :: cs => if c = ' ' ∨ c = '\n' then (if cur = [] then wordsFrom [] cs else cur :: wordsFrom [] cs) else wordsFrom (cur ++ [c]) cs

/-- The words of a text. -/
def words (text : List Char) : List (List Char) := wordsFrom [] text

/-- The letters of the pieces. -/
def pgnKind : Kind → List Char
  | .pawn => ['P'] | .lance => ['L'] | .knight => ['N'] | .silver => ['S'] | .bishop => ['B'] | .rook => ['R'] | .gold => ['G']
  | .king => ['K'] | .proPawn => ['+', 'P'] | .proLance => ['+', 'L'] | .proKnight => ['+', 'N'] | .proSilver => ['+', 'S']
  | .horse => ['+', 'B'] | .dragon => ['+', 'R']

/-- Files are lettered from White's right hand, that is from file 9, and ranks are counted from Black's side. -/
def pgnSquare (s : Square) : List Char := [Char.ofNat (97 + (8 - s.val / 9)), Char.ofNat (48 + (9 - s.val % 9))]

/-- The text of a move. -/
def Pos.pgnMove (q : Pos) : Mv → List Char
  | .drop h t => pgnKind h.kind ++ '@' :: pgnSquare t
  | .move s t pro => (match q.board s with | some (_, k) => pgnKind k | none => []) ++ pgnSquare s ++ pgnSquare t ++ (if pro then ['+'] else [])

/-- The words for the moves from move `i` on (counted from 0), given their texts: a number before each of Black's moves. -/
def pgnWords : Nat → List (List Char) → List (List Char)
  | _, [] => []
  | i, w :: ws => (if i % 2 = 0 then [(toString (i / 2 + 1)).toList ++ ['.'], w] else [w]) ++ pgnWords (i + 1) ws

/-- The result, Black's side first; a star if there is none. -/
def pgnResult : Option Result → List Char
  | some (.wins .black) => ['1', '-', '0']
  | some (.wins .white) => ['0', '-', '1']
  | some .draw => ['1', '/', '2', '-', '1', '/', '2']
  | none => ['*']

end Verif.Spec
