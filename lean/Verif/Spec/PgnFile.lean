import Verif.Spec.Pgn

/-!
# Specification: reading PGN files

A file is a list of games. Each has tags, one on a line, and after an empty line the words of its moves. In the value of a tag a backslash stands
before a quote or a backslash that belongs to the value.
-/

namespace Verif.Spec

/-- The lines of a text; what stands behind the last line break is a line, too. -/
def pgnLines : List Char → List (List Char)
  | [] => [[]]
  | '\n' :: cs => [] :: pgnLines cs
  | c :: cs => match pgnLines cs with
    | [] => [[c]]
    | l :: ls => (c :: l) :: ls

/-- The value of a tag up to the quote at its end, and nothing but a bracket behind it. -/
def quoted : List Char → Option (List Char)
  | ['"', ']'] => some []
  | '"' :: _ => none
  | '\\' :: c :: cs => (quoted cs).map (c :: ·)
  | c :: cs => (quoted cs).map (c :: ·)
  | [] => none

/-- The tag on a line, without the bracket at its beginning: a name, a blank, a value in quotes. -/
def tagRest : List Char → Option (List Char × List Char)
  | ' ' :: '"' :: cs => (quoted cs).map fun v => ([], v)
  | ' ' :: _ => none
  | c :: cs => (tagRest cs).map fun t => (c :: t.1, t.2)
  | [] => none

/-- A game in a file. -/
structure PgnGame where
  tags : List (List Char × List Char)
  text : List (List Char)
deriving DecidableEq

/-- The games of a list of lines. What is read is added to the last of the games `gs`, but a tag begins a new game unless the line before was a
tag (`inTags`). -/
def gamesFrom (gs : List PgnGame) (inTags : Bool) : List (List Char) → Option (List PgnGame)
  | [] => some gs
  | [] :: ls => gamesFrom gs false ls
  | ('[' :: r) :: ls => (tagRest r).bind fun t => match inTags, gs.getLast? with
    | true, some g => gamesFrom (gs.dropLast ++ [{ g with tags := g.tags ++ [t] }]) true ls
    | _, _ => gamesFrom (gs ++ [⟨[t], []⟩]) true ls
  | (c :: r) :: ls => match gs.getLast? with
    | some g => gamesFrom (gs.dropLast ++ [{ g with text := g.text ++ words (c :: r) }]) false ls
    | none => none

/-- The games of a file. -/
def readGames (file : List Char) : Option (List PgnGame) := gamesFrom [] false (pgnLines file)

/-- The value of a tag. -/
def PgnGame.tag (g : PgnGame) (name : String) : Option (List Char) := (g.tags.find? fun t => decide (t.1 = name.toList)).map (·.2)

/-- Year, month and day. -/
def pgnDate (d : Nat × Nat × Nat) : List Char :=
  [digit (d.1 / 1000), digit (d.1 / 100 % 10), digit (d.1 / 10 % 10), digit (d.1 % 10), '.', digit (d.2.1 / 10), digit (d.2.1 % 10), '.',
    digit (d.2.2 / 10), digit (d.2.2 % 10)]

/-- The texts of the moves of a game. -/
def Pos.pgnTexts (q : Pos) : List Mv → List (List Char)
  | [] => []
  | mv :: mvs => q.pgnMove mv :: (q.play mv).pgnTexts mvs

/-- No move of the line is made with a promoted knight. -/
def Pos.NoProKnight (q : Pos) : List Mv → Prop
  | [] => True
  | mv :: mvs => (∀ s t pro c, mv = .move s t pro → q.board s ≠ some (c, .proKnight)) ∧ (q.play mv).NoProKnight mvs

/-- What a game should look like: the player who moves first is called White, as in chess. -/
def pgnGame (first second event site : List Char) (date : Nat × Nat × Nat) (round : Nat) (r : Option Result) (texts : Option (List (List Char))) : PgnGame :=
  ⟨[("Event".toList, event), ("Site".toList, site), ("Date".toList, pgnDate date), ("Round".toList, (toString round).toList),
    ("White".toList, first), ("Black".toList, second), ("Result".toList, pgnResult r)],
   match texts with
   | none => []
   | some ws => pgnWords 0 ws ++ [pgnResult r]⟩

/-- Whether a player won a game by its tags. -/
def PgnGame.wonBy (g : PgnGame) (name : List Char) : Bool :=
  decide (g.tag "White" = some name ∧ g.tag "Result" = some "1-0".toList ∨ g.tag "Black" = some name ∧ g.tag "Result" = some "0-1".toList)

/-- Whether a game was drawn by its tags. -/
def PgnGame.drawn (g : PgnGame) : Bool := decide (g.tag "Result" = some "1/2-1/2".toList)

/-- Texts that need no backslash and stay on one line. -/
def Unquoted (v : List Char) : Prop := '"' ∉ v ∧ '\\' ∉ v ∧ '\n' ∉ v

end Verif.Spec
