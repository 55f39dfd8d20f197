import Verif.Spec.Line

/-!
# Lines of information from a USI engine

An `info` line with numbers, a score and a principal variation, as the USI protocol describes them.
-/

namespace Verif.Spec

/-- A score: in hundredths of a pawn, mate in a number of plies (negative: the engine's own king is mated), or mate of unknown length. -/
inductive Score where
  | cp (n : Int)
  | mate (n : Int)
  | mateSoon (lost : Bool)

/-- Whether the engine wins, loses, or neither is known to be forced. A mate in 0 is left open. -/
def Score.forced : Score → Option Bool
  | .cp _ => none
  | .mate n => if n > 0 then some true else if n < 0 then some false else none
  | .mateSoon lost => some (!lost)

/-- The score as a number, with `big` for mate. -/
def Score.Is (big : Int) (s : Score) (v : Int) : Prop :=
  match s with
  | .cp n => v = n
  | s => (s.forced = some true → v = big) ∧ (s.forced = some false → v = -big)

/-- An `info` line: numbers before the score, the score, numbers after it and the moves, at least one. -/
structure InfoLine where
  before : List (List Char × Int)
  score : Score
  after : List (List Char × Int)
  first : List Char
  rest : List (List Char)

/-- Names of numbers: lower-case letters, and none of the words with a meaning of their own. -/
def NumberName (w : List Char) : Prop :=
  w ≠ [] ∧ (∀ c ∈ w, 97 ≤ c.toNat ∧ c.toNat ≤ 122) ∧
    w ≠ "pv".toList ∧ w ≠ "string".toList ∧ w ≠ "score".toList ∧ w ≠ "cp".toList ∧ w ≠ "mate".toList

/-- Words in the place of moves: no blanks of any kind, and not `pv`. -/
def MoveWord (w : List Char) : Prop := w ≠ [] ∧ (∀ c ∈ w, 32 < c.toNat ∧ c.toNat < 127) ∧ w ≠ "pv".toList

structure InfoLine.Valid (l : InfoLine) : Prop where
  before : ∀ x ∈ l.before, NumberName x.1
  after : ∀ x ∈ l.after, NumberName x.1
  first : MoveWord l.first
  rest : ∀ w ∈ l.rest, MoveWord w

/-- The names of the pieces in the CSA format. -/
def csaName : Kind → List Char
  | .pawn => ['F', 'U'] | .lance => ['K', 'Y'] | .knight => ['K', 'E'] | .silver => ['G', 'I'] | .gold => ['K', 'I'] | .bishop => ['K', 'A']
  | .rook => ['H', 'I'] | .king => ['O', 'U'] | .proPawn => ['T', 'O'] | .proLance => ['N', 'Y'] | .proKnight => ['N', 'K']
  | .proSilver => ['N', 'G'] | .horse => ['U', 'M'] | .dragon => ['R', 'Y']

/-- File and rank as digits. -/
def squareDigits (s : Square) : List Char := [Char.ofNat (49 + s.val / 9), Char.ofNat (49 + s.val % 9)]

/-- A move as the CSA format writes it: the side, where from (`00` for a drop), where to, and the piece after the move. -/
def csaMove (P : Pos) (mv : Mv) : List Char :=
  (if P.turn = .black then '+' else '-') ::
    match mv with
    | .move f t _ => squareDigits f ++ squareDigits t ++ ((((P.play mv).board t).map fun x => csaName x.2).getD [])
    | .drop k t => ['0', '0'] ++ squareDigits t ++ csaName k.kind

/-- A line of moves in the CSA format. -/
def csaMoves : Pos → List Mv → List (List Char)
  | _, [] => []
  | P, mv :: mvs => csaMove P mv :: csaMoves (P.play mv) mvs

end Verif.Spec
