import Verif.Spec.Match
import Verif.Spec.Usi
import Verif.Spec.Loose
import Verif.Spec.CsaFile

/-!
# What the record of a match game should tell
-/

namespace Verif.Spec

/-- A score as a number, 100000 for mate. -/
def Score.number : Score → Int
  | .cp n => n
  | .mate n => if n < 0 then -100000 else 100000
  | .mateSoon lost => if lost then -100000 else 100000

/-- What a player tells: any lines, and a last one with numbers, the score, numbers, the variation `first :: rest` and further moves. -/
structure Told where
  earlier : List (List Char)
  before : List (List Char × Int)
  score : Score
  after : List (List Char × Int)
  first : Mv
  rest : List Mv
  bad : List Mv

/-- What a player says in a turn: information, if there is any, the answer, a move to think about meanwhile, and the time taken. -/
structure Spoken where
  last : Option Told
  answer : Answer
  ponder : Option Mv
  micros : Nat

/-- What matters for the result: the milliseconds begun. -/
def Spoken.said (s : Spoken) : Said := ⟨s.answer, s.last.map fun t => t.score.number, (((s.micros + 999) / 1000 : Nat) : Int)⟩

/-- The line is as it should be for a player who answers `mv` in `P`: the score fits into 32 bits and is not a mate in 0, the variation begins with the
answer and consists of legal moves, and what follows cannot be mistaken for one. -/
structure Told.Fine (P : Pos) (mv : Mv) (t : Told) : Prop where
  after : ∀ x ∈ t.after, NumberName x.1
  range : ∀ n, t.score = .cp n → -2147483647 ≤ n ∧ n ≤ 2147483647
  nonzero : t.score ≠ .mate 0
  first : t.first = mv
  line : P.Line (t.first :: t.rest)
  bad : ∀ m l, t.bad = m :: l → ¬ (P.after (t.first :: t.rest)).Loose m

/-- Whose score it is: from Black's side. -/
def forBlack (c : Color) (v : Int) : Int := if c = .black then v else -v

/-- What belongs behind the move: the score from Black's side and the variation after the move. -/
def Spoken.note (P : Pos) (s : Spoken) : Note :=
  match s.last with
  | none => .silent
  | some t => .score (forBlack P.turn t.score.number) ([' '].intercalate (csaMoves (P.play t.first) t.rest))

/-- The moves with whole seconds and notes are those of the answers, as many as there are moves. -/
def Kept : Pos → List Spoken → List (Mv × Nat × Note) → Prop
  | _, _, [] => True
  | _, [], _ :: _ => False
  | P, s :: ss, x :: xs => s.answer = .move x.1 ∧ P.Legal x.1 ∧ x.2.1 * 1000000 ≤ s.micros ∧ s.micros < (x.2.1 + 1) * 1000000 ∧ x.2.2 = s.note P ∧
    Kept (P.play x.1) ss xs

end Verif.Spec
