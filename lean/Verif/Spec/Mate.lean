import Verif.Spec.Rules

/-!
# Specification: forced mate

A forced mate is a strategy of checks. `allow` restricts the replies that are considered; with `fun _ _ => True` every legal reply
counts.
-/

namespace Verif.Spec

/-- The mover moves a pawn, bishop or rook in or into the promotion zone, or a lance to the last two ranks, and does not promote. -/
def Declines (q : Pos) (m : Mv) : Prop :=
  ∃ f t k, m = .move f t false ∧ q.board f = some (q.turn, k) ∧
    ((k = .pawn ∨ k = .bishop ∨ k = .rook) ∧ (zone q.turn f ∨ zone q.turn t) ∨ k = .lance ∧ farRank q.turn t ≤ 1)

/-- Every reply counts. -/
def anyReply : Pos → Mv → Prop := fun _ _ => True

/-- Replies that do not decline such a promotion. -/
def keenReply : Pos → Mv → Prop := fun q m => ¬ Declines q m

/-- The side to move is in check and will be mated after at most `n` of its own moves, if it plays allowed replies: the
opponent always has a legal move that gives check again. -/
def LosesIn (allow : Pos → Mv → Prop) : Nat → Pos → Prop
  | 0, q => q.Mated
  | n + 1, q => q.InCheck q.turn ∧ ∀ m, q.Legal m → allow q m →
      ∃ m', (q.play m).Legal m' ∧ LosesIn allow n ((q.play m).play m')

/-- The side to move has a legal move after which the opponent loses in `n`: a forced mate in `2 n + 1` plies. -/
def MatesIn (allow : Pos → Mv → Prop) (n : Nat) (q : Pos) : Prop := ∃ m, q.Legal m ∧ LosesIn allow n (q.play m)

/-! ### With repetition -/

/-- How a position that occurred before is judged, for the side to move. -/
inductive Verdict where
  | new | draw | win | lose | superior | inferior
  deriving DecidableEq

/-- A game: states with a position and a history, what a move does, and a judge of repetitions. -/
structure GameTree (S : Type) where
  view : S → Pos
  next : S → Mv → S → Prop
  judge : S → Verdict → Prop

/-- As `LosesIn`, in a game with a judge. After a reply, a repetition judged as a win of the opponent ends the line, a position that
is new or better for the opponent is played on, and any other repetition saves the side to move. After a check, a repetition judged
as a loss of the side to move ends the line, and only a position that is new or worse for the side to move is played on. The
last three plies are not judged. -/
def GLosesIn {S : Type} (G : GameTree S) (allow : Pos → Mv → Prop) : Nat → S → Prop
  | 0, s => (G.view s).Mated
  | n + 1, s => (G.view s).InCheck (G.view s).turn ∧ ∀ m, (G.view s).Legal m → allow (G.view s) m →
      ∃ s', G.next s m s' ∧ (G.judge s' .win ∨ (G.judge s' .new ∨ G.judge s' .superior) ∧
        (n ≤ 1 ∧ MatesIn allow n (G.view s') ∨
          2 ≤ n ∧ ∃ m', (G.view s').Legal m' ∧ ∃ s'', G.next s' m' s'' ∧
            (G.judge s'' .lose ∨ (G.judge s'' .new ∨ G.judge s'' .inferior) ∧ GLosesIn G allow n s'')))

/-- A forced mate in `2 n + 1` plies in a game with a judge. -/
def GMatesBy {S : Type} (G : GameTree S) (allow : Pos → Mv → Prop) (n : Nat) (s : S) (m : Mv) : Prop :=
  (G.view s).Legal m ∧ ∃ s', G.next s m s' ∧ (G.judge s' .lose ∨ (G.judge s' .new ∨ G.judge s' .inferior) ∧ GLosesIn G allow n s')

/-! ### The mates a search of fixed depth sees -/

/-- The side to move has a check after which every allowed reply leads to a state in which `one` holds. Nothing is judged. -/
def Three {S : Type} (G : GameTree S) (allow : Pos → Mv → Prop) (one : S → Prop) (s : S) : Prop :=
  ∃ m, (G.view s).Legal m ∧ ∃ s', G.next s m s' ∧ (G.view s').InCheck (G.view s').turn ∧
    ∀ m', (G.view s').Legal m' → allow (G.view s') m' → ∃ s'', G.next s' m' s'' ∧ one s''

/-- The side to move is in check and after each of its allowed replies the opponent wins by the judge, or the state is new or
better for the opponent and `then_` holds. -/
def Answers {S : Type} (G : GameTree S) (allow : Pos → Mv → Prop) (then_ : S → Prop) (s : S) : Prop :=
  (G.view s).InCheck (G.view s).turn ∧ ∀ m, (G.view s).Legal m → allow (G.view s) m →
    ∃ s', G.next s m s' ∧ (G.judge s' .win ∨ (G.judge s' .new ∨ G.judge s' .superior) ∧ then_ s')

/-- The side to move has a check `m` after which the opponent loses by the judge, or the state is new or worse for the opponent and
`then_` holds. -/
def ChecksBy {S : Type} (G : GameTree S) (then_ : S → Prop) (s : S) (m : Mv) : Prop :=
  (G.view s).Legal m ∧ ∃ s', G.next s m s' ∧ (G.view s').InCheck (G.view s').turn ∧
    (G.judge s' .lose ∨ (G.judge s' .new ∨ G.judge s' .inferior) ∧ then_ s')

/-- A forced mate in `2 (n + 1)` plies whose last move `one` accounts for, with every move up to the third last judged. -/
def Caught {S : Type} (G : GameTree S) (allow : Pos → Mv → Prop) (one : S → Prop) : Nat → S → Prop
  | 0 => Answers G allow one
  | 1 => Answers G allow (Three G allow one)
  | n + 2 => Answers G allow fun s => ∃ m, ChecksBy G (Caught G allow one (n + 1)) s m

/-- A forced mate in `2 (n + 1)` plies in which, after the last reply, the mating side is not in check and `one` holds. Nothing is judged. -/
def Forced (allow : Pos → Mv → Prop) (one : Pos → Prop) : Nat → Pos → Prop
  | 0, q => q.InCheck q.turn ∧ ∀ m, q.Legal m → allow q m → ¬ (q.play m).InCheck (q.play m).turn ∧ one (q.play m)
  | n + 1, q => q.InCheck q.turn ∧ ∀ m, q.Legal m → allow q m → ∃ m', (q.play m).Legal m' ∧ Forced allow one n ((q.play m).play m')

end Verif.Spec
