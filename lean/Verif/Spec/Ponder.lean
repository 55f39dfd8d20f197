import Verif.Spec.Duel

/-!
# Thinking in the opponent's time

An engine that has made its move may search the position after the reply that it expects. If the reply comes, it is told so and answers; if another
move comes, it stops, and what it answers then does not count.
-/

namespace Verif.Spec

/-- An engine that ponders: what it answers when it is told to stop, or that its guess was right. -/
structure Ponderer (σ : Type) extends Session.Player σ where
  found : σ → Session.Command → List Char × Option (List Char)

variable {σ τ : Type}

/-- What the engine writes in answer to a command. -/
def Ponderer.answers (Q : Ponderer σ) (s : σ) (c : Session.Command) : List (List Char) :=
  match c with
  | .ponderhit => Q.chat s c ++ [Session.bestLine (Q.found s c)]
  | .stop => Q.chat s c ++ [Session.bestLine (Q.found s c)]
  | c => Q.toPlayer.writes s c

/-- The engine hears a line. -/
def Ponderer.hears (Q : Ponderer σ) (s : σ) (line : List Char) : σ × List (List Char) :=
  match Session.readCommand line with
  | none => (s, [])
  | some c => (Q.next s c, Q.answers s c)

/-- A word of a line. -/
def IsWord (w : List Char) : Prop := w ≠ [] ∧ ' ' ∉ w ∧ '\n' ∉ w

/-- The engine writes `bestmove` only where an answer is due, and its moves are words. -/
structure Ponderer.Polite (Q : Ponderer σ) : Prop where
  search : ∀ s c, ∀ l ∈ Q.chat s c, l.take 8 ≠ "bestmove".toList
  best : ∀ s l, IsWord (Q.best s l).1 ∧ ∀ y ∈ (Q.best s l).2, IsWord y
  found : ∀ s c, IsWord (Q.found s c).1 ∧ ∀ y ∈ (Q.found s c).2, IsWord y

/-- The turn of an engine begins: it may have a guess, and the opponent's last move is known. Whether the guess was right, and the answer if it was. -/
def Ponderer.wakes (Q : Ponderer σ) (s : σ) (guess last : Option (List Char)) : σ × Option (List Char × Option (List Char)) :=
  if guess = none then (s, none)
  else if last = guess then (Q.next s .ponderhit, some (Q.found s .ponderhit))
  else (Q.next s .stop, none)

/-- If it was not right, the engine is told the game and the clocks, and thinks. -/
def Ponderer.thinks (Q : Ponderer σ) (past : List (List Char)) (l : Session.Limits) :
    σ × Option (List Char × Option (List Char)) → σ × List Char × Option (List Char)
  | (s, some x) => (s, x)
  | (s, none) => (Q.next (Q.next s (.position "startpos".toList past)) (.go l), Q.best (Q.next s (.position "startpos".toList past)) l)

/-- A turn of an engine: its state afterwards, and its move with the next guess. -/
def Ponderer.turn (Q : Ponderer σ) (s : σ) (guess last : Option (List Char)) (past : List (List Char)) (l : Session.Limits) : σ × List Char × Option (List Char) :=
  Q.thinks past l (Q.wakes s guess last)

/-- After its move, if there is a guess: the engine is told the game as it expects it, and searches in the opponent's time. -/
def Ponderer.muses (Q : Ponderer σ) (s : σ) (past : List (List Char)) (l : Session.Limits) : Option (List Char) → σ
  | none => s
  | some w => Q.next (Q.next s (.position "startpos".toList (past ++ [w]))) (.go { l with ponder := true })

/-! ### Players at a board -/

/-- A player who thinks in the opponent's time: the answer and the guess for a position, the mind afterwards; the mind that muses about a position; the answer
to it when it has come about; the mind that has mused in vain. -/
structure Muser (τ : Type) where
  answer : τ → Pos → Session.Limits → Answer × Option Mv
  after : τ → Pos → Session.Limits → τ
  muse : τ → Pos → Session.Limits → τ
  ripe : τ → Pos → Answer × Option Mv
  afterRipe : τ → Pos → τ
  vain : τ → τ

/-- A turn at the board, with the guess and the opponent's last move. -/
def Muser.turn (A : Muser τ) (m : τ) (guess last : Option Mv) (P : Pos) (l : Session.Limits) : τ × Answer × Option Mv :=
  if guess = none then (A.after m P l, A.answer m P l)
  else if last = guess then (A.afterRipe m P, A.ripe m P)
  else (A.after (A.vain m) P l, A.answer (A.vain m) P l)

/-- After the move: musing about the position to come. `P` is the position after the move. -/
def Muser.muses (A : Muser τ) (m : τ) (P : Pos) (l : Session.Limits) : Option Mv → τ
  | none => m
  | some w => A.muse m (P.play w) { l with ponder := true }

/-- The move of an answer. -/
def Answer.played : Answer → Option Mv
  | .move mv => some mv
  | _ => none

/-- The game that two such players play at a board, given the milliseconds of each turn and the score that is read: what they say, and what they guess. -/
def ponderBoard (R : Rules) (byoyomi : Color → Option Int) (A : Color → Muser τ) :
    (Color → τ) → (Color → Option Mv) → (Color → Option Int) → Pos → Option Mv → List (Int × Option Int) → List (Said × Option Mv)
  | _, _, _, _, _, [] => []
  | m, guess, clock, P, last, d :: ds =>
    let x := (A P.turn).turn (m P.turn) (guess P.turn) last P (limitsOf R byoyomi clock P.turn)
    let s : Said := ⟨x.2.1, d.2, d.1⟩
    (s, x.2.2) :: ponderBoard R byoyomi A
      (fun c => if c = P.turn then (A P.turn).muses x.1 (P.answered x.2.1) (limitsOf R byoyomi (R.charge clock P.turn s) P.turn) x.2.2 else m c)
      (fun c => if c = P.turn then x.2.2 else guess c) (R.charge clock P.turn s) (P.answered x.2.1) x.2.1.played ds

end Verif.Spec
