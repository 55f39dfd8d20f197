import Verif.Spec.MatchCsa
import Verif.Spec.UsiSession

/-!
# Two players at a board

A player looks at the board and at the clocks, thinks and answers.
-/

namespace Verif.Spec

/-- What a player knows about the time: both clocks, the byoyomi for the move and the increments. -/
def limitsOf (R : Rules) (byoyomi : Color → Option Int) (clock : Color → Option Int) (c : Color) : Session.Limits where
  ponder := false
  btime := clock .black
  wtime := clock .white
  byoyomi := byoyomi c
  binc := R.inc .black
  winc := R.inc .white
  nodes := none

/-- A player with a mind `τ`: what is told about a position with some time to think, the answer, the move to ponder on, and the mind afterwards. -/
structure Thinker (τ : Type) where
  told : τ → Pos → Session.Limits → Option Told
  answer : τ → Pos → Session.Limits → Answer
  ponder : τ → Pos → Session.Limits → Option Mv
  after : τ → Pos → Session.Limits → τ

/-- What the player says, having thought for some microseconds. -/
def Thinker.speak {τ : Type} (A : Thinker τ) (m : τ) (P : Pos) (l : Session.Limits) (micros : Nat) : Spoken :=
  ⟨A.told m P l, A.answer m P l, A.ponder m P l, micros⟩

/-- The position after an answer. -/
def Pos.answered (P : Pos) : Answer → Pos
  | .move mv => P.play mv
  | _ => P

/-- The game that the two play at the board, given the time that each turn takes: what they say, one after the other, each seeing the position and the
clocks. (What would be said after the end of the game does not matter.) -/
def overBoard {τ : Type} (R : Rules) (byoyomi : Color → Option Int) (A : Color → Thinker τ) : (Color → τ) → (Color → Option Int) → Pos → List Nat → List Spoken
  | _, _, _, [] => []
  | m, clock, P, d :: ds =>
    let l := limitsOf R byoyomi clock P.turn
    let s := (A P.turn).speak (m P.turn) P l d
    s :: overBoard R byoyomi A (fun c => if c = P.turn then (A P.turn).after (m P.turn) P l else m c) (R.charge clock P.turn s.said) (P.answered s.answer) ds

end Verif.Spec
