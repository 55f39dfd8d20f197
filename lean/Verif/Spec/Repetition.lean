import Verif.Spec.Rules
import Verif.Model.Repetition

/-!
# Repetition by the rules

`rec` is the record of a game since the last pass: the current position first, then the position one ply earlier, and so on.
-/

namespace Verif.Spec

/-- The side to move in `q` has at least the pieces in hand that it has in `r`. -/
def Pos.HandGE (q r : Pos) : Prop := ∀ k, r.hand q.turn k ≤ q.hand q.turn k

/-- `r` is the same board with the same side to move, and the hands can be compared. -/
def Pos.Recurs (q r : Pos) : Prop := r.board = q.board ∧ r.turn = q.turn ∧ (r.hand = q.hand ∨ q.HandGE r ∨ r.HandGE q)

/-- All of `c`'s moves among the last `d` plies gave check. -/
def Perpetual (record : List Pos) (c : Color) (d : Nat) : Prop :=
  ∀ j < d, ∀ r, record[j]? = some r → r.turn = c.opp → r.InCheck c.opp

/-- The distances that are looked at. -/
def Distance (limit : Int) (d : Nat) : Prop := 4 ≤ d ∧ d % 2 = 0 ∧ (d : Int) ≤ limit

/-- The verdict, for the side to move in `q`, when `r` recurs after `d` plies. -/
def Judge (record : List Pos) (q r : Pos) (d : Nat) : Repetition → Prop
  | .none => False
  | .lose => r = q ∧ Perpetual record q.turn d
  | .win => r = q ∧ ¬ Perpetual record q.turn d ∧ Perpetual record q.turn.opp d
  | .draw => r = q ∧ ¬ Perpetual record q.turn d ∧ ¬ Perpetual record q.turn.opp d
  | .superior => r ≠ q ∧ q.HandGE r
  | .inferior => r ≠ q ∧ ¬ q.HandGE r ∧ r.HandGE q

/-- The verdict on a record: that of the nearest recurrence. -/
def IsVerdict (q : Pos) (h : List Pos) (limit : Int) (v : Repetition) : Prop :=
  (∃ d r, Distance limit d ∧ (q :: h)[d]? = some r ∧ q.Recurs r ∧ Judge (q :: h) q r d v ∧
    ∀ d' r', Distance limit d' → d' < d → (q :: h)[d']? = some r' → ¬ q.Recurs r') ∨
  (v = .none ∧ ∀ d r, Distance limit d → (q :: h)[d]? = some r → ¬ q.Recurs r)

end Verif.Spec
