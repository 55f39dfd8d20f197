import Verif.Lemmas.Match
import Verif.Model.Match
import Verif.Props.PositionText

/-!
# Lemmas about match games
-/

namespace Verif.Match
open Spec Bitboard Position

/-- The arguments of the match runner. -/
def termsOf (R : Rules) : Terms := ⟨R.limit, R.resign, R.mateWin, R.inc⟩

/-- How an answer is written. -/
def answerText : Answer → List Char
  | .resign => "resign".toList
  | .declare => "win".toList
  | .move mv => usiText mv

def replyOf (s : Said) : Reply := ⟨answerText s.answer, s.score, s.millis⟩

/-- Text and meaning of a result. -/
def resultOfWin : Option Color → Result
  | none => .draw
  | some c => .wins c

theorem usiText_ne_resign (mv : Mv) : usiText mv ≠ "resign".toList := by
  intro h
  have := congrArg List.length h
  cases mv with
  | move f t pro => cases pro <;> simp [usiText] at this
  | drop k t => simp [usiText] at this

theorem usiText_ne_win (mv : Mv) : usiText mv ≠ "win".toList := by
  intro h
  have := congrArg List.length h
  cases mv with
  | move f t pro => cases pro <;> simp [usiText] at this
  | drop k t => simp [usiText] at this

/-- The state of a match game after a line of legal moves from the position `P0`. -/
structure At (Z : Zobrist) (p0 : Position) (P0 : Pos) (clock : Color → Option Int) (P : Pos) (h : List Pos) (st : State) : Prop where
  played : Played Z p0 P h st.board
  remain : st.remain = clock
  ply : st.board.pos.gamePly = h.length + 1
  counts : ∃ l, P :: h = l ++ [P0] ∧ st.counts = keyCount Z l
  few : ∀ r, occurrences r (P :: h) ≤ 3
  live : ∃ mv, P.Legal mv

theorem At.turn {Z : Zobrist} {p0 : Position} {P0 : Pos} {clock : Color → Option Int} {P : Pos} {h : List Pos} {st : State}
    (ha : At Z p0 P0 clock P h st) : st.board.pos.turn = P.turn := by rw [← ha.played.now]; rfl

theorem At.alive {Z : Zobrist} {p0 : Position} {P0 : Pos} {clock : Color → Option Int} {P : Pos} {h : List Pos} {st : State}
    (ha : At Z p0 P0 clock P h st) : st.board.pos.isGameOver = some false := by
  obtain ⟨over, e, hiff⟩ := ha.played.over
  obtain ⟨mv, hm⟩ := ha.live
  cases over
  · exact e
  · exact absurd hm (hiff.mp rfl mv)

/-- The clock. -/
theorem charge_spec {R : Rules} {st : State} {clock : Color → Option Int} {c : Color} (hc : st.remain = clock) (ht : st.board.pos.turn = c)
    (hb : clock c = none ∨ R.byoyomi c = 0) (s : Said) :
    ∃ up st', charge (termsOf R) st s.millis = (up, st') ∧ (up = true ↔ R.Overrun clock c s) ∧ st'.board = st.board ∧
      st'.counts = st.counts ∧ (up = false → st'.remain = R.charge clock c s) := by
  subst hc ht
  unfold charge Rules.Overrun Rules.charge
  dsimp only
  cases hr : st.remain st.board.pos.turn with
  | none =>
    refine ⟨false, st, rfl, by simp, rfl, rfl, fun _ => ?_⟩
    funext c'
    by_cases e : c' = st.board.pos.turn
    · subst e; simp [hr]
    · simp [e]
  | some t =>
    replace hb : R.byoyomi st.board.pos.turn = 0 := by
      rcases hb with hb | hb
      · rw [hr] at hb; cases hb
      · exact hb
    dsimp only
    rw [hb]
    by_cases h1 : t + ((termsOf R).inc st.board.pos.turn).getD 0 - s.millis < 0
    · rw [if_pos h1]
      have h1' : t + (R.inc st.board.pos.turn).getD 0 - s.millis < 0 := h1
      by_cases h2 : t + ((termsOf R).inc st.board.pos.turn).getD 0 - s.millis > -1000
      · rw [if_pos h2]
        have h2' : t + (R.inc st.board.pos.turn).getD 0 - s.millis > -1000 := h2
        refine ⟨_, _, rfl, ?_, rfl, rfl, fun _ => ?_⟩
        · simp; omega
        · funext c'
          by_cases e : c' = st.board.pos.turn
          · simp [e]; omega
          · simp [e]
      · rw [if_neg h2]
        have h2' : ¬ t + (R.inc st.board.pos.turn).getD 0 - s.millis > -1000 := h2
        refine ⟨_, _, rfl, ?_, rfl, rfl, fun h => by cases h⟩
        simp; omega
    · rw [if_neg h1]
      have h1' : ¬ t + (R.inc st.board.pos.turn).getD 0 - s.millis < 0 := h1
      refine ⟨_, _, rfl, ?_, rfl, rfl, fun _ => ?_⟩
      · simp; omega
      · funext c'
        by_cases e : c' = st.board.pos.turn
        · simp [e]
          have : 0 ≤ t + (R.inc st.board.pos.turn).getD 0 - s.millis := by omega
          rw [max_eq_right this]; rfl
        · simp [e]

theorem belowThreshold_iff (R : Rules) (s : Said) :
    belowThreshold (termsOf R) (replyOf s) = true ↔ ∃ n x, R.resign = some n ∧ s.score = some x ∧ x ≤ -n := by
  unfold belowThreshold
  show (match R.resign, s.score with | some n, some x => decide (x ≤ -n) | _, _ => false) = true ↔ _
  cases hr : R.resign <;> cases hs : s.score <;> simp

theorem announcesMate_iff (R : Rules) (s : Said) : announcesMate (termsOf R) (replyOf s) = true ↔ R.Announces s := by
  unfold announcesMate Rules.Announces
  show (R.mateWin && decide (s.score = some 100000)) = true ↔ _
  simp

/-- The line for each flag. -/
def flagLine (turn : Color) : Flag → String
  | .fourfold => "%SENNICHITE"
  | .nyugyoku => "%KACHI"
  | .illegal => "%ILLEGAL_MOVE"
  | .repetitionWin => if turn = .white then "%+ILLEGAL_ACTION" else "%-ILLEGAL_ACTION"
  | .repetitionLose => "ILLEGAL_MOVE"
  | .timeup => "%TIME_UP"
  | .stopped => "%TORYO"

/-- The verdict when the position is known. -/
theorem conclude_spec {T : Terms} {f : Flag} {st : State} {over : Bool} (ho : st.board.pos.isGameOver = some over)
    (hl : over = true ∨ st.board.pos.gamePly ≤ T.draw) {w : Option Color}
    (hw : w = match f with
      | .fourfold => none
      | .nyugyoku | .repetitionWin => some st.board.pos.turn
      | _ => some st.board.pos.turn.opp) :
    conclude T (some (f, st)) = .ok (some ((w, flagLine st.board.pos.turn f), st.board)) := by
  unfold conclude verdict
  dsimp only
  rw [ho]
  dsimp only
  have : (!over && decide (st.board.pos.gamePly > T.draw)) = false := by
    rcases hl with h | h
    · simp [h]
    · have : ¬ st.board.pos.gamePly > T.draw := by omega
      simp [this]
  rw [this]
  subst hw
  cases f <;> rfl

theorem conclude_limit {T : Terms} {f : Flag} {st : State} (ho : st.board.pos.isGameOver = some false)
    (hl : T.draw < st.board.pos.gamePly) : conclude T (some (f, st)) = .ok (some ((none, "%JISHOGI"), st.board)) := by
  unfold conclude verdict
  dsimp only
  rw [ho]
  dsimp only
  have : (!false && decide (st.board.pos.gamePly > T.draw)) = true := by simp; omega
  rw [this]
  rfl

open Classical in
theorem occurrences_cons (q r : Pos) (l : List Pos) : occurrences q (r :: l) = occurrences q l + if r = q then 1 else 0 := by
  unfold occurrences
  rw [List.countP_cons]
  by_cases h : r = q <;> simp [h]

open Classical in
theorem occurrences_snoc (q r : Pos) (l : List Pos) : occurrences q (l ++ [r]) = occurrences q l + if r = q then 1 else 0 := by
  unfold occurrences
  rw [List.countP_append, List.countP_cons]
  by_cases h : r = q <;> simp [h]

end Verif.Match
