import Verif.Props.MatchCases

/-!
# C79: the last line of the record of a match game
-/

namespace Verif.Match
open Spec Bitboard Position

/-- **C79** (partial): the line that the match runner writes at the end of the CSA record says, by the CSA standard and with the side
to move at the end, the result that is counted.

Missing: the line `ILLEGAL_MOVE`, which says nothing; see `C79_fails`. -/
theorem C79_text_partial (Z : Zobrist) (T : Terms) (p : Position) (clock : Color → Option Int) (rs : List Reply) (w : Option Color)
    (text : String) (b : Board) (h : game Z T p clock rs = .ok (some ((w, text), b))) (ht : text ≠ "ILLEGAL_MOVE") :
    resultOf text b.pos.turn = resultOfWin w := by
  unfold game at h
  cases hx : loop Z T (start p clock) rs with
  | error => rw [hx] at h; cases h
  | ub => rw [hx] at h; cases h
  | ok x =>
    rw [hx] at h
    replace h : conclude T x = _ := h
    rcases x with _ | ⟨f, st⟩
    · cases h
    · unfold conclude verdict at h
      dsimp only at h
      cases ho : st.board.pos.isGameOver with
      | none => rw [ho] at h; cases h
      | some over =>
        rw [ho] at h
        dsimp only at h
        by_cases hl : (!over && decide (st.board.pos.gamePly > T.draw)) = true
        · rw [if_pos hl] at h; cases h; rfl
        · rw [if_neg hl] at h
          cases f <;> cases h
          · rfl
          · rfl
          · rfl
          · rfl
          · cases st.board.pos.turn <;> rfl
          · exact absurd rfl ht
          · rfl

/-- What ends a game is determined. -/
theorem endsBy_unique {R : Rules} {clock : Color → Option Int} {P : Pos} {h : List Pos} {ss : List Said} {r r' : Reason}
    (h1 : EndsBy R clock P h ss r) (h2 : EndsBy R clock P h ss r') : r = r' := by
  induction h1 with
  | limit _ _ _ _ a =>
    cases h2 with
    | limit => rfl
    | _ => exact absurd a (by omega)
  | time _ _ _ _ _ a b =>
    cases h2 with
    | limit _ _ _ _ a' => exact absurd a (by omega)
    | time => rfl
    | _ => contradiction
  | resign _ _ _ _ _ a b c =>
    cases h2 with
    | limit _ _ _ _ a' => exact absurd a (by omega)
    | resign => rfl
    | _ => contradiction
  | declare _ _ _ _ _ a b c d =>
    cases h2 with
    | limit _ _ _ _ a' => exact absurd a (by omega)
    | declare => rfl
    | announced _ _ _ _ _ _ _ _ _ d' => exact nomatch d.symm.trans d'
    | repeated _ _ _ _ _ _ _ _ _ _ d' => exact nomatch d.symm.trans d'
    | mate _ _ _ _ _ _ _ _ _ d' => exact nomatch d.symm.trans d'
    | next _ _ _ _ _ _ _ _ _ _ _ d' => exact nomatch d.symm.trans d'
    | illegal _ _ _ _ _ _ _ _ _ d' => exact nomatch d.symm.trans d'
    | _ => contradiction
  | illegal _ _ _ _ _ mv a b c d e =>
    cases h2 with
    | limit _ _ _ _ a' => exact absurd a (by omega)
    | illegal => rfl
    | declare _ _ _ _ _ _ _ _ d' => exact nomatch d.symm.trans d'
    | announced _ _ _ _ _ _ _ _ _ d' => rw [d] at d'; cases d' <;> contradiction
    | repeated _ _ _ _ _ _ _ _ _ _ d' => rw [d] at d'; cases d' <;> contradiction
    | mate _ _ _ _ _ _ _ _ _ d' => rw [d] at d'; cases d' <;> contradiction
    | next _ _ _ _ _ _ _ _ _ _ _ d' => rw [d] at d'; cases d' <;> contradiction
    | _ => contradiction
  | announced _ _ _ _ _ mv a b c d e f =>
    cases h2 with
    | limit _ _ _ _ a' => exact absurd a (by omega)
    | announced => rfl
    | declare _ _ _ _ _ _ _ _ d' => exact nomatch d.symm.trans d'
    | illegal _ _ _ _ _ _ _ _ _ d' => rw [d] at d'; cases d' <;> contradiction
    | _ => contradiction
  | repeated _ _ _ _ _ mv r a b c d e f g i =>
    cases h2 with
    | limit _ _ _ _ a' => exact absurd a (by omega)
    | declare _ _ _ _ _ _ _ _ d' => exact nomatch d.symm.trans d'
    | illegal _ _ _ _ _ _ _ _ _ d' => rw [d] at d'; cases d' <;> contradiction
    | repeated _ _ _ _ _ _ _ _ _ _ d' _ _ _ i' => rw [d] at d'; cases d'; rw [repeated_unique g i i']
    | mate _ _ _ _ _ _ _ _ _ d' => rw [d] at d'; cases d' <;> contradiction
    | next _ _ _ _ _ _ _ _ _ _ _ d' => rw [d] at d'; cases d' <;> contradiction
    | _ => contradiction
  | mate _ _ _ _ _ mv a b c d e f g i =>
    cases h2 with
    | limit _ _ _ _ a' => exact absurd a (by omega)
    | declare _ _ _ _ _ _ _ _ d' => exact nomatch d.symm.trans d'
    | illegal _ _ _ _ _ _ _ _ _ d' => rw [d] at d'; cases d' <;> contradiction
    | repeated _ _ _ _ _ _ _ _ _ _ d' => rw [d] at d'; cases d' <;> contradiction
    | mate => rfl
    | next _ _ _ _ _ _ mv' _ _ _ _ d' _ _ _ i' => rw [d] at d'; cases d'; exact absurd i' (i mv')
    | _ => contradiction
  | next _ _ _ _ _ mv mv' r a b c d e f g i j ih =>
    cases h2 with
    | limit _ _ _ _ a' => exact absurd a (by omega)
    | declare _ _ _ _ _ _ _ _ d' => exact nomatch d.symm.trans d'
    | illegal _ _ _ _ _ _ _ _ _ d' => rw [d] at d'; cases d' <;> contradiction
    | repeated _ _ _ _ _ _ _ _ _ _ d' => rw [d] at d'; cases d' <;> contradiction
    | mate _ _ _ _ _ _ _ _ _ d' _ _ _ i' => rw [d] at d'; cases d'; exact absurd i (i' mv')
    | next _ _ _ _ _ _ _ _ _ _ _ d' _ _ _ _ j' => rw [d] at d'; cases d'; exact ih j'
    | _ => contradiction

/-- **C79** (partial in the same way as `C77_result_partial`): the line gives the one reason for which the game ended. -/
theorem C79_reason_partial (Z : Zobrist) (p : Position) (hp : Inv Z p) (hc : CheckOK p) (hr : (absPos p).Regular) (hf : Fresh p)
    (hply : p.gamePly = 1) (hlive : ∃ mv, (absPos p).Legal mv) (R : Rules) (clock : Color → Option Int)
    (hb : ∀ c, clock c = none ∨ R.byoyomi c = 0) (ss : List Said) (hn : ss.length < 2147483647)
    (hu : Usual Z R (absPos p) clock (absPos p) [] ss) {reason : Reason} (hE : EndsBy R clock (absPos p) [] ss reason) {w : Option Color}
    {text : String} {b : Board} (h : game Z (termsOf R) p clock (ss.map replyOf) = .ok (some ((w, text), b))) :
    reason.Line b.pos.turn (R.limit < b.pos.gamePly) text := by
  obtain ⟨⟨x, h1, -, h2⟩, -⟩ := C77_result_partial Z p hp hc hr hf hply hlive R clock hb ss hn hu
  rw [h] at h1
  cases h1
  obtain ⟨-, reason', h3, h4⟩ := h2 _ _ rfl
  rw [endsBy_unique hE h3]
  exact h4

/-- As `perpetual`, with a pawn move on each side before the checks begin. -/
def perpetualLate : List Mv := [.move 60 59 false, .move 20 21 false, .move 70 20 true, .move 36 37 false, .move 20 29 false, .move 37 36 false,
  .move 78 77 false, .move 74 75 false,
  .move 29 20 false, .move 36 37 false, .move 20 29 false, .move 37 36 false,
  .move 29 20 false, .move 36 37 false, .move 20 29 false, .move 37 36 false,
  .move 29 20 false, .move 36 37 false, .move 20 29 false, .move 37 36 false]

/-- **C79** fails: Black, who has checked with every move, comes to the position for the fourth time with the move. White is given the
win, but the line that is written is `ILLEGAL_MOVE` without `%`, which says nothing about the game. -/
theorem C79_fails : startPos.Line perpetualLate ∧
    outcome (upTo 256) noClock (perpetualLate.map plain) = .ok (some (some .white, "ILLEGAL_MOVE")) ∧
    resultOf "ILLEGAL_MOVE" .black ≠ resultOfWin (some .white) := by
  refine ⟨start_line (by decide +kernel), by decide +kernel, by decide⟩

/-- The theorem applies to a resignation after two moves. -/
example : outcome (upTo 256) noClock [plain (.move 60 59 false), plain (.move 20 21 false), ⟨.resign, none, 0⟩] = .ok (some (some .white, "%TORYO")) ∧
    resultOf "%TORYO" .black = .wins .white := ⟨by decide +kernel, by decide⟩

end Verif.Match
