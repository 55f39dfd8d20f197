import Verif.Props.MatchCases

/-!
# C77: a game that meets the hypotheses
-/

namespace Verif.Match
open Spec Bitboard Position

/-- No two positions along a line share a key. -/
def distinctLineB (Z : Zobrist) (P : Pos) (h : List Pos) : List Mv → Bool
  | [] => true
  | mv :: mvs => promotionB P mv && distinctB Z (P.play mv) (P :: h) && distinctLineB Z (P.play mv) (P :: h) mvs

theorem usual_line {Z : Zobrist} {R : Rules} {P0 : Pos} {ss : List Said} : ∀ (mvs : List Mv) {P : Pos} {h : List Pos},
    noFourB P h mvs = true → distinctLineB Z P h mvs = true → (∀ t, Usual Z R P0 noClock (P.after mvs) t ss) →
    Usual Z R P0 noClock P h (mvs.map plain ++ ss)
  | [], _, h, _, _, hu => hu h
  | mv :: mvs, P, h, hf, hd, hu => by
    unfold noFourB at hf
    unfold distinctLineB at hd
    rw [Bool.and_eq_true, decide_eq_true_eq, ← occurrences_sameB] at hf
    rw [Bool.and_eq_true, Bool.and_eq_true] at hd
    have ha : ¬ R.Announces (plain mv) := by rintro ⟨-, h⟩; cases h
    refine fun _ _ _ => ⟨fun h => absurd h ha, fun _ h => (nomatch h), fun mv' e => ?_⟩
    obtain rfl : mv = mv' := by cases e; rfl
    refine ⟨promotionB_ok hd.1.1, fun _ _ => ⟨(distinctB_spec hd.1.2).1, fun h4 => absurd h4 hf.1, fun _ => ?_⟩⟩
    rw [charge_noClock]
    exact usual_line mvs hf.2 hd.2 hu

/-- Three moves from the starting position and a resignation: the hypotheses of `C77_result_partial` are met, and Black wins. -/
example : let ss := [Mv.move 60 59 false, .move 20 21 false, .move 70 20 true].map plain ++ [⟨.resign, none, 0⟩]
    Inv mixKeys startGame ∧ CheckOK startGame ∧ (absPos startGame).Regular ∧ Fresh startGame ∧ startGame.gamePly = 1 ∧
    (∃ mv, (absPos startGame).Legal mv) ∧ Usual mixKeys (upTo 256) (absPos startGame) noClock (absPos startGame) [] ss ∧
    outcome (upTo 256) noClock ss = .ok (some (some .black, "%TORYO")) := by
  have hl : startPos.Line [.move 60 59 false, .move 20 21 false, .move 70 20 true] := start_line (by decide +kernel)
  refine ⟨startGame_good.inv, startGame_good.check, startGame_good.regular, startGame_fresh.1, startGame_fresh.2,
    ⟨_, startGame_spec.2 ▸ hl.1⟩, ?_, by decide +kernel⟩
  rw [startGame_spec.2]
  refine usual_line _ (by decide +kernel) (by decide +kernel) fun t => ?_
  exact fun _ _ _ => ⟨fun h => (nomatch h.2), fun _ h => (nomatch h), fun mv e => (nomatch e)⟩

end Verif.Match
