import Verif.Model.History
import Verif.Spec.History
import Verif.Lemmas.Replay
import Verif.Props.Legal
import Verif.Lemmas.DfpnBase

/-!
# C96: the history of a board

`history`, `peek`, `pop` and `move_number` tell the moves and passes that stand, and the board shows the position they lead to.
-/

namespace Verif
open Spec Bitboard Position

/-- The position after the standing moves and passes (the newest first), all moves legal where they were made. -/
inductive Reached (P : Pos) : List Op → Pos → Prop
  | start : Reached P [] P
  | move {s : List Op} {Q : Pos} {m : Move} {mv : Mv} : Reached P s Q → Web.Codes m mv → Q.Legal mv → Reached P (.push m :: s) (Q.play mv)
  | pass {s : List Op} {Q : Pos} : Reached P s Q → ¬ Q.InCheck Q.turn → Reached P (.pushPass :: s) { Q with turn := Q.turn.opp }

/-- The code under which an operation stands in the history. -/
def opCode : Op → Move
  | .push m => m
  | _ => 129#32

/-- The code of an entry. -/
def HistEntry.code : HistEntry → Move
  | .move m => m
  | .pass _ => 129#32

/-- Boards with the operations that stand, the newest first. -/
inductive Stands (Z : Zobrist) (p0 : Position) : List Op → Board → Prop
  | base (cc : Color → Int) : Inv Z p0 → CheckOK p0 → ¬ (absPos p0).InCheck p0.turn.opp → Stands Z p0 [] ⟨withCC p0 cc, []⟩
  | push (s : List Op) (b : Board) (m : Mv) (p' : Position) (cc : Color → Int) : Stands Z p0 s b → (absPos b.pos).Legal m →
      doMove Z b.pos (encode b.pos m) = some p' → Stands Z p0 (.push (encode b.pos m) :: s) ⟨withCC p' cc, .move (encode b.pos m) :: b.hist⟩
  | pass (s : List Op) (b : Board) (cc : Color → Int) : Stands Z p0 s b → b.pos.inCheck = false →
      Stands Z p0 (.pushPass :: s) ⟨withCC (doNull b.pos).1 cc, .pass (doNull b.pos).2 :: b.hist⟩

variable {Z : Zobrist} {p0 : Position}

theorem Stands.chain {s : List Op} {b : Board} (h : Stands Z p0 s b) : LChain Z p0 b := by
  induction h with
  | base cc h1 h2 h3 => exact .base cc h1 h2 h3
  | push s b m p' cc _ hm he ih => exact .push b m p' cc ih hm.1 he
  | pass s b cc _ hn ih => exact .pass b cc ih hn

theorem Stands.withCC {s : List Op} {b : Board} (h : Stands Z p0 s b) (cc : Color → Int) : Stands Z p0 s ⟨Verif.withCC b.pos cc, b.hist⟩ := by
  cases h with
  | base cc' h1 h2 h3 => exact .base cc h1 h2 h3
  | push s b m p' cc' hb hm he => exact .push s b m p' cc hb hm he
  | pass s b cc' hb hn => exact .pass s b cc hb hn

theorem Stands.step {s : List Op} {b : Board} (h : Stands Z p0 s b) {o : Op} (ho : LegalOp b o) :
    ∃ b', b.step Z o = some b' ∧ Stands Z p0 (standing s [o]) b' := by
  cases o with
  | push m =>
    obtain ⟨mv, rfl, hm⟩ := ho
    obtain ⟨p', e, -⟩ := doMove_safe Z h.chain.good.1 h.chain.good.2.2 hm.1
    refine ⟨⟨p', .move (encode b.pos mv) :: b.hist⟩, ?_, .push s b mv p' p'.st.continuousCheck h hm e⟩
    simp [Board.step, Board.push, e]
  | pop =>
    obtain ⟨m, hist, hh⟩ := ho
    cases h with
    | base cc hi => simp at hh
    | push s b m' p' cc hb hm he =>
      obtain ⟨p'', e, -, -, -, -, hu⟩ := doMove_safe Z hb.chain.good.1 hb.chain.good.2.2 hm.1
      rw [he] at e; cases e
      refine ⟨b, ?_, hb⟩
      simp [Board.step, Board.pop, undoMove_withCC, hu]
    | pass s b cc hb hn => simp at hh
  | pushPass =>
    refine ⟨⟨(doNull b.pos).1, .pass (doNull b.pos).2 :: b.hist⟩, ?_, .pass s b _ h ho⟩
    have : b.pos.inCheck = false := ho
    simp [Board.step, Board.pushPass, this]
  | popPass =>
    obtain ⟨bk, hist, hh⟩ := ho
    cases h with
    | base cc hi => simp at hh
    | push s b m' p' cc hb hm he => simp at hh
    | pass s b cc hb hn =>
      refine ⟨⟨Verif.withCC b.pos cc, b.hist⟩, ?_, hb.withCC cc⟩
      simp only [Board.step, Board.popPass, undoNull_withCC, undo_doNull hb.chain.good.1.keys]
      rfl

theorem standing_cons (s : List Op) (o : Op) (os : List Op) : standing s (o :: os) = standing (standing s [o]) os := by
  cases o <;> rfl

theorem Stands.run {s : List Op} {b : Board} (h : Stands Z p0 s b) (ops : List Op) (ho : Always LegalOp Z b ops) :
    ∃ b', b.run Z ops = some b' ∧ Stands Z p0 (standing s ops) b' := by
  induction ops generalizing b s with
  | nil => exact ⟨b, rfl, h⟩
  | cons o os ih =>
    obtain ⟨b1, e1, h1⟩ := h.step ho.1
    obtain ⟨b2, e2, h2⟩ := ih h1 (ho.2 b1 e1)
    exact ⟨b2, by simp [Board.run, e1, e2], by rw [standing_cons]; exact h2⟩

theorem Stands.facts {s : List Op} {b : Board} (h : Stands Z p0 s b) :
    b.hist.map HistEntry.code = s.map opCode ∧ b.pos.gamePly = p0.gamePly + moveCount s ∧ Reached (absPos p0) s (absPos b.pos) := by
  induction h with
  | base cc => exact ⟨rfl, (Int.add_zero _).symm, .start⟩
  | push s b m p' cc hb hm he ih =>
    obtain ⟨i1, i2, i3⟩ := ih
    obtain ⟨p'', e, -, -, -, ha, -⟩ := doMove_safe Z hb.chain.good.1 hb.chain.good.2.2 hm.1
    rw [he] at e; cases e
    refine ⟨by simp [HistEntry.code, opCode, i1], ?_, ?_⟩
    · show p'.gamePly = p0.gamePly + ((moveCount s + 1 : Nat) : Int)
      rw [Dfpn.doMove_ply he, i2]; omega
    · show Reached _ _ (absPos p')
      rw [ha]
      exact .move i3 (Web.codes_encode b.pos m) hm
  | pass s b cc hb hn ih =>
    obtain ⟨i1, i2, i3⟩ := ih
    refine ⟨by simp [HistEntry.code, opCode, i1], i2, ?_⟩
    show Reached _ _ (absPos (doNull b.pos).1)
    rw [doNull_abs]
    refine .pass i3 fun hc => ?_
    have : b.pos.inCheck = true := hb.chain.good.2.1.inCheck.mpr hc
    rw [hn] at this; cases this

/-- **C96.** After any sequence of pushes of legal moves, pops and passes: `history` lists what has not been taken back in the order in which it
was made, with 129 for a pass; `peek` gives the last entry, or 0; `pop` would return it, if it is a move; `move_number` has gone up by one for
each move that stands; the board shows the position after those moves and passes; and `is_game_over` says whether it allows no move. -/
theorem C96_history (Z : Zobrist) (p : Position) (hp : Inv Z p) (hc : CheckOK p) (hr : (absPos p).Regular) (ops : List Op)
    (ho : Always LegalOp Z ⟨p, []⟩ ops) : ∃ b, Board.run Z ⟨p, []⟩ ops = some b ∧
      b.history = ((standing [] ops).map opCode).reverse ∧
      b.lastMove = ((standing [] ops).head?.map opCode).getD 0#32 ∧
      (∀ m s, standing [] ops = .push m :: s → b.popped = some m) ∧
      b.moveNumber = p.gamePly + moveCount (standing [] ops) ∧
      Reached (absPos p) (standing [] ops) (absPos b.pos) ∧
      ∃ g, isGameOver b.pos = some g ∧ (g = true ↔ ∀ mv, ¬ (absPos b.pos).Legal mv) := by
  have h0 : Stands Z p [] ⟨p, []⟩ := .base (p0 := p) p.st.continuousCheck hp hc hr.waiting
  obtain ⟨b, e, hb⟩ := h0.run ops ho
  obtain ⟨f1, f2, f3⟩ := hb.facts
  have hpeek : b.lastMove = (b.hist.head?.map HistEntry.code).getD 0#32 := by
    unfold Board.lastMove
    split <;> rename_i h <;> rw [h] <;> rfl
  refine ⟨b, e, by rw [← f1]; rfl, ?_, ?_, f2, f3, C25_game_over b.pos hb.chain.good.1.views hb.chain.good.2.1 (hb.chain.regular hr)⟩
  · rw [hpeek, ← List.head?_map, ← List.head?_map, f1]
  · intro m s hs
    rw [hs] at hb
    cases hb with
    | push s b' mv p' cc _ _ _ => rfl

/-- The standing game determines the position. -/
theorem C96_determined {P Q Q' : Pos} {s : List Op} (h : Reached P s Q) (h' : Reached P s Q') : Q = Q' := by
  induction h generalizing Q' with
  | start => cases h'; rfl
  | move _ hc _ ih => cases h' with
    | move h1 hc' _ => rw [ih h1, Web.codes_unique hc hc']
  | pass _ _ ih => cases h' with
    | pass h1 _ => rw [ih h1]

/-- Two moves, the second of them taken back. -/
example : ∃ ops : List Op, Always LegalOp zeroKeys ⟨startModel zeroKeys, []⟩ ops ∧
    (standing [] ops).map opCode = [makeMove PT.Pawn 60 59] ∧ ops.length = 3 ∧ moveCount (standing [] ops) = 1 := by
  obtain ⟨h1, h2, h3⟩ := startModel_ok zeroKeys
  have hb : playB zeroKeys ⟨startModel zeroKeys, []⟩ [.push (makeMove PT.Pawn 60 59), .push (makeMove PT.Pawn 20 21)] = true := by decide +kernel
  have hch := LChain.base (p0 := startModel zeroKeys) (startModel zeroKeys).st.continuousCheck h1 h2 h3.waiting
  rw [withCC_self] at hch
  have hl := (playB_legal h3 hch _ hb).mono fun _ _ h => h.1
  refine ⟨[.push (makeMove PT.Pawn 60 59), .push (makeMove PT.Pawn 20 21), .pop], ⟨hl.1, fun b1 e1 => ⟨(hl.2 b1 e1).1, fun b2 e2 => ⟨?_, fun _ _ => trivial⟩⟩⟩,
    rfl, rfl, rfl⟩
  obtain ⟨p', hp', rfl⟩ := Option.map_eq_some_iff.mp (show (doMove zeroKeys b1.pos (makeMove PT.Pawn 20 21)).map
    (fun p => (⟨p, .move (makeMove PT.Pawn 20 21) :: b1.hist⟩ : Board)) = some b2 from e2)
  exact ⟨_, _, rfl⟩

end Verif
