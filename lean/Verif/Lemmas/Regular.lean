import Verif.Lemmas.CheckSet
import Verif.Spec.Game

namespace Verif
open Spec Bitboard Position

/-! ### Pins -/

theorem occLifted_eq (q : Pos) (f : Square) : q.occLifted f = occWithout q.occ f := rfl

theorem pinLine_iff {q : Pos} {c : Color} {f s k : Square} (hf : ∃ kf, q.board f = some (c, kf)) (hk : q.board k = some (c, .king)) :
    PinLine q c.opp k f s ↔ q.PinnedBy c f s k := by
  obtain ⟨kf, hf⟩ := hf
  constructor
  · intro h
    obtain ⟨ks, e, hl⟩ := h.piece
    refine ⟨⟨kf, hf⟩, hk, ks, e, fun ha => ?_, ?_⟩
    · have := Attacks.path ha f h.btw
      rw [h.occ] at this; cases this
    · rw [attacks_iff]
      refine Or.inr ⟨hl, fun u hu => ?_⟩
      unfold Pos.occLifted
      by_cases e : u = f
      · rw [if_pos e]
      · rw [if_neg e, Bool.eq_false_iff]
        intro e1; exact e (h.only u hu e1)
  · rintro ⟨-, -, ks, e, hn, ha⟩
    rw [attacks_iff] at hn ha
    rcases ha with ha | ⟨hl, ha⟩
    · exact absurd (Or.inl ha) hn
    · have hall : ∀ u, Between s u k → q.occ u = true → u = f := by
        intro u hu ho
        by_contra e1
        have := ha u hu
        unfold Pos.occLifted at this
        rw [if_neg e1, ho] at this; cases this
      refine ⟨⟨ks, e, hl⟩, ?_, occ_of_board hf, hall⟩
      by_contra hb
      refine hn (Or.inr ⟨hl, fun u hu => ?_⟩)
      rw [Bool.eq_false_iff]
      intro ho
      exact hb (hall u hu ho ▸ hu)

/-! ### The recorded checkers -/

/-- The king of the side to move does not stand next to the other king if the other king is not in check. -/
theorem kings_apart {q : Pos} (h : ¬ q.InCheck q.turn.opp) {k s : Square} (hk : q.board k = some (q.turn, .king))
    (hs : q.board s = some (q.turn.opp, .king)) : ¬ Attacks q.turn.opp .king q.occ s k := by
  intro ha
  refine h ⟨s, hs, k, .king, ?_, ?_⟩
  · rw [opp_opp]; exact hk
  · rw [opp_opp]; exact (attacks_symm q.turn .king q.occ s k).mp ha

/-- Recomputing the checkers from scratch. -/
theorem checkOK_find {p : Position} (h : Consistent p) (hn : ¬ (absPos p).InCheck p.turn.opp)
    (he : p.st.checkersBB = p.findCheckers) : CheckOK p := by
  have hf : ∀ s, p.findCheckers.isSet s = true ↔
      ∃ k, (absPos p).board k = some (p.turn, .king) ∧ (absPos p).AttacksSq p.turn.opp s k := by
    intro s
    unfold findCheckers
    rcases hk : p.kingSquare p.turn with _ | k
    · simp only [isSet_zero, Bool.false_eq_true, false_iff]
      rintro ⟨k, e, -⟩
      rw [← h.king, hk] at e; cases e
    · simp only [isSet_attackersToExceptKing h]
      constructor
      · rintro ⟨kd, -, e, ha⟩
        exact ⟨k, (h.king _ _).mp hk, kd, e, ha⟩
      · rintro ⟨k', e, kd, e2, ha⟩
        rw [← h.king, hk] at e; cases e
        refine ⟨kd, ?_, e2, ha⟩
        rintro rfl
        exact kings_apart (q := absPos p) hn ((h.king _ _).mp hk) e2 ha
  refine ⟨?_, fun s => he ▸ hf s⟩
  rw [he]
  unfold findCheckers
  rcases p.kingSquare p.turn with _ | k
  · exact WF.zero
  · exact wf_attackersToExceptKing h _ _

theorem finish_checkers (Z : Zobrist) (p : Position) : (finish Z p).st.checkersBB = (finish Z p).findCheckers := rfl

theorem setPieces_checkers (Z : Zobrist) (p : Position) (pieces : Square → Piece) (inHand : Color → HandPiece → Nat) :
    (setPieces Z p pieces inHand).st.checkersBB = (setPieces Z p pieces inHand).findCheckers := by
  unfold setPieces
  exact finish_checkers Z _

/-- Whether the king of `c` is attacked, computed. -/
def inCheckB (p : Position) (c : Color) : Bool :=
  match p.kingSquare c with
  | none => false
  | some k => p.attackersToIsAny c.opp k p.occupied

theorem inCheckB_iff {p : Position} (h : Consistent p) (c : Color) : inCheckB p c = true ↔ (absPos p).InCheck c := by
  unfold inCheckB Pos.InCheck
  rcases hk : p.kingSquare c with _ | k
  · simp only [Bool.false_eq_true, false_iff]
    rintro ⟨k, e, -⟩
    rw [← h.king, hk] at e; cases e
  · simp only [attackersToIsAny, (wf_attackersTo h _ _ _).isAny_iff, isSet_attackersTo h, h.occ_fun]
    constructor
    · intro e; exact ⟨k, (h.king _ _).mp hk, e⟩
    · rintro ⟨k', e, ha⟩
      rw [← h.king, hk] at e; cases e; exact ha

theorem CheckOK.inCheck {p : Position} (h : CheckOK p) : p.inCheck = true ↔ (absPos p).InCheck p.turn := by
  unfold Position.inCheck
  rw [h.wf.isAny_iff]
  constructor
  · rintro ⟨s, hs⟩
    obtain ⟨k, e, ha⟩ := (h.iff s).mp hs
    exact ⟨k, e, s, ha⟩
  · rintro ⟨k, e, s, ha⟩
    exact ⟨s, (h.iff s).mpr ⟨k, e, ha⟩⟩

theorem CheckOK.withCC {p : Position} (h : CheckOK p) (cc : Color → Int) : CheckOK (Verif.withCC p cc) := ⟨h.wf, h.iff⟩

theorem CheckOK.doNull {p : Position} (h : CheckOK p) (hn : ¬ (absPos p).InCheck p.turn.opp) (hc : p.inCheck = false) :
    CheckOK (doNull p).1 := by
  refine ⟨h.wf, fun s => iff_of_false ?_ ?_⟩
  · intro e
    have : p.inCheck = true := by unfold Position.inCheck; rw [h.wf.isAny_iff]; exact ⟨s, e⟩
    rw [hc] at this; cases this
  · rintro ⟨k, e, ha⟩
    exact hn ⟨k, e, s, ha⟩

/-! ### What play keeps -/

theorem arriving_alive (c : Color) {kd : Kind} {pro : Bool} {t : Square} (hpro : pro = true → kd.promoted.isSome = true)
    (hd : pro = false → ¬ Dead c kd t) : ¬ Dead c (Pos.arriving kd pro) t := by
  cases pro
  · exact hd rfl
  · have := hpro rfl
    cases kd <;> simp [Kind.promoted] at this <;> exact id

theorem Regular.play {q : Pos} (hq : q.Regular) {m : Mv} (hm : q.Safe m) : (q.play m).Regular := by
  obtain ⟨hps, hsafe⟩ := hm
  refine ⟨fun c => ?_, ?_, ?_⟩
  · -- kings
    have hpl := pseudo_playable hps hq.waiting
    rcases eq_or_opp q.turn c with rfl | rfl
    · obtain ⟨k, hk⟩ := hq.kings q.turn
      cases m with
      | drop h t =>
        refine ⟨k, fun s => ?_⟩
        rw [play_drop_own hps.2.1, ← hk s]
        constructor
        · rintro (⟨-, e⟩ | e)
          · cases h <;> simp [HKind.kind] at e
          · exact e
        · exact Or.inr
      | move f t pro =>
        obtain ⟨kd, hf, hat, ht, hpro, -⟩ := hps
        by_cases e : kd = .king
        · subst e
          refine ⟨t, fun s => ?_⟩
          rw [play_move_own hf, arriving_of_king]
          constructor
          · rintro (⟨e, -⟩ | ⟨-, h2, e⟩)
            · exact e
            · exact absurd (((hk s).mp e).trans ((hk f).mp hf).symm) h2
          · intro e; exact Or.inl ⟨e, rfl⟩
        · refine ⟨k, fun s => ?_⟩
          rw [play_move_own hf, ← hk s]
          constructor
          · rintro (⟨-, e1⟩ | ⟨-, -, e1⟩)
            · exact absurd e1.symm (arriving_ne_king pro e)
            · exact e1
          · intro e1
            refine Or.inr ⟨?_, ?_, e1⟩
            · rintro rfl; exact ht _ e1
            · rintro rfl; rw [hf] at e1; cases e1; exact e rfl
    · obtain ⟨k, hk⟩ := hq.kings q.turn.opp
      exact ⟨k, fun s => (king_after hpl s).trans (hk s)⟩
  · rw [play_turn, opp_opp]; exact hsafe
  · intro s c kd e
    rcases eq_or_opp q.turn c with rfl | rfl
    · cases m with
      | drop h t =>
        rcases (play_drop_own hps.2.1).mp e with ⟨rfl, rfl⟩ | e
        · exact hps.2.2.1
        · exact hq.alive _ _ _ e
      | move f t pro =>
        obtain ⟨kd', hf, hat, ht, hpro, hd⟩ := hps
        rcases (play_move_own hf).mp e with ⟨rfl, rfl⟩ | ⟨-, -, e⟩
        · exact arriving_alive q.turn (fun e => (hpro e).1) hd
        · exact hq.alive _ _ _ e
    · cases m with
      | drop h t => exact hq.alive _ _ _ ((play_drop_enemy hps.2.1).mp e)
      | move f t pro =>
        obtain ⟨kd', hf, -⟩ := hps
        exact hq.alive _ _ _ ((play_move_enemy hf).mp e).2

theorem Regular.pass {q : Pos} (hq : q.Regular) (hc : ¬ q.InCheck q.turn) : Pos.Regular { q with turn := q.turn.opp } := by
  refine ⟨hq.kings, ?_, hq.alive⟩
  show ¬ Pos.InCheck { q with turn := q.turn.opp } q.turn.opp.opp
  rw [opp_opp]; exact hc

/-! ### Legal games -/

/-- Operations of a game by the rules: pushes of legal moves, pops, passes out of check. -/
def LegalOp (b : Board) : Op → Prop
  | .push m => ∃ mv, m = encode b.pos mv ∧ (absPos b.pos).Legal mv
  | o => Applicable b o

/-- Boards whose history is a game of safe moves from `p0`. -/
inductive LChain (Z : Zobrist) (p0 : Position) : Board → Prop
  | base (cc : Color → Int) : Inv Z p0 → CheckOK p0 → ¬ (absPos p0).InCheck p0.turn.opp → LChain Z p0 ⟨withCC p0 cc, []⟩
  | push (b : Board) (m : Mv) (p' : Position) (cc : Color → Int) : LChain Z p0 b → (absPos b.pos).Safe m →
      doMove Z b.pos (encode b.pos m) = some p' → LChain Z p0 ⟨withCC p' cc, .move (encode b.pos m) :: b.hist⟩
  | pass (b : Board) (cc : Color → Int) : LChain Z p0 b → b.pos.inCheck = false →
      LChain Z p0 ⟨withCC (doNull b.pos).1 cc, .pass (doNull b.pos).2 :: b.hist⟩

theorem LChain.withCC {Z : Zobrist} {p0 : Position} {b : Board} (h : LChain Z p0 b) (cc : Color → Int) :
    LChain Z p0 ⟨Verif.withCC b.pos cc, b.hist⟩ := by
  cases h with
  | base cc' h1 h2 h3 => exact .base cc h1 h2 h3
  | push b m p' cc' hb hm he => exact .push b m p' cc hb hm he
  | pass b cc' hb hn => exact .pass b cc hb hn

theorem doMove_safe (Z : Zobrist) {p : Position} (hi : Inv Z p) (hw : ¬ (absPos p).InCheck p.turn.opp) {m : Mv}
    (hm : (absPos p).Safe m) :
    ∃ p', doMove Z p (encode p m) = some p' ∧ Inv Z p' ∧ CheckOK p' ∧ ¬ (absPos p').InCheck p'.turn.opp ∧
      absPos p' = (absPos p).play m ∧ undoMove p' (encode p m) = some p := by
  obtain ⟨p', e, hi', ha, -, -, hu⟩ := doMove_inv Z hi (pseudo_playable hm.1 hw)
  refine ⟨p', e, hi', checkOK_doMove Z hi hm hw e hi'.views ha, ?_, ha, hu⟩
  have ht : p'.turn = p.turn.opp := by
    have : (absPos p').turn = p.turn.opp := by rw [ha]; exact play_turn m
    exact this
  rw [ht, ha, opp_opp]
  exact hm.2

theorem LChain.good {Z : Zobrist} {p0 : Position} {b : Board} (h : LChain Z p0 b) :
    Inv Z b.pos ∧ CheckOK b.pos ∧ ¬ (absPos b.pos).InCheck b.pos.turn.opp := by
  induction h with
  | base cc h1 h2 h3 => exact ⟨h1.withCC cc, h2.withCC cc, h3⟩
  | push b m p' cc hb hm he ih =>
    obtain ⟨i1, i2, i3⟩ := ih
    obtain ⟨p'', e, h1, h2, h3, -⟩ := doMove_safe Z i1 i3 hm
    rw [he] at e; cases e
    exact ⟨h1.withCC cc, h2.withCC cc, h3⟩
  | pass b cc hb hn ih =>
    obtain ⟨i1, i2, i3⟩ := ih
    refine ⟨i1.doNull.withCC cc, (i2.doNull i3 hn).withCC cc, ?_⟩
    show ¬ (absPos (Position.doNull b.pos).1).InCheck b.pos.turn.opp.opp
    rw [opp_opp]
    intro hc
    have : b.pos.inCheck = true := i2.inCheck.mpr hc
    rw [hn] at this; cases this

theorem LChain.regular {Z : Zobrist} {p0 : Position} {b : Board} (h : LChain Z p0 b) (h0 : (absPos p0).Regular) :
    (absPos b.pos).Regular := by
  induction h with
  | base cc h1 h2 h3 => exact h0
  | push b m p' cc hb hm he ih =>
    obtain ⟨i1, i2, i3⟩ := hb.good
    obtain ⟨p'', e, -, -, -, ha, -⟩ := doMove_safe Z i1 i3 hm
    rw [he] at e; cases e
    show (absPos p').Regular
    rw [ha]
    exact Regular.play ih hm
  | pass b cc hb hn ih =>
    show (absPos (Position.doNull b.pos).1).Regular
    rw [doNull_abs]
    refine Regular.pass ih fun hc => ?_
    have : b.pos.inCheck = true := hb.good.2.1.inCheck.mpr hc
    rw [hn] at this; cases this

theorem LChain.step {Z : Zobrist} {p0 : Position} {b : Board} (h : LChain Z p0 b) {o : Op} (ho : LegalOp b o) :
    ∃ b', b.step Z o = some b' ∧ LChain Z p0 b' := by
  cases o with
  | push m =>
    obtain ⟨mv, rfl, hm⟩ := ho
    obtain ⟨p', e, -⟩ := doMove_safe Z h.good.1 h.good.2.2 hm.1
    refine ⟨⟨p', .move (encode b.pos mv) :: b.hist⟩, ?_, .push b mv p' p'.st.continuousCheck h hm.1 e⟩
    simp [Board.step, Board.push, e]
  | pop =>
    obtain ⟨m, hist, hh⟩ := ho
    cases h with
    | base cc hi => simp at hh
    | push b m' p' cc hb hm he =>
      obtain ⟨p'', e, -, -, -, -, hu⟩ := doMove_safe Z hb.good.1 hb.good.2.2 hm
      rw [he] at e; cases e
      refine ⟨b, ?_, hb⟩
      simp [Board.step, Board.pop, undoMove_withCC, hu]
    | pass b cc hb hn => simp at hh
  | pushPass =>
    refine ⟨⟨(doNull b.pos).1, .pass (doNull b.pos).2 :: b.hist⟩, ?_, .pass b _ h ho⟩
    have : b.pos.inCheck = false := ho
    simp [Board.step, Board.pushPass, this]
  | popPass =>
    obtain ⟨bk, hist, hh⟩ := ho
    cases h with
    | base cc hi => simp at hh
    | push b m' p' cc hb hm he => simp at hh
    | pass b cc hb hn =>
      refine ⟨⟨Verif.withCC b.pos cc, b.hist⟩, ?_, hb.withCC cc⟩
      simp only [Board.step, Board.popPass, undoNull_withCC, undo_doNull hb.good.1.keys]
      rfl

theorem LChain.run {Z : Zobrist} {p0 : Position} {b : Board} (h : LChain Z p0 b) (ops : List Op) (ho : Always LegalOp Z b ops) :
    ∃ b', b.run Z ops = some b' ∧ LChain Z p0 b' := by
  induction ops generalizing b with
  | nil => exact ⟨b, rfl, h⟩
  | cons o os ih =>
    obtain ⟨b1, e1, h1⟩ := h.step ho.1
    obtain ⟨b2, e2, h2⟩ := ih h1 (ho.2 b1 e1)
    exact ⟨b2, by simp [Board.run, e1, e2], h2⟩

end Verif
