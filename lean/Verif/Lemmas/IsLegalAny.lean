import Verif.Lemmas.IsLegal
import Verif.Spec.Loose

/-!
The test of a single move for any move integer.
-/

namespace Verif
open Spec Bitboard Position

section
variable {p : Position}

/-- Only the squares and, unless a piece is dropped, the type of the moved piece are looked at. -/
theorem isLegal_congr {m m' : Move} (h1 : m.src = m'.src) (h2 : m.dst = m'.dst) (h3 : m.isDrop = false → m.pieceTypeFrom = m'.pieceTypeFrom) :
    p.isLegal m = p.isLegal m' := by
  have hd : m.isDrop = m'.isDrop := by unfold Move.isDrop; rw [h1]
  have hp : m.pieceTypeDropped = m'.pieceTypeDropped := by unfold Move.pieceTypeDropped; rw [h1]
  unfold isLegal
  have e1 : p.pseudoLegalMoveIsLegal m p.pinnedBB = p.pseudoLegalMoveIsLegal m' p.pinnedBB := by
    unfold pseudoLegalMoveIsLegal; rw [hd, h1, h2]
  have e2 : p.moveIsPseudoLegal m = p.moveIsPseudoLegal m' := by
    cases hm : m.isDrop
    · have h3 := h3 hm
      rw [hm] at hd
      simp only [moveIsPseudoLegal, hm, ← hd, h1, h2, h3, Bool.false_eq_true, if_false]
    · rw [hm] at hd
      simp only [moveIsPseudoLegal, hm, ← hd, hp, h2, if_true]
  rw [e1, e2]

/-- The answer to a check by a drop. -/
theorem dropAnswers_spec (h : Consistent p) (hc : CheckOK p) (hq : (absPos p).Regular) (hp : HKind) {t : Square}
    (ht : (absPos p).board t = none) :
    ∃ cb, p.dropAnswersCheck t = some cb ∧ (cb = true ↔ ¬ ((absPos p).play (.drop hp t)).InCheck p.turn) := by
  obtain ⟨k, hk⟩ := kings_of h hq p.turn
  have hK := h.kingAt hk
  have hdr : ((absPos p).play (.drop hp t)).InCheck p.turn ↔ ∃ s, Checker (absPos p) k s ∧ ¬ Between s t k := drop_inCheck (q := absPos p) hK ht
  unfold dropAnswersCheck
  by_cases hin : p.inCheck = true
  · rw [if_pos hin, hk]
    obtain ⟨c, e1, e2, e3, -⟩ := check_target hc hK hin
    simp only [e1]
    by_cases h2 : p.st.checkersBB.popFirst.2.isAny = true
    · rw [if_pos h2]
      refine ⟨false, rfl, ?_⟩
      simp only [Bool.false_eq_true, false_iff, not_not]
      obtain ⟨s, hs, hsc⟩ := e3.mp h2
      apply hdr.mpr
      by_contra hn
      push Not at hn
      exact two_checkers hs e2 hsc (.inr (hn s hs)) (.inr (hn c e2))
    · rw [if_neg h2]
      refine ⟨_, rfl, ?_⟩
      rw [isSet_betweenBB, hdr]
      constructor
      · rintro hb ⟨s, hs, hn⟩
        by_cases hsc : s = c
        · rw [hsc] at hn; exact hn hb
        · exact h2 (e3.mpr ⟨s, hs, hsc⟩)
      · intro hn
        by_contra hb
        exact hn ⟨c, e2, hb⟩
  · rw [if_neg hin]
    refine ⟨true, rfl, ?_⟩
    simp only [true_iff]
    intro hin'
    obtain ⟨s, hs, -⟩ := hdr.mp hin'
    exact hin (hc.inCheck.mpr (hK.inCheck.mpr ⟨s, hs⟩))

/-- Any integer with the form of a drop. -/
theorem isLegal_any_drop (h : Consistent p) (hc : CheckOK p) (hq : (absPos p).Regular) {m : Move} (hm : m.isDrop = true) {t : Square}
    (hd : m.dst = t.val) {hp : HKind} (h15 : m.pieceTypeDropped ≤ 15) (hpt : ptToHand m.pieceTypeDropped = hp.code) {k' : Square}
    (hk' : p.kingSquare p.turn.opp = some k') :
    ∃ b, p.isLegal m = some b ∧ (b = true ↔ 1 ≤ (absPos p).hand p.turn hp ∧ (absPos p).board t = none ∧
      ¬ ((absPos p).play (.drop hp t)).InCheck p.turn ∧
      (m.pieceTypeDropped = PT.Pawn → (∀ u, X u = X t → (absPos p).board u ≠ some (p.turn, .pawn)) ∧
        (frontNo p.turn t = (k'.val : Int) → p.isPawnDropCheckMate p.turn t = some false))) := by
  have hlt : m.dst < 81 := by rw [hd]; exact t.isLt
  have hsq : (⟨m.dst, hlt⟩ : Square) = t := Fin.ext hd
  unfold isLegal
  rw [show p.pseudoLegalMoveIsLegal m p.pinnedBB = true by unfold pseudoLegalMoveIsLegal; rw [hm]; rfl]
  simp only [Bool.and_true, Option.map_id']
  unfold moveIsPseudoLegal
  rw [dif_pos hlt]
  simp only [hsq, hm, if_true, hpt]
  rw [if_pos ⟨h15, hcode_lt hp⟩]
  by_cases h1 : (!(p.hand p.turn).has hp.code || p.piece t != 0) = true
  · rw [if_pos h1]
    refine ⟨false, rfl, ?_⟩
    simp only [Bool.false_eq_true, false_iff]
    rintro ⟨i1, i2, -⟩
    rw [Bool.or_eq_true, Bool.not_eq_true', ← Bool.not_eq_true, has_iff h, piece_zero h] at h1
    exact h1.elim (fun e => e i1) (fun e => e i2)
  · rw [if_neg h1]
    rw [Bool.or_eq_true, not_or, Bool.not_eq_true', ← Bool.not_eq_true, not_not, has_iff h, piece_zero h, not_not] at h1
    obtain ⟨hh, ht⟩ := h1
    obtain ⟨cb, hcb, hcb'⟩ := dropAnswers_spec h hc hq hp ht
    simp only [hcb]
    cases cb with
    | false =>
      refine ⟨false, rfl, ?_⟩
      simp only [Bool.false_eq_true, false_iff] at hcb' ⊢
      rintro ⟨-, -, hs, -⟩
      exact hcb' hs
    | true =>
      have hsafe := hcb'.mp rfl
      simp only
      by_cases hpw : m.pieceTypeDropped = PT.Pawn
      · rw [if_pos hpw]
        by_cases hn : (p.bbOf PT.Pawn p.turn &&& fileMask (file t)).isAny = true
        · rw [if_pos hn]
          refine ⟨false, rfl, ?_⟩
          simp only [Bool.false_eq_true, false_iff]
          rintro ⟨-, -, -, hps⟩
          obtain ⟨u, hu, e⟩ := (nifu_test h t).mp hn
          exact (hps hpw).1 u hu e
        · rw [if_neg hn]
          rw [nifu_test h] at hn
          push Not at hn
          simp only [hk']
          by_cases hfr : frontNo p.turn t = (k'.val : Int)
          · rw [if_pos hfr]
            obtain ⟨b, hb⟩ := isMate_isSome hk' t
            rw [hb]
            refine ⟨!b, rfl, ?_⟩
            constructor
            · intro e
              refine ⟨hh, ht, hsafe, fun _ => ⟨fun u hu => hn u hu, fun _ => ?_⟩⟩
              cases b <;> simp at e ⊢
            · rintro ⟨-, -, -, hm⟩
              have := (hm hpw).2 hfr
              cases b <;> simp at this ⊢
          · rw [if_neg hfr]
            exact ⟨true, rfl, fun _ => ⟨hh, ht, hsafe, fun _ => ⟨fun u hu => hn u hu, fun e => absurd e hfr⟩⟩, fun _ => rfl⟩
      · rw [if_neg hpw]
        exact ⟨true, rfl, fun _ => ⟨hh, ht, hsafe, fun e => absurd e hpw⟩, fun _ => rfl⟩

/-- A piece that reaches its square can do so with promotion or without. -/
theorem either_promotion {q : Pos} {f : Square} {kd : Kind} (t : Square) (hf : q.board f = some (q.turn, kd)) :
    ∃ pro, PromotionOK q (.move f t pro) := by
  by_cases hd : Dead q.turn kd t
  · refine ⟨true, fun kd' hf' => ?_⟩
    rw [hf] at hf'; cases hf'
    refine ⟨fun _ => ?_, fun e => by cases e⟩
    cases kd <;> simp only [Dead] at hd
    all_goals first
      | exact hd.elim
      | exact ⟨rfl, .inr (by unfold zone; omega)⟩
  · refine ⟨false, fun kd' hf' => ?_⟩
    rw [hf] at hf'; cases hf'
    exact ⟨fun e => (by cases e), fun _ => hd⟩

/-- Any integer with the form of a move on the board. -/
theorem isLegal_any_move (h : Consistent p) (hc : CheckOK p) (hq : (absPos p).Regular) {m : Move} (hm : m.isDrop = false) {f t : Square}
    (hs : m.src = f.val) (hd : m.dst = t.val) :
    ∃ b, p.isLegal m = some b ∧ (b = true ↔ (∃ kd, (absPos p).board f = some (p.turn, kd) ∧ m.pieceTypeFrom = kd.code) ∧
      (absPos p).Loose (.move f t m.isPromotion)) := by
  have enc : ∀ pro, (encode p (.move f t pro)).src = f.val ∧ (encode p (.move f t pro)).dst = t.val ∧
      (encode p (.move f t pro)).pieceTypeFrom = pieceType (p.piece f) := by
    intro pro
    have hf := C01_board_move_fields p.piece f t pro
    simp only [readBoardMove, Prod.mk.injEq] at hf
    exact ⟨hf.1, hf.2.1, hf.2.2.1⟩
  by_cases hk : ∃ kd, (absPos p).board f = some (p.turn, kd) ∧ m.pieceTypeFrom = kd.code
  · obtain ⟨kd, hb, ht⟩ := hk
    have hpf : pieceType (p.piece f) = kd.code := pieceType_at h hb
    have key : ∀ pro, p.isLegal m = p.isLegal (encode p (.move f t pro)) := fun pro =>
      isLegal_congr (by rw [hs, (enc pro).1]) (by rw [hd, (enc pro).2.1]) (fun _ => by rw [ht, (enc pro).2.2, hpf])
    obtain ⟨pro, hpro⟩ := either_promotion (q := absPos p) t hb
    obtain ⟨b, e1, e2⟩ := isLegal_encode_move h hc hq f t pro hpro
    refine ⟨b, by rw [key pro, e1], fun e => ⟨⟨kd, hb, ht⟩, pro, e2.mp e⟩, fun e => ?_⟩
    obtain ⟨-, pro', hl⟩ := e
    have hpro' : PromotionOK (absPos p) (.move f t pro') := by
      obtain ⟨⟨⟨kd1, i1, -, -, i2, i3⟩, -⟩, -⟩ := hl
      intro kd2 i4
      rw [i1] at i4; cases i4
      exact ⟨i2, i3⟩
    obtain ⟨b', e1', e2'⟩ := isLegal_encode_move h hc hq f t pro' hpro'
    rw [← key pro', key pro, e1] at e1'
    cases e1'
    exact e2'.mpr hl
  · refine ⟨false, ?_, fun e => (by cases e), fun e => absurd e.1 hk⟩
    have hlt : m.dst < 81 := by rw [hd]; exact t.isLt
    have hsq : sqN m.src = f := by rw [hs, sqN_val]
    have h16 : m.pieceTypeFrom < 16 := by rw [Move.pieceTypeFrom_eq]; omega
    unfold isLegal moveIsPseudoLegal
    rw [dif_pos hlt, if_neg (by rw [hm]; decide)]
    simp only [hsq]
    by_cases hz : p.piece f = mkPiece p.turn m.pieceTypeFrom
    · -- only an empty square looks like a piece of type 0
      have hb : (absPos p).board f = none ∧ m.pieceTypeFrom = 0 := by
        rcases hb : (absPos p).board f with _ | ⟨c, kd⟩
        · refine ⟨rfl, ?_⟩
          rw [h.code, hb] at hz
          generalize m.pieceTypeFrom = n at hz h16
          generalize p.turn = c at hz
          revert hz; revert n
          cases c <;> decide
        · exfalso
          rw [h.code, hb] at hz
          have : c = p.turn ∧ m.pieceTypeFrom = kd.code := by
            generalize m.pieceTypeFrom = n at hz h16
            generalize p.turn = c' at hz
            revert hz; revert n
            cases c <;> cases c' <;> cases kd <;> decide
          exact hk ⟨kd, by rw [← this.1]; exact hb, this.2⟩
      rw [hb.2]
      split
      · rfl
      · rw [if_neg (by decide), if_pos]
        · rfl
        · show (!(zero : Bitboard).isSet _) = true
          simp
    · rw [if_pos (by simp [hz])]; rfl

end
/-- The zero move is never legal. -/
theorem Match.isLegal_zero (p : Position) : p.isLegal 0#32 = some false := by
  unfold isLegal moveIsPseudoLegal
  rw [dif_pos (by decide)]
  simp only [show Move.isDrop 0#32 = false from by decide, Bool.false_eq_true, if_false]
  by_cases h1 : (decide (p.piece (sqN (Move.src 0#32)) ≠ mkPiece p.turn (Move.pieceTypeFrom 0#32)) || (p.byColor p.turn).isSet ⟨Move.dst 0#32, by decide⟩) = true
  · rw [if_pos h1]; rfl
  · rw [if_neg h1, if_neg (by decide)]
    have : ∀ c s o, (attacksFrom (Move.pieceTypeFrom 0#32) c s o).isSet ⟨Move.dst 0#32, by decide⟩ = false := by
      intro c s o
      rw [show Move.pieceTypeFrom 0#32 = 0 from by decide]
      show zero.isSet _ = false
      decide
    rw [this]; rfl

end Verif
