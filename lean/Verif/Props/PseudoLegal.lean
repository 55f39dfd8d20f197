import Verif.Props.Legal

/-!
# C80: the pseudo-legal moves and the test for them
-/

namespace Verif
open Spec Bitboard Position

/-- For drops `is_pseudo_legal` is `is_legal`. -/
theorem pseudoLegal_drop {p : Position} (h : Consistent p) (hc : CheckOK p) (hq : (absPos p).Regular) (hp : HKind) (t : Square)
    (hd : ¬ Dead p.turn hp.kind t) :
    ∃ b, p.moveIsPseudoLegal (encode p (.drop hp t)) = some b ∧ (b = true ↔ (absPos p).Legal (.drop hp t)) := by
  obtain ⟨b, e, hb⟩ := isLegal_encode_drop h hc hq hp t hd
  unfold isLegal at e
  cases hm : p.moveIsPseudoLegal (encode p (.drop hp t)) with
  | none => rw [hm] at e; cases e
  | some b' =>
    rw [hm, Option.map_some, isLegal_drop, Bool.and_true] at e
    exact ⟨b', rfl, by cases e; exact hb⟩

/-- A drop does not expose the king. -/
theorem drop_safe {p : Position} (h : Consistent p) (hq : (absPos p).Regular) (hnc : ¬ (absPos p).InCheck p.turn) {hp : HKind} {t : Square}
    (hps : (absPos p).Pseudo (.drop hp t)) : (absPos p).Safe (.drop hp t) := by
  refine ⟨hps, fun hin => ?_⟩
  obtain ⟨k, hk⟩ := kings_of h hq p.turn
  have hK := h.kingAt hk
  obtain ⟨s, hs, -⟩ := (drop_inCheck (q := absPos p) hK hps.2.1).mp hin
  exact hnc (hK.inCheck.mpr ⟨s, hs⟩)

theorem pseudoLegal_move {p : Position} (h : Consistent p) (hc : CheckOK p) (hnc : ¬ (absPos p).InCheck p.turn) (f t : Square) (pro : Bool)
    (hpro : PromotionOK (absPos p) (.move f t pro)) :
    ∃ b, p.moveIsPseudoLegal (encode p (.move f t pro)) = some b ∧ (b = true ↔ (absPos p).Pseudo (.move f t pro)) := by
  obtain ⟨g1, g2⟩ := sqN_fields (p := p) f t pro
  have f1 : (encode p (.move f t pro)).dst = t.val := (src_eq p f t pro).2.1
  have hpf : (encode p (.move f t pro)).pieceTypeFrom = pieceType (p.piece f) := by
    have hf := C01_board_move_fields p.piece f t pro
    simp only [readBoardMove, Prod.mk.injEq] at hf
    exact hf.2.2.1
  have hlt : (encode p (.move f t pro)).dst < 81 := by rw [f1]; exact t.isLt
  have hsq : (⟨(encode p (.move f t pro)).dst, hlt⟩ : Square) = t := Fin.ext f1
  have hin : ¬ p.inCheck = true := fun e => hnc (hc.inCheck.mp e)
  unfold moveIsPseudoLegal
  rw [dif_pos hlt]
  simp only [hsq]
  rw [if_neg (by rw [encode_isDrop]; decide)]
  simp only [g1, hpf]
  rcases hb : (absPos p).board f with _ | ⟨c, kd⟩
  · have hz : p.piece f = 0 := by rw [h.code, hb]; rfl
    refine ⟨false, ?_, ?_⟩
    · simp only [hz]
      split
      · rfl
      · rw [if_neg (by decide), if_pos]
        show (!(zero : Bitboard).isSet t) = true
        simp
    · simp only [Bool.false_eq_true, false_iff]
      rintro ⟨kd, e, -⟩
      rw [hb] at e; cases e
  · have hpt := pieceType_at h hb
    rw [hpt]
    rcases eq_or_opp p.turn c with rfl | rfl
    · have hcode : p.piece f = mkPiece p.turn kd.code := by rw [h.code, hb]; rfl
      by_cases hown : (p.byColor p.turn).isSet t = true
      · refine ⟨false, ?_, ?_⟩
        · rw [if_pos (by rw [hown]; simp)]
        · simp only [Bool.false_eq_true, false_iff]
          rintro ⟨kd', -, -, ht, -⟩
          obtain ⟨kd2, e⟩ := (h.color _ _).mp hown
          exact ht kd2 e
      · have ht : ∀ k', (absPos p).board t ≠ some (p.turn, k') := fun k' e => hown ((h.color _ _).mpr ⟨k', e⟩)
        rw [if_neg (by rw [hcode]; simpa using hown), if_neg (by cases kd <;> decide)]
        by_cases hat : (attacksFrom kd.code p.turn f p.occupied).isSet t = true
        · rw [if_neg (by rw [hat]; decide), if_neg hin]
          rw [isSet_attacksFrom, h.occ_fun] at hat
          exact ⟨true, rfl, fun _ => ⟨kd, hb, hat, ht, (hpro kd hb).1, (hpro kd hb).2⟩, fun _ => rfl⟩
        · refine ⟨false, ?_, ?_⟩
          · rw [if_pos (by rw [Bool.not_eq_true'] ; exact Bool.eq_false_iff.mpr hat)]
          · simp only [Bool.false_eq_true, false_iff]
            rintro ⟨kd', e, ha, -⟩
            rw [show (absPos p).turn = p.turn from rfl, hb] at e; cases e
            exact hat (by rw [isSet_attacksFrom, h.occ_fun]; exact ha)
    · have hne : p.piece f ≠ mkPiece p.turn kd.code := by
        rw [h.code, hb]
        show mkPiece p.turn.opp kd.code ≠ _
        cases p.turn <;> cases kd <;> decide
      refine ⟨false, ?_, ?_⟩
      · rw [if_pos (by simp [hne])]
      · simp only [Bool.false_eq_true, false_iff]
        rintro ⟨kd', e, -⟩
        rw [show (absPos p).turn = p.turn from rfl, hb] at e
        simp only [Option.some.injEq, Prod.mk.injEq] at e
        exact opp_ne p.turn e.1

/-- **C80** (partial): when the side to move is not in check, `pseudo_legal_moves` lists once each exactly the moves that obey the rules of
movement, promotion and dropping and do not mate with a pawn; `is_pseudo_legal` accepts exactly these, and `pseudo_legal_move_is_legal`
then tells those that leave the king safe.

Missing: `is_pseudo_legal` on wrong promotions (`C27_fails`) and in check (`C80_check_partial`, `C80_fails`). -/
theorem C80_quiet_partial (p : Position) (hp : Consistent p) (hc : CheckOK p) (hr : (absPos p).Regular) (hnc : ¬ (absPos p).InCheck p.turn) :
    ∃ l, genPseudo p true = some l ∧ l.Nodup ∧
      (∀ m, m ∈ l ↔ ∃ mv, m = encode p mv ∧ (absPos p).Pseudo mv ∧ ¬ (absPos p).PawnDropMate mv) ∧
      ∀ mv, PromotionOK (absPos p) mv →
        ∃ b, p.moveIsPseudoLegal (encode p mv) = some b ∧ (b = true ↔ encode p mv ∈ l) ∧
          (b = true → (p.pseudoLegalMoveIsLegal (encode p mv) p.pinnedBB = true ↔ (absPos p).Legal mv)) := by
  have hin : ¬ p.inCheck = true := fun e => hnc (hc.inCheck.mp e)
  obtain ⟨l, e, nd, hm⟩ := genNonEvasion_spec hp hr
  have hme : ∀ mv, encode p mv ∈ l ↔ (absPos p).Pseudo mv ∧ ¬ (absPos p).PawnDropMate mv := fun mv => by
    rw [hm]
    exact ⟨fun ⟨mv', e', h⟩ => by rw [encode_inj p e']; exact h, fun h => ⟨mv, rfl, h⟩⟩
  refine ⟨l, by unfold genPseudo; rw [if_neg hin]; exact e, nd, hm, fun mv hok => ?_⟩
  have key : ∃ b, p.moveIsPseudoLegal (encode p mv) = some b ∧ (b = true ↔ (absPos p).Pseudo mv ∧ ¬ (absPos p).PawnDropMate mv) := by
    cases mv with
    | move f t pro =>
      obtain ⟨b, h1, h2⟩ := pseudoLegal_move hp hc hnc f t pro hok
      exact ⟨b, h1, h2.trans ⟨fun h => ⟨h, by rintro ⟨t', e', -⟩; cases e'⟩, fun h => h.1⟩⟩
    | drop k t =>
      obtain ⟨b, h1, h2⟩ := pseudoLegal_drop hp hc hr k t hok
      exact ⟨b, h1, h2.trans ⟨fun h => ⟨h.1.1, h.2⟩, fun h => ⟨drop_safe hp hr hnc h.1, h.2⟩⟩⟩
  obtain ⟨b, h1, h2⟩ := key
  refine ⟨b, h1, h2.trans (hme mv).symm, fun hb => ?_⟩
  obtain ⟨hps, hmate⟩ := h2.mp hb
  rw [isLegal_quiet hp hr hnc hps]
  exact ⟨fun h => ⟨⟨hps, h⟩, hmate⟩, fun h => h.1.2⟩

/-- **C80** (partial), also in check: `pseudo_legal_moves` lists moves that obey the rules of movement, promotion and dropping, each once,
and of these `pseudo_legal_move_is_legal` takes exactly the legal ones; `is_pseudo_legal` accepts every legal move, and what it accepts is
legal if `pseudo_legal_move_is_legal` says so. -/
theorem C80_check_partial (p : Position) (hp : Consistent p) (hc : CheckOK p) (hr : (absPos p).Regular) :
    ∃ l, genPseudo p true = some l ∧ l.Nodup ∧ (∀ m ∈ l, ∃ mv, m = encode p mv ∧ (absPos p).Pseudo mv) ∧
      (∀ m, (m ∈ l ∧ p.pseudoLegalMoveIsLegal m p.pinnedBB = true) ↔ ∃ mv, m = encode p mv ∧ (absPos p).Legal mv) ∧
      ∀ mv, PromotionOK (absPos p) mv → ∃ b, p.moveIsPseudoLegal (encode p mv) = some b ∧
        ((b = true ∧ p.pseudoLegalMoveIsLegal (encode p mv) p.pinnedBB = true) ↔ (absPos p).Legal mv) := by
  obtain ⟨l, e, nd, h1, h2⟩ := genPseudo_spec hp hc hr
  refine ⟨l, e, nd, h1, h2, fun mv hok => ?_⟩
  obtain ⟨b, -, hb, -, -, h4⟩ := C27_is_legal_partial p hp hc hr mv hok
  unfold isLegal at hb
  cases hm : p.moveIsPseudoLegal (encode p mv) with
  | none => rw [hm] at hb; cases hb
  | some b' =>
    rw [hm, Option.map_some, Option.some.injEq] at hb
    refine ⟨b', rfl, ?_⟩
    rw [← h4, ← hb, Bool.and_eq_true]

/-- The start position meets the hypotheses. -/
example : Consistent (startModel zeroKeys) ∧ CheckOK (startModel zeroKeys) ∧ (absPos (startModel zeroKeys)).Regular ∧
    ¬ (absPos (startModel zeroKeys)).InCheck (startModel zeroKeys).turn ∧ (genPseudo (startModel zeroKeys) true).map List.length = some 30 := by
  obtain ⟨h1, h2, h3⟩ := startModel_ok zeroKeys
  exact ⟨h1.views, h2, h3, by rw [← inCheckB_iff h1.views]; decide +kernel, by decide +kernel⟩

/-- `evBoard` with a gold that covers the square 2b. -/
def coveredBoard (s : Square) : Option (Color × Kind) := if s.val = 11 then some (.black, .gold) else evBoard s

def coveredPos : Pos := ⟨coveredBoard, fun c h => evHand c h.code, .white⟩

def coveredModel : Position := setPieces zeroKeys { clear with turn := .white } (fun s => pieceCode (coveredBoard s)) evHand

theorem coveredModel_spec : Inv zeroKeys coveredModel ∧ absPos coveredModel = coveredPos := by
  have hk : OneKing coveredBoard := by
    have h : ∀ c s t, coveredBoard s = some (c, .king) → coveredBoard t = some (c, .king) → s = t := by
      intro c
      cases c
      · have : ∀ s, coveredBoard s = some (.black, .king) → s = 44 := by decide +kernel
        intro s t h1 h2; rw [this s h1, this t h2]
      · have : ∀ s, coveredBoard s = some (.white, .king) → s = 0 := by decide +kernel
        intro s t h1 h2; rw [this s h1, this t h2]
    exact h
  obtain ⟨h1, h2, h3, -⟩ := setPieces_spec zeroKeys { clear with turn := .white } coveredPos hk
    (fun c h => by cases c <;> cases h <;> decide) evHand (fun _ _ => rfl)
  refine ⟨⟨h1, h2, ?_⟩, h3⟩
  show (absPos (setPieces zeroKeys { clear with turn := .white } (fun s => pieceCode (coveredPos.board s)) evHand)).InSet
  rw [h3]
  intro h; cases h <;> decide +kernel

theorem coveredModel_ok : CheckOK coveredModel ∧ (absPos coveredModel).Regular ∧ (absPos coveredModel).InCheck coveredModel.turn := by
  have hw : ¬ (absPos coveredModel).InCheck coveredModel.turn.opp := by
    rw [← inCheckB_iff coveredModel_spec.1.views]; decide +kernel
  refine ⟨checkOK_find coveredModel_spec.1.views hw (setPieces_checkers _ _ _ _), ⟨fun c => ?_, hw, ?_⟩, ?_⟩
  · rw [coveredModel_spec.2]
    cases c
    · exact ⟨44, by decide +kernel⟩
    · exact ⟨0, by decide +kernel⟩
  · rw [coveredModel_spec.2]
    exact alive_of_check (b := coveredBoard) (by decide +kernel)
  · rw [← inCheckB_iff coveredModel_spec.1.views]; decide +kernel

/-- **C80** fails: in check, the king's move to a covered square is in `pseudo_legal_moves`, but `is_pseudo_legal` denies it. -/
theorem C80_fails : Inv zeroKeys coveredModel ∧ CheckOK coveredModel ∧ (absPos coveredModel).Regular ∧ (absPos coveredModel).InCheck coveredModel.turn ∧
    (absPos coveredModel).Pseudo (.move 0 10 false) ∧
    (genPseudo coveredModel true).map (fun l => decide (encode coveredModel (.move 0 10 false) ∈ l)) = some true ∧
    coveredModel.moveIsPseudoLegal (encode coveredModel (.move 0 10 false)) = some false := by
  have hmem : (genPseudo coveredModel true).map (fun l => decide (encode coveredModel (.move 0 10 false) ∈ l)) = some true := by decide +kernel
  refine ⟨coveredModel_spec.1, coveredModel_ok.1, coveredModel_ok.2.1, coveredModel_ok.2.2, ?_, hmem, by decide +kernel⟩
  obtain ⟨l, e, -, h1, -⟩ := genPseudo_spec coveredModel_spec.1.views coveredModel_ok.1 coveredModel_ok.2.1
  rw [e, Option.map_some, Option.some.injEq, decide_eq_true_eq] at hmem
  obtain ⟨mv, e', hps⟩ := h1 _ hmem
  rw [encode_inj _ e']; exact hps

end Verif
