import Verif.Lemmas.Hidden

/-!
Which moves give check, and the set of checking pieces stored by `doMove`.
-/

namespace Verif
open Spec Bitboard Position

/-- The stored checkers are exactly the enemy pieces attacking the king of the side to move. -/
structure CheckOK (p : Position) : Prop where
  wf : p.st.checkersBB.WF
  iff : ∀ s, p.st.checkersBB.isSet s = true ↔
    ∃ k, (absPos p).board k = some (p.turn, .king) ∧ (absPos p).AttacksSq p.turn.opp s k

theorem Consistent.kingAt {p : Position} (h : Consistent p) {c : Color} {k : Square} (hk : p.kingSquare c = some k) :
    KingAt (absPos p) c k := by
  intro s
  rw [← h.king, hk, Option.some.injEq, eq_comm]

/-- The squares from which a piece other than a king checks the opponent. -/
theorem isSet_checkBB {p : Position} (h : Consistent p) {k : Square} (hk : p.kingSquare p.turn.opp = some k) (kd : Kind)
    (hkd : kd ≠ .king) (t : Square) :
    (p.checkBB kd.code).isSet t = true ↔ Attacks p.turn kd (absPos p).occ t k := by
  unfold checkBB
  simp only [hk]
  rw [← h.occ_fun]
  cases kd <;> simp only [Kind.code] <;> first | exact absurd rfl hkd | skip
  · exact back_pawn _ _ _ _
  · exact back_lance _ _ _ _
  · exact back_knight _ _ _ _
  · exact back_silver _ _ _ _
  · exact back_bishop _ _ _ _
  · exact back_rook _ _ _ _
  · exact back_gold _ _ rfl _ _ _
  · exact back_gold _ _ rfl _ _ _
  · exact back_gold _ _ rfl _ _ _
  · exact back_gold _ _ rfl _ _ _
  · exact back_gold _ _ rfl _ _ _
  · rw [isSet_or, Bool.or_eq_true]; exact back_horse _ _ _ _
  · rw [isSet_or, Bool.or_eq_true]; exact back_dragon _ _ _ _

theorem wf_checkBB {p : Position} (kd : Kind) : (p.checkBB kd.code).WF := by
  unfold checkBB
  simp only []
  rcases p.kingSquare p.turn.opp with _ | k
  · exact WF.zero
  · have hw := fun kd => wf_attacksFrom kd p.turn.opp k p.occupied
    cases kd <;> simp only [Kind.code]
    · exact hw .pawn
    · exact hw .lance
    · exact hw .knight
    · exact hw .silver
    · exact hw .bishop
    · exact hw .rook
    · exact hw .gold
    · exact WF.zero
    · exact hw .gold
    · exact hw .gold
    · exact hw .gold
    · exact hw .gold
    · exact (hw .bishop).or (hw .king)
    · exact (hw .rook).or (hw .king)

/-! ### Uncovering -/

section
variable {q : Pos} {us : Color} {k f s t : Square} {kd : Kind}

/-- The uncovered line, seen from the king. -/
theorem discover_reach (hp : PinLine q us k f s) (hb : ¬ Between s t k) {e : Dir} (he : IsDir e)
    (h1 : Line s e f) (h2 : Line f e k) : Reach (occMove q.occ f t) k (neg e) s := by
  rw [reach_between (isDir_neg he)]
  refine ⟨line_symm.mp (line_trans h1 h2), fun u hu => ?_⟩
  have hu' := between_symm.mp hu
  refine (free_move.mpr ⟨hb, fun v hv hvf => ?_⟩) u hu'
  rw [Bool.eq_false_iff]
  intro ho
  exact hvf (hp.only v hv ho)

/-- The uncovered line, seen from the square left. -/
theorem discover_from (hp : PinLine q us k f s) (hb : ¬ Between s t k) {e : Dir} (he : IsDir e)
    (h1 : Line s e f) (h2 : Line f e k) : Reach (occMove q.occ f t) f (neg e) s := by
  rw [reach_between (isDir_neg he)]
  refine ⟨line_symm.mp h1, fun u hu => ?_⟩
  have hu' := between_symm.mp hu
  have hsk : Between s u k := between_trans_left hp.btw hu'
  refine (free_move.mpr ⟨hb, fun v hv hvf => ?_⟩) u hsk
  rw [Bool.eq_false_iff]
  intro ho
  exact hvf (hp.only v hv ho)

/-- Along the file left, only the uncovered piece is an own piece in sight. -/
theorem discover_only (hp : PinLine q us k f s) (hk : q.board k = some (us.opp, .king)) (hf : q.board f = some (us, kd))
    (hol : ¬ OnLine f t k) (hkt : k ≠ t) (hst : s ≠ t) {e : Dir} (he : IsDir e) (h1 : Line s e f) (h2 : Line f e k)
    {u : Square} (hu : q.occ u = true) (huk : u ≠ k)
    (hr : Reach (occMove q.occ f t) f e u ∨ Reach (occMove q.occ f t) f (neg e) u) : u = s := by
  have hs : q.occ s = true := by obtain ⟨kd, e, -⟩ := hp.piece; exact occ_of_board e
  have hocc : ∀ v, v ≠ t → v ≠ f → occMove q.occ f t v = q.occ v := by
    intro v h3 h4; unfold occMove; rw [if_neg h3, if_neg h4]
  rcases hr with hr | hr
  · rw [reach_between he] at hr
    obtain ⟨h3, h4⟩ := hr
    exfalso
    rcases line_total h3 h2 with e1 | e1 | e1
    · exact huk e1
    · exact line_ne he h3 (hp.only u (between_iff.mpr ⟨e, he, line_trans h1 h3, e1⟩) hu).symm
    · have := h4 k (between_iff.mpr ⟨e, he, h2, e1⟩)
      rw [hocc k hkt (fun h => line_ne he h2 h.symm), occ_of_board hk] at this
      cases this
  · rw [reach_between (isDir_neg he)] at hr
    obtain ⟨h3, h4⟩ := hr
    rcases line_total h3 (line_symm.mp h1) with e1 | e1 | e1
    · exact e1
    · exfalso
      have e2 : Line u e f := line_symm.mpr h3
      exact line_ne he e2 (hp.only u (between_iff.mpr ⟨e, he, line_symm.mpr e1, line_trans e2 h2⟩) hu)
    · exfalso
      have := h4 s (between_iff.mpr ⟨neg e, isDir_neg he, line_symm.mp h1, e1⟩)
      rw [hocc s hst (line_ne he h1), hs] at this
      cases this

end

/-! ### The board move -/

section
variable {p : Position} {f t k : Square} {kd : Kind} {pro : Bool}

/-- A legal move by the king does not attack the other king. -/
theorem king_not_attacking (hk : KingAt (absPos p) p.turn.opp k) (hf : (absPos p).board f = some (p.turn, .king))
    (htk : k ≠ t) (hK : KingAt (absPos p) p.turn f)
    (hsafe : ¬ ((absPos p).play (.move f t pro)).InCheck p.turn) (occ : Square → Bool) : ¬ Attacks p.turn .king occ t k := by
  intro ha
  apply hsafe
  rw [show p.turn = (absPos p).turn from rfl] at *
  refine ⟨t, ?_, k, .king, ?_, ?_⟩
  · rw [play_move_own hf]; exact Or.inl ⟨rfl, (arriving_of_king pro).symm⟩
  · rw [play_move_enemy hf]; exact ⟨htk, hk.at⟩
  · rw [attacks_symm]
    rw [attacks_iff] at ha ⊢
    rcases ha with ha | ⟨ha, -⟩
    · exact Or.inl ha
    · exact absurd ha (slideLine_none rfl)

theorem slide_orth (kd : Kind) {d : Dir} (hd : d ∈ kd.slides) (h : d.2 = 0) : kd = .rook ∨ kd = .dragon := by
  cases kd <;> simp [Kind.slides, diag, orth] at hd ⊢ <;> (rcases hd with rfl | rfl | rfl | rfl) <;> simp at h
  <;> (subst hd; simp at h)

theorem slide_diag (kd : Kind) {d : Dir} (hd : d ∈ kd.slides) (h1 : d.1 ≠ 0) (h2 : d.2 ≠ 0) : kd = .bishop ∨ kd = .horse := by
  cases kd <;> simp [Kind.slides, diag, orth] at hd ⊢ <;> (rcases hd with rfl | rfl | rfl | rfl) <;> simp at h1 h2
  <;> (subst hd; simp at h1 h2)

/-- The direct part of the check test. -/
theorem direct_iff (h : Consistent p) (hk : p.kingSquare p.turn.opp = some k) (hf : (absPos p).board f = some (p.turn, kd))
    (htk : k ≠ t) (hsafe : kd = .king → ¬ ((absPos p).play (.move f t pro)).InCheck p.turn) :
    (p.checkBB (Pos.arriving kd pro).code).isSet t = true ↔ Attacks p.turn (Pos.arriving kd pro) (absPos p).occ t k := by
  by_cases hkd : kd = .king
  · subst hkd
    rw [arriving_of_king]
    have hK : KingAt (absPos p) p.turn f := fun s => ⟨fun e => h.king_unique e hf, by rintro rfl; exact hf⟩
    refine iff_of_false ?_ (king_not_attacking (h.kingAt hk) hf htk hK (hsafe rfl) _)
    unfold checkBB
    simp only [hk, Kind.code, isSet_zero]
    exact Bool.false_ne_true
  · exact isSet_checkBB h hk _ (arriving_ne_king pro hkd) t

/-- `moveGivesCheck` on board moves. -/
theorem moveGivesCheck_move (h : Consistent p) (hk : p.kingSquare p.turn.opp = some k)
    (hf : (absPos p).board f = some (p.turn, kd)) (hpro : pro = true → kd.promoted.isSome = true)
    (hat : Attacks p.turn kd (absPos p).occ f t) (ht : ∀ kd', (absPos p).board t ≠ some (p.turn, kd')) (htk : k ≠ t)
    (hsafe : kd = .king → ¬ ((absPos p).play (.move f t pro)).InCheck p.turn) :
    p.moveGivesCheck (boardMove p.piece f t pro) = true ↔
      Attacks p.turn (Pos.arriving kd pro) (absPos p).occ t k ∨ ∃ s, PinLine (absPos p) p.turn k f s ∧ s ≠ t ∧ ¬ Between s t k := by
  have hpt : pieceType (p.piece f) = kd.code := by rw [h.code, hf]; exact pieceType_mkPiece _ _
  obtain ⟨hd, hsrc, -, -, hnd, hptf, hptt, -, -⟩ := board_fields p f t pro kd hpt hpro
  unfold moveGivesCheck
  simp only [hd, hsrc, hnd, hptf, hptt, Bool.false_eq_true, if_false, Bool.or_eq_true]
  refine or_congr (direct_iff h hk hf htk hsafe) ?_
  rw [hk]
  refine leavesLine_iff (a := p.turn) (b := p.turn) ?_ ⟨kd, hf⟩ (h.kingAt hk).occ (fun u hu => Attacks.path hat u hu) htk.symm
    (attacks_ne hat).symm
  rw [isSet_discoveredCheckBB h, hk]
  simp

theorem moveGivesCheck_drop (h : Consistent p) (hk : p.kingSquare p.turn.opp = some k) (hk' : HKind) (t : Square) :
    p.moveGivesCheck (makeDropMove hk'.kind.code t.val) = true ↔ Attacks p.turn hk'.kind (absPos p).occ t k := by
  obtain ⟨hd, -, hdr, hpt, -⟩ := drop_fields hk' t
  unfold moveGivesCheck
  simp only [hd, hdr, hpt, if_true]
  exact isSet_checkBB h hk _ (by cases hk' <;> decide) t

theorem moveGivesCheck_noKing (hk : p.kingSquare p.turn.opp = none) (m : Move) : p.moveGivesCheck m = false := by
  unfold moveGivesCheck checkBB leavesLine
  simp only [hk, isSet_zero, Bool.and_false, Bool.or_false, ite_self]

end

end Verif
