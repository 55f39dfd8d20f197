import Verif.Lemmas.Regular
import Verif.Props.Views

/-!
# C21-C23: checks, check prediction, pins

`CheckOK p` says that the recorded checking pieces are exactly the enemy pieces attacking the king of the side to move.
-/

namespace Verif
open Spec Bitboard Position

/-! ### C21 -/

/-- **C21** (set-up): after setting up any placement in which the side not to move is not in check, the recorded checkers
are the pieces attacking the king of the side to move. -/
theorem C21_setup (Z : Zobrist) (p : Position) (q : Pos) (h1 : OneKing q.board) (hh : ∀ c h, q.hand c h ≤ h.total)
    (hand : Color → Nat → Nat) (hhand : ∀ c h, hand c h.code = q.hand c h)
    (hw : ¬ Pos.InCheck { q with turn := p.turn } p.turn.opp) (s : Square) :
    let p' := setPieces Z p (fun s => pieceCode (q.board s)) hand
    p'.st.checkersBB.isSet s = true ↔ ∃ k, q.board k = some (p.turn, .king) ∧ q.AttacksSq p.turn.opp s k := by
  intro p'
  obtain ⟨h2, -, h3, -⟩ := setPieces_spec Z p q h1 hh hand hhand
  have ht : p'.turn = p.turn := by
    have : (absPos p').turn = p.turn := by rw [h3]
    exact this
  have := (checkOK_find (p := p') h2 (by rw [ht, h3]; exact hw) (setPieces_checkers Z p _ _)).iff s
  rw [this, h3, ht]
  rfl

/-- **C21**: through every game of legal moves, passes and take-backs, of any length, `is_check` says exactly whether the
king of the side to move is attacked, and the recorded checkers are exactly the attacking pieces. -/
theorem C21_history (Z : Zobrist) (p : Position) (hp : Inv Z p) (hc : CheckOK p) (hw : ¬ (absPos p).InCheck p.turn.opp)
    (ops : List Op) (ho : Always LegalOp Z ⟨p, []⟩ ops) :
    ∃ b, Board.run Z ⟨p, []⟩ ops = some b ∧
      (b.pos.inCheck = true ↔ (absPos b.pos).InCheck b.pos.turn) ∧
      ∀ s, b.pos.st.checkersBB.isSet s = true ↔
        ∃ k, (absPos b.pos).board k = some (b.pos.turn, .king) ∧ (absPos b.pos).AttacksSq b.pos.turn.opp s k := by
  obtain ⟨b, e, hb⟩ := (LChain.base (p0 := p) p.st.continuousCheck hp hc hw).run ops ho
  exact ⟨b, e, hb.good.2.1.inCheck, hb.good.2.1.iff⟩

/-- **C21** (one move): the incremental update is exact after any move that leaves the own king safe. -/
theorem C21_push (Z : Zobrist) (p : Position) (hp : Inv Z p) (hw : ¬ (absPos p).InCheck p.turn.opp) (m : Mv)
    (hm : (absPos p).Safe m) :
    ∃ p', doMove Z p (encode p m) = some p' ∧ (p'.inCheck = true ↔ ((absPos p).play m).InCheck p.turn.opp) ∧
      ∀ s, p'.st.checkersBB.isSet s = true ↔
        ∃ k, ((absPos p).play m).board k = some (p.turn.opp, .king) ∧ ((absPos p).play m).AttacksSq p.turn s k := by
  obtain ⟨p', e, -, hc, -, ha, -⟩ := doMove_safe Z hp hw hm
  have ht : p'.turn = p.turn.opp := by
    have : (absPos p').turn = p.turn.opp := by rw [ha]; exact play_turn m
    exact this
  refine ⟨p', e, ?_, fun s => ?_⟩
  · rw [hc.inCheck, ha, ht]
  · rw [hc.iff, ha, ht, opp_opp]

/-! A position with a check to give: kings on 5a and 5i, a black rook on 2h behind nothing. -/

theorem passBoard_oneKing : OneKing passBoard := by
  have h : ∀ c s t, passBoard s = some (c, .king) → passBoard t = some (c, .king) → s = t := by
    intro c
    cases c
    · have : ∀ s, passBoard s = some (.black, .king) → s = 44 := by decide +kernel
      intro s t h1 h2; rw [this s h1, this t h2]
    · have : ∀ s, passBoard s = some (.white, .king) → s = 36 := by decide +kernel
      intro s t h1 h2; rw [this s h1, this t h2]
  exact h

/-- The rules' view of that position. -/
def passPos : Pos := ⟨passBoard, fun _ _ => 0, .black⟩

theorem passModel_spec : Inv zeroKeys passModel ∧ absPos passModel = passPos := by
  obtain ⟨h1, h2, h3, -⟩ := setPieces_spec zeroKeys clear passPos passBoard_oneKing (fun _ _ => Nat.zero_le _) (fun _ _ => 0)
    (fun _ _ => rfl)
  refine ⟨⟨h1, h2, ?_⟩, h3⟩
  show (absPos (setPieces zeroKeys clear (fun s => pieceCode (passPos.board s)) fun _ _ => 0)).InSet
  rw [h3]
  intro h; cases h <;> decide +kernel

theorem passModel_waiting : ¬ (absPos passModel).InCheck passModel.turn.opp := by
  rw [← inCheckB_iff passModel_spec.1.views]
  decide +kernel

theorem passModel_checkOK : CheckOK passModel :=
  checkOK_find passModel_spec.1.views passModel_waiting (setPieces_checkers _ _ _ _)

/-- R2h-5h is possible there, leaves the own king safe and gives check. -/
theorem passModel_rook : (absPos passModel).Safe (.move 16 43 false) ∧ ((absPos passModel).play (.move 16 43 false)).InCheck .white := by
  have hps : (absPos passModel).Pseudo (.move 16 43 false) := by
    refine ⟨.rook, by rw [passModel_spec.2]; rfl, ?_, ?_, by simp, fun _ => by simp [Dead]⟩
    · rw [← passModel_spec.1.views.occ_fun, show (absPos passModel).turn = .black from rfl, ← isSet_attacksFrom]
      decide +kernel
    · rw [passModel_spec.2]
      intro k' e
      exact absurd e (by rw [show passPos.board 43 = none from rfl]; simp)
  obtain ⟨p', e, h1, h2, -⟩ := doMove_inv zeroKeys passModel_spec.1 (pseudo_playable hps passModel_waiting)
  refine ⟨⟨hps, ?_⟩, ?_⟩
  · rw [← h2, show (absPos passModel).turn = .black from rfl, ← inCheckB_iff h1.views]
    have : (doMove zeroKeys passModel (encode passModel (.move 16 43 false))).map (fun p' => inCheckB p' .black) = some false := by
      decide +kernel
    rw [e] at this
    simpa using this
  · rw [← h2, ← inCheckB_iff h1.views]
    have : (doMove zeroKeys passModel (encode passModel (.move 16 43 false))).map (fun p' => inCheckB p' .white) = some true := by
      decide +kernel
    rw [e] at this
    simpa using this

/-- R2h-5h, taken back, then a pass: operations of a legal game (after which `is_check` was true in between). -/
example : Inv zeroKeys passModel ∧ CheckOK passModel ∧ ¬ (absPos passModel).InCheck passModel.turn.opp ∧
    Always LegalOp zeroKeys ⟨passModel, []⟩ [.push (encode passModel (.move 16 43 false))] ∧
    ∃ p', doMove zeroKeys passModel (encode passModel (.move 16 43 false)) = some p' ∧ p'.inCheck = true := by
  refine ⟨passModel_spec.1, passModel_checkOK, passModel_waiting, ⟨⟨_, rfl, passModel_rook.1, ?_⟩, fun _ _ => trivial⟩, ?_⟩
  · rintro ⟨t, e, -⟩; cases e
  · obtain ⟨p', e, h, -⟩ := C21_push zeroKeys passModel passModel_spec.1 passModel_waiting _ passModel_rook.1
    exact ⟨p', e, h.mpr passModel_rook.2⟩

/-! ### C22 -/

/-- **C22**: the prediction whether a move gives check is exact for every move that obeys the rules. -/
theorem C22_moveGivesCheck (p : Position) (hp : Consistent p) (hw : ¬ (absPos p).InCheck p.turn.opp) (m : Mv)
    (hm : (absPos p).Safe m) :
    p.moveGivesCheck (encode p m) = true ↔ ((absPos p).play m).InCheck p.turn.opp := by
  obtain ⟨hps, hsafe⟩ := hm
  have hpl := pseudo_playable hps hw
  rcases hk : p.kingSquare p.turn.opp with _ | k
  · rw [moveGivesCheck_noKing hk]
    simp only [Bool.false_eq_true, false_iff]
    rintro ⟨s, e, -⟩
    have := (king_after hpl s).mp e
    rw [← hp.king] at this
    rw [show (absPos p).turn = p.turn from rfl, hk] at this; cases this
  · have hK := hp.kingAt hk
    have hK' : KingAt ((absPos p).play m) p.turn.opp k := fun s => (king_after hpl s).trans (hK s)
    rw [hK'.inCheck, opp_opp]
    unfold Pos.Attacked
    cases m with
    | drop h t =>
      rw [show encode p (.drop h t) = makeDropMove h.kind.code t.val from rfl, moveGivesCheck_drop hp hk]
      have := drop_gives (q := absPos p) hK hw (h := h) hps.2.1
      constructor
      · intro e; exact ⟨t, (this t).mpr ⟨rfl, e⟩⟩
      · rintro ⟨s, e⟩; exact ((this s).mp e).2
    | move f t pro =>
      obtain ⟨kd, hf, hat, ht, hpro, -⟩ := hps
      have htk : k ≠ t := by
        rintro rfl
        exact hw ⟨k, hK.at, f, kd, by rw [opp_opp]; exact hf, by rw [opp_opp]; exact hat⟩
      rw [show encode p (.move f t pro) = boardMove p.piece f t pro from rfl,
        moveGivesCheck_move hp hk hf (fun e => (hpro e).1) hat ht htk (fun _ => hsafe)]
      have := move_gives (q := absPos p) hK hw (pro := pro) hf hat ht
      constructor
      · rintro (e | ⟨s, h1, h2, h3⟩)
        · exact ⟨t, (this t).mpr (Or.inl ⟨rfl, e⟩)⟩
        · exact ⟨s, (this s).mpr (Or.inr ⟨h1, h3⟩)⟩
      · rintro ⟨s, e⟩
        rcases (this s).mp e with ⟨-, e⟩ | ⟨h1, h2⟩
        · exact Or.inl e
        · refine Or.inr ⟨s, h1, ?_, h2⟩
          rintro rfl
          obtain ⟨kd', e, -⟩ := h1.piece
          exact ht kd' e

example : Consistent passModel ∧ ¬ (absPos passModel).InCheck passModel.turn.opp ∧ (absPos passModel).Safe (.move 16 43 false) ∧
    passModel.moveGivesCheck (encode passModel (.move 16 43 false)) = true :=
  ⟨passModel_spec.1.views, passModel_waiting, passModel_rook.1,
    (C22_moveGivesCheck _ passModel_spec.1.views passModel_waiting _ passModel_rook.1).mpr passModel_rook.2⟩

/-! ### C23 -/

/-- **C23**: the pieces reported pinned are exactly the absolutely pinned pieces of the side to move. -/
theorem C23_pinned (p : Position) (hp : Consistent p) (f : Square) :
    p.pinnedBB.isSet f = true ↔ ∃ s k, (absPos p).PinnedBy p.turn f s k := by
  rw [isSet_pinnedBB hp]
  constructor
  · rintro ⟨k, hk, s, h, kd, hf⟩
    exact ⟨s, k, (pinLine_iff ⟨kd, hf⟩ ((hp.king _ _).mp hk)).mp h⟩
  · rintro ⟨s, k, h⟩
    obtain ⟨⟨kd, hf⟩, hk, -⟩ := id h
    exact ⟨k, (hp.king _ _).mpr hk, s, (pinLine_iff ⟨kd, hf⟩ hk).mpr h, kd, hf⟩

/-- **C23**: out of check, a move (by a piece other than the king, following the movement rules) is rejected by the pin
test exactly when it would leave the own king attackable. -/
theorem C23_pin_test (p : Position) (hp : Consistent p) (k f t : Square) (kd : Kind) (pro : Bool)
    (hk : p.kingSquare p.turn = some k) (hc : ¬ (absPos p).InCheck p.turn)
    (hf : (absPos p).board f = some (p.turn, kd)) (hkd : kd ≠ .king) (hm : (absPos p).Pseudo (.move f t pro)) :
    leavesLine f t (p.kingSquare p.turn) p.pinnedBB = true ↔ ((absPos p).play (.move f t pro)).InCheck p.turn := by
  obtain ⟨kd', hf', hat, ht, -⟩ := hm
  rw [show (absPos p).turn = p.turn from rfl] at hf' hat ht
  rw [hf] at hf'; cases hf'
  have hK := hp.kingAt hk
  have h1 := move_inCheck (q := absPos p) hK (pro := pro) hf hkd ht
  rw [show (absPos p).turn = p.turn from rfl] at h1
  rw [h1, hk]
  have htk : t ≠ k := by rintro rfl; exact ht _ hK.at
  rw [leavesLine_iff (a := p.turn.opp) (b := p.turn) ?_ ⟨kd, hf⟩ hK.occ (fun u hu => Attacks.path hat u hu) htk (attacks_ne hat).symm]
  · refine exists_congr fun s => ?_
    constructor
    · rintro ⟨h2, h3⟩; exact ⟨Or.inr h2, h3⟩
    · rintro ⟨h2 | h2, h3⟩
      · exact absurd ⟨k, hK.at, s, h2⟩ hc
      · exact ⟨h2, h3⟩
  · rw [isSet_pinnedBB hp, hk]; simp

/-- **C23**: the pin test asks exactly whether the piece is pinned by some piece and goes neither to that piece's square
nor to a square between it and the king. -/
theorem C23_leaves_line (p : Position) (hp : Consistent p) (k f t : Square) (kd : Kind) (pro : Bool)
    (hk : p.kingSquare p.turn = some k) (hf : (absPos p).board f = some (p.turn, kd)) (hm : (absPos p).Pseudo (.move f t pro)) :
    leavesLine f t (p.kingSquare p.turn) p.pinnedBB = true ↔
      ∃ s, (absPos p).PinnedBy p.turn f s k ∧ t ≠ s ∧ ¬ Between s t k := by
  obtain ⟨kd', hf', hat, ht, -⟩ := hm
  rw [show (absPos p).turn = p.turn from rfl] at hf' hat ht
  rw [hf] at hf'; cases hf'
  have hK := hp.kingAt hk
  have htk : t ≠ k := by rintro rfl; exact ht _ hK.at
  rw [hk, leavesLine_iff (a := p.turn.opp) (b := p.turn) ?_ ⟨kd, hf⟩ hK.occ (fun u hu => Attacks.path hat u hu) htk (attacks_ne hat).symm]
  · refine exists_congr fun s => ?_
    rw [pinLine_iff ⟨kd, hf⟩ hK.at, ne_comm]
  · rw [isSet_pinnedBB hp, hk]; simp

/-- The position for the example: the black king on 5i, a black silver on 5g, a white rook on 5b, the white king on 1a. -/
def pinBoard (s : Square) : Option (Color × Kind) :=
  if s = 0 then some (.white, .king) else if s = 44 then some (.black, .king)
  else if s = 42 then some (.black, .silver) else if s = 37 then some (.white, .rook) else none

/-- It, Black to move. -/
def pinModel : Position := setPieces zeroKeys clear (fun s => pieceCode (pinBoard s)) (fun _ _ => 0)

theorem pinModel_spec : Consistent pinModel ∧ absPos pinModel = ⟨pinBoard, fun _ _ => 0, .black⟩ := by
  have hk : OneKing pinBoard := by
    have h : ∀ c s t, pinBoard s = some (c, .king) → pinBoard t = some (c, .king) → s = t := by
      intro c
      cases c
      · have : ∀ s, pinBoard s = some (.black, .king) → s = 44 := by decide +kernel
        intro s t h1 h2; rw [this s h1, this t h2]
      · have : ∀ s, pinBoard s = some (.white, .king) → s = 0 := by decide +kernel
        intro s t h1 h2; rw [this s h1, this t h2]
    exact h
  obtain ⟨h1, h2, h3, -⟩ := setPieces_spec zeroKeys clear ⟨pinBoard, fun _ _ => 0, .black⟩ hk (fun _ _ => Nat.zero_le _) (fun _ _ => 0)
    (fun _ _ => rfl)
  exact ⟨h1, h3⟩

/-- The silver is pinned there, and S5g-4f leaves the line. -/
example : pinModel.pinnedBB.isSet 42 = true ∧ leavesLine 42 32 (pinModel.kingSquare .black) pinModel.pinnedBB = true ∧
    pinModel.kingSquare pinModel.turn = some 44 ∧ ¬ (absPos pinModel).InCheck pinModel.turn ∧
    (absPos pinModel).board 42 = some (.black, .silver) ∧ (absPos pinModel).Pseudo (.move 42 32 false) := by
  refine ⟨by decide +kernel, by decide +kernel, by decide +kernel, ?_, by rw [pinModel_spec.2]; rfl, ?_⟩
  · rw [← inCheckB_iff pinModel_spec.1]; decide +kernel
  · refine ⟨.silver, by rw [pinModel_spec.2]; rfl, Or.inl ⟨(-1, -1), by simp [Kind.steps], by decide⟩, ?_, by simp, fun _ => by simp [Dead]⟩
    rw [pinModel_spec.2]
    intro k' e
    replace e : pinBoard 32 = some (.black, k') := e
    rw [show pinBoard 32 = none from rfl] at e
    cases e

end Verif
