import Verif.Lemmas.MateFar
import Verif.Lemmas.MateDisc
import Verif.Props.Legal

/-!
# C55, C56: mate in one

`mate_move_in_1ply` is `Position.mateMoveIn1Ply` (Verif/Model/Mate1.lean). Mate is `Spec.Pos.Mated` (Verif/Spec/Rules.lean): the
side to move is in check and no move leaves its king safe.
-/

namespace Verif
open Spec Bitboard Position

/-! ### C55: what is returned is mate -/

theorem groups_sound {p : Position} {k : Square} (h : Ready p k) {m : Move} (hm : some m ∈ p.mateGroups k) : Found2 p m := by
  unfold mateGroups at hm
  simp only [List.mem_cons, List.not_mem_nil, or_false] at hm
  rcases hm with e | e | e | e | e | e | e | e | e | e | e | e | e | e | e | e | e
  · exact (mateRookDrop_sound h e.symm).two
  · exact (mateBishopDrop_sound h e.symm).two
  · exact (mateGoldDrop_sound h e.symm).two
  · exact (mateSilverDrop_sound h e.symm).two
  · exact (mateKnightDrop_sound h e.symm).two
  · exact (mateDragon_sound h e.symm).two
  · exact (mateRook_sound h e.symm).two
  · exact (mateHorse_sound h e.symm).two
  · exact (mateBishop_sound h e.symm).two
  · exact (mateGold_sound h e.symm).two
  · exact (mateSilver_sound h e.symm).two
  · exact (mateKnight_sound h e.symm).two
  · exact (mateLance_sound h e.symm).two
  · exact (matePawn_sound h e.symm).two
  · exact (mateFar_sound h e.symm).two
  · exact mateDouble_sound h e.symm
  · exact mateDisc_sound h e.symm

theorem gold_word (p : Position) (f t : Square) : move16 (genMove p PT.Gold f t) = move16 (boardMove p.piece f t false) := by
  have hf := f.isLt
  have ht := t.isLt
  apply BitVec.eq_of_toNat_eq
  rw [show (move16 (genMove p PT.Gold f t)).toNat = (genMove p PT.Gold f t).toNat % 2 ^ 16 by simp [move16],
    show (move16 (boardMove p.piece f t false)).toNat = (boardMove p.piece f t false).toNat % 2 ^ 16 by simp [move16]]
  unfold genMove boardMove
  have g1 : pieceType (p.piece t) < 16 := Nat.mod_lt _ (by decide)
  have g2 : pieceType (p.piece f) < 16 := Nat.mod_lt _ (by decide)
  rw [if_neg (by decide), makeCaptureMove_toNat _ _ _ _ g1 (by decide) (by omega) (by omega),
    makeCaptureMove_toNat _ _ _ _ g1 g2 (by omega) (by omega)]
  omega

/-- **C55**, the part that holds: in every regular position in which the side to move is not in check, `mate_move_in_1ply`
terminates with a defined answer, and a nonzero answer `m` stands for a legal move after which the opponent is mated: it has the
16-bit form of that move, so `move_from_move16(move16(m))` is its move integer, and it is that integer itself unless the piece
moved is a promoted pawn, lance, knight or silver. -/
theorem C55_mate1_partial (p : Position) (hp : Consistent p) (hr : (absPos p).Regular) (hn : ¬ (absPos p).InCheck p.turn) :
    ∃ m, p.mateMoveIn1Ply = some m ∧ (m ≠ 0#32 → ∃ mv, (absPos p).Legal mv ∧ ((absPos p).play mv).Mated ∧
      move16 m = move16 (encode p mv) ∧ move16toMove p.piece (widen16 (move16 m)) = some (encode p mv) ∧
      (m ≠ encode p mv → ∃ f t kd, mv = .move f t false ∧ (absPos p).board f = some (p.turn, kd) ∧
        (kd = .proPawn ∨ kd = .proLance ∨ kd = .proKnight ∨ kd = .proSilver))) := by
  obtain ⟨k, hk⟩ := hr.kings p.turn.opp
  have hk : p.kingSquare p.turn.opp = some k := (hp.king _ _).mpr ((hk k).mpr rfl)
  have h : Ready p k := ⟨hp, hr, hn, hk⟩
  have hv : p.mateMoveIn1Ply = some (((p.mateGroups k).findSome? id).getD 0#32) := by unfold mateMoveIn1Ply; rw [hk]; rfl
  refine ⟨_, hv, fun hne => ?_⟩
  rcases hg : (p.mateGroups k).findSome? id with _ | m
  · rw [hg] at hne; exact absurd rfl hne
  · rw [show (some m).getD 0#32 = m from rfl]
    obtain ⟨a, ha, e⟩ := List.exists_of_findSome?_eq_some hg
    cases e
    obtain ⟨mv, h1, h2, h3⟩ := groups_sound h ha
    have agree : MoveAgrees p.piece (encode p mv) := by
      cases mv with
      | move f t pro =>
        obtain ⟨kd, -, hat, -⟩ := h1.1.1
        exact .inl ⟨f, t, pro, rfl, fun e => (attacks_ne hat) (by first | exact e | exact e.symm)⟩
      | drop hd t =>
        refine .inr ⟨_, t, ?_, ?_, rfl⟩ <;> cases hd <;> decide
    have h16 : move16 m = move16 (encode p mv) := by
      rcases h3 with rfl | ⟨f, t, kd, rfl, -, -, rfl⟩
      · rfl
      · exact gold_word p f t
    refine ⟨mv, h1, h2, h16, by rw [h16]; exact C03_move16_recovers _ _ agree, fun hne => ?_⟩
    rcases h3 with rfl | ⟨f, t, kd, rfl, hb, hgl, rfl⟩
    · exact absurd rfl hne
    · refine ⟨f, t, kd, rfl, hb, ?_⟩
      cases kd with
      | gold => exact absurd (genMove_eq (pieceType_at hp hb)) hne
      | proPawn => exact .inl rfl
      | proLance => exact .inr (.inl rfl)
      | proKnight => exact .inr (.inr (.inl rfl))
      | proSilver => exact .inr (.inr (.inr rfl))
      | _ => cases hgl

/-- **C55** along games: after any sequence of legal pushes, passes and take-backs from a regular position, whenever the side to
move is not in check, a nonzero answer stands for a legal move that mates. -/
theorem C55_history_partial (Z : Zobrist) (p : Position) (hp : Inv Z p) (hc : CheckOK p) (hr : (absPos p).Regular)
    (ops : List Op) (ho : Always LegalOp Z ⟨p, []⟩ ops) :
    ∃ b, Board.run Z ⟨p, []⟩ ops = some b ∧ (¬ (absPos b.pos).InCheck b.pos.turn →
      ∃ m, b.pos.mateMoveIn1Ply = some m ∧ (m ≠ 0#32 → ∃ mv, (absPos b.pos).Legal mv ∧ ((absPos b.pos).play mv).Mated ∧
        move16toMove b.pos.piece (widen16 (move16 m)) = some (encode b.pos mv))) := by
  obtain ⟨b, e, hb⟩ := (LChain.base (p0 := p) p.st.continuousCheck hp hc hr.waiting).run ops ho
  refine ⟨b, e, fun hn => ?_⟩
  obtain ⟨m, e, h⟩ := C55_mate1_partial b.pos hb.good.1.views (hb.regular hr) hn
  exact ⟨m, e, fun hne => by obtain ⟨mv, h1, h2, -, h3, -⟩ := h hne; exact ⟨mv, h1, h2, h3⟩⟩

/-- Without an opposing king the function reads the square number 81 and is undefined. -/
theorem C55_no_king (p : Position) (hk : p.kingSquare p.turn.opp = none) : p.mateMoveIn1Ply = none := by
  unfold mateMoveIn1Ply; rw [hk]; rfl

/-! ### Positions -/

/-- A position set up with Black to move is regular when the obvious things are checked. -/
theorem setup_regular {Z : Zobrist} (b : Square → Option (Color × Kind)) (n : Color → Nat → Nat) (kb kw : Square)
    (h1 : ∀ s, b s = some (.black, .king) ↔ s = kb) (h2 : ∀ s, b s = some (.white, .king) ↔ s = kw)
    (h3 : ∀ c (h : HKind), n c h.code ≤ h.total) (h4 : ∀ s, (match b s with | none => true | some (c, k) => decide (¬ Dead c k s)) = true)
    (h5 : (⟨b, fun c h => n c h.code, .black⟩ : Pos).InSet)
    (h6 : inCheckB (setPieces Z clear (fun s => pieceCode (b s)) n) .white = false) :
    Inv Z (setPieces Z clear (fun s => pieceCode (b s)) n) ∧
    absPos (setPieces Z clear (fun s => pieceCode (b s)) n) = ⟨b, fun c h => n c h.code, .black⟩ ∧
    CheckOK (setPieces Z clear (fun s => pieceCode (b s)) n) ∧
    (absPos (setPieces Z clear (fun s => pieceCode (b s)) n)).Regular := by
  have hk : OneKing b := by
    have h : ∀ c s t, b s = some (c, .king) → b t = some (c, .king) → s = t := by
      intro c s t
      cases c
      · rw [h1, h1]; rintro rfl rfl; rfl
      · rw [h2, h2]; rintro rfl rfl; rfl
    exact h
  obtain ⟨g1, g2, g3, -⟩ := setPieces_spec Z clear ⟨b, fun c h => n c h.code, .black⟩ hk h3 n (fun _ _ => rfl)
  have hw : ¬ (absPos (setPieces Z clear (fun s => pieceCode (b s)) n)).InCheck
      (setPieces Z clear (fun s => pieceCode (b s)) n).turn.opp := by
    have ht : (absPos (setPieces Z clear (fun s => pieceCode (b s)) n)).turn = .black := congrArg Pos.turn g3
    have ht : (setPieces Z clear (fun s => pieceCode (b s)) n).turn = .black := ht
    rw [ht, ← inCheckB_iff g1, show Color.black.opp = .white from rfl, h6]; decide
  refine ⟨⟨g1, g2, ?_⟩, g3, checkOK_find g1 hw (setPieces_checkers _ _ _ _), ⟨fun c => ?_, hw, ?_⟩⟩
  · exact g3 ▸ h5
  · rw [g3]
    cases c
    · exact ⟨kb, h1⟩
    · exact ⟨kw, h2⟩
  · rw [g3]; exact alive_of_check (b := b) h4

/-- A promoted pawn on 3g stands between Black's bishop on 4f and the white king on 1i. -/
def discBoard (s : Square) : Option (Color × Kind) :=
  match s.val with
  | 8 => some (.white, .king) | 7 => some (.white, .pawn) | 24 => some (.black, .proPawn) | 32 => some (.black, .bishop)
  | 13 => some (.black, .rook) | 80 => some (.black, .king) | _ => none

def discModel : Position := setPieces zeroKeys clear (fun s => pieceCode (discBoard s)) (fun _ _ => 0)

theorem discModel_ok : Inv zeroKeys discModel ∧ absPos discModel = ⟨discBoard, fun _ _ => 0, .black⟩ ∧ CheckOK discModel ∧
    (absPos discModel).Regular :=
  setup_regular discBoard (fun _ _ => 0) 80 8 (by decide +kernel) (by decide +kernel) (fun c h => Nat.zero_le _) (by decide +kernel)
    (fun h => by cases h <;> decide +kernel) (by decide +kernel)

theorem discModel_calm : ¬ (absPos discModel).InCheck discModel.turn := by
  rw [← inCheckB_iff discModel_ok.1.views]; decide +kernel

/-- **C55** fails for promoted minor pieces: in this regular position the answer is a move integer that says a gold moves from
3g. It is not among the legal moves, and pushing it leaves a gold on the board, whose view by kind still shows the promoted
pawn on 3g. -/
theorem C55_fails : Inv zeroKeys discModel ∧ CheckOK discModel ∧ (absPos discModel).Regular ∧ ¬ (absPos discModel).InCheck discModel.turn ∧
    ∃ m, discModel.mateMoveIn1Ply = some m ∧ m ≠ 0#32 ∧ m.src = 24 ∧ pieceType (discModel.piece 24) = PT.ProPawn ∧
      m.pieceTypeFrom = PT.Gold ∧ (∀ l, genLegal discModel true = some l → m ∉ l) ∧
      ∃ p', doMove zeroKeys discModel m = some p' ∧ pieceType (p'.piece (sqN m.dst)) = PT.Gold ∧
        (p'.byType PT.ProPawn).isSet 24 = true ∧ ¬ Consistent p' := by
  refine ⟨discModel_ok.1, discModel_ok.2.2.1, discModel_ok.2.2.2, discModel_calm, ?_⟩
  have h1 : (match discModel.mateMoveIn1Ply with
      | none => false
      | some m => m != 0#32 && m.src == 24 && m.pieceTypeFrom == PT.Gold && (match genLegal discModel true with
          | none => true
          | some l => !l.contains m) &&
        (match doMove zeroKeys discModel m with
          | none => false
          | some p' => pieceType (p'.piece (sqN m.dst)) == PT.Gold && (p'.byType PT.ProPawn).isSet 24 && p'.piece 24 == 0)) = true := by
    decide +kernel
  rcases hm : discModel.mateMoveIn1Ply with _ | m
  · rw [hm] at h1; cases h1
  · rw [hm] at h1
    simp only [Bool.and_eq_true, bne_iff_ne, ne_eq, beq_iff_eq] at h1
    obtain ⟨⟨⟨⟨a1, a2⟩, a3⟩, a4⟩, a5⟩ := h1
    refine ⟨m, rfl, a1, a2, by decide +kernel, a3, fun l hl => ?_, ?_⟩
    · rw [hl] at a4
      simpa using a4
    · rcases hd : doMove zeroKeys discModel m with _ | p'
      · rw [hd] at a5; cases a5
      · rw [hd] at a5
        simp only [Bool.and_eq_true, beq_iff_eq] at a5
        refine ⟨p', rfl, a5.1.1, a5.1.2, fun hcon => ?_⟩
        have := (piece_zero_iff hcon 24).mp a5.2
        have h2 := (hcon.type .proPawn 24).mp a5.1.2
        obtain ⟨c, h2⟩ := h2
        rw [this] at h2; cases h2

/-- Black's king on 5i is in check by a rook; a gold dropped on 5b would mate if it were allowed. -/
def rashBoard (s : Square) : Option (Color × Kind) :=
  match s.val with
  | 36 => some (.white, .king) | 38 => some (.black, .pawn) | 44 => some (.black, .king) | 8 => some (.white, .rook) | _ => none

def rashHand (c : Color) (h : Nat) : Nat := match c, h with | .black, 4 => 1 | _, _ => 0

def rashModel : Position := setPieces zeroKeys clear (fun s => pieceCode (rashBoard s)) rashHand

theorem rashModel_ok : Inv zeroKeys rashModel ∧ absPos rashModel = ⟨rashBoard, fun c h => rashHand c h.code, .black⟩ ∧ CheckOK rashModel ∧
    (absPos rashModel).Regular :=
  setup_regular rashBoard rashHand 44 36 (by decide +kernel) (by decide +kernel) (fun c h => by cases c <;> cases h <;> decide)
    (by decide +kernel) (fun h => by cases h <;> decide +kernel) (by decide +kernel)

/-- **C55** fails in check, which the Python method does not rule out: the answer is a drop that leaves Black's king in check and
is not legal. -/
theorem C55_fails_in_check : Inv zeroKeys rashModel ∧ CheckOK rashModel ∧ (absPos rashModel).Regular ∧
    rashModel.mateMoveIn1Ply = some (encode rashModel (.drop .gold 37)) ∧ ¬ (absPos rashModel).Legal (.drop .gold 37) := by
  refine ⟨rashModel_ok.1, rashModel_ok.2.2.1, rashModel_ok.2.2.2, by decide +kernel, fun hl => ?_⟩
  obtain ⟨l, e, hm⟩ := C25_complete rashModel rashModel_ok.1.views rashModel_ok.2.2.1 rashModel_ok.2.2.2
  have := hm _ hl
  have h0 : (match genLegal rashModel true with | none => true | some l => !l.contains (encode rashModel (.drop .gold 37))) = true := by
    decide +kernel
  rw [e] at h0
  simp only [List.contains_eq_mem, Bool.not_eq_true', decide_eq_false_iff_not] at h0
  exact h0 this

/-- The same without the rook. -/
def goldBoard (s : Square) : Option (Color × Kind) :=
  match s.val with
  | 36 => some (.white, .king) | 38 => some (.black, .pawn) | 44 => some (.black, .king) | _ => none

def goldModel : Position := setPieces zeroKeys clear (fun s => pieceCode (goldBoard s)) rashHand

theorem goldModel_ok : Inv zeroKeys goldModel ∧ absPos goldModel = ⟨goldBoard, fun c h => rashHand c h.code, .black⟩ ∧ CheckOK goldModel ∧
    (absPos goldModel).Regular :=
  setup_regular goldBoard rashHand 44 36 (by decide +kernel) (by decide +kernel) (fun c h => by cases c <;> cases h <;> decide)
    (by decide +kernel) (fun h => by cases h <;> decide +kernel) (by decide +kernel)

/-- There the hypotheses of `C55_mate1_partial` are met and the answer is the drop of the gold. So are they by `discModel`. -/
example : Consistent goldModel ∧ (absPos goldModel).Regular ∧ ¬ (absPos goldModel).InCheck goldModel.turn ∧
    goldModel.mateMoveIn1Ply = some (encode goldModel (.drop .gold 37)) ∧ encode goldModel (.drop .gold 37) ≠ 0#32 :=
  ⟨goldModel_ok.1.views, goldModel_ok.2.2.2, by rw [← inCheckB_iff goldModel_ok.1.views]; decide +kernel, by decide +kernel, by decide +kernel⟩

/-! ### C56: not every mate is found -/

/-- White's king on 1i, Black's rooks on 6a and 9h; White holds a knight, which cannot be dropped on the last rank. -/
def missBoard (s : Square) : Option (Color × Kind) :=
  match s.val with
  | 8 => some (.white, .king) | 45 => some (.black, .rook) | 79 => some (.black, .rook) | 72 => some (.black, .king) | _ => none

def missHand (c : Color) (h : Nat) : Nat := match c, h with | .white, 2 => 1 | _, _ => 0

def missModel : Position := setPieces zeroKeys clear (fun s => pieceCode (missBoard s)) missHand

theorem missModel_ok : Inv zeroKeys missModel ∧ absPos missModel = ⟨missBoard, fun c h => missHand c h.code, .black⟩ ∧ CheckOK missModel ∧
    (absPos missModel).Regular :=
  setup_regular missBoard missHand 72 8 (by decide +kernel) (by decide +kernel) (fun c h => by cases c <;> cases h <;> decide)
    (by decide +kernel) (fun h => by cases h <;> decide +kernel) (by decide +kernel)

/-- **C56** is false: in this regular position, not in check, Black mates by moving the rook from 6a to 6i, and
`mate_move_in_1ply` answers 0. -/
theorem C56_fails : Inv zeroKeys missModel ∧ CheckOK missModel ∧ (absPos missModel).Regular ∧ ¬ (absPos missModel).InCheck missModel.turn ∧
    (absPos missModel).Legal (.move 45 53 false) ∧ ((absPos missModel).play (.move 45 53 false)).Mated ∧
    missModel.mateMoveIn1Ply = some 0#32 := by
  obtain ⟨hi, ha, hc, hr⟩ := missModel_ok
  have hleg : (absPos missModel).Legal (.move 45 53 false) := by
    obtain ⟨l, e, hm⟩ := C24_sound missModel hi.views hc hr
    have h0 : (match genLegal missModel true with | none => true | some l => l.contains (encode missModel (.move 45 53 false))) = true := by
      decide +kernel
    rw [e] at h0
    obtain ⟨mv, e1, e2⟩ := hm (encode missModel (.move 45 53 false)) (by simpa using h0)
    rw [encode_inj _ e1]; exact e2
  refine ⟨hi, hc, hr, by rw [← inCheckB_iff hi.views]; decide +kernel, hleg, ?_, by decide +kernel⟩
  obtain ⟨p', e, hi', hc', hw', ha', -⟩ := doMove_safe zeroKeys hi hr.waiting hleg.1
  have hr' : (absPos p').Regular := by rw [ha']; exact Regular.play hr hleg.1
  rw [← ha']
  have h1 : (match doMove zeroKeys missModel (encode missModel (.move 45 53 false)) with
      | none => false
      | some p' => inCheckB p' p'.turn && genLegal p' true == some []) = true := by decide +kernel
  rw [e] at h1
  simp only [Bool.and_eq_true, beq_iff_eq] at h1
  refine ⟨(inCheckB_iff hi'.views _).mp h1.1, fun m hs => ?_⟩
  obtain ⟨l, e2, hm⟩ := C25_complete p' hi'.views hc' hr'
  rw [h1.2] at e2; cases e2
  have hnl : ¬ (absPos p').Legal m := fun h => by have := hm m h; cases this
  refine hnl ⟨hs, ?_⟩
  rintro ⟨t, rfl, -⟩
  have := hs.1.1
  rw [ha', ha] at this
  revert this
  decide +kernel

end Verif
