import Verif.Lemmas.Query
import Verif.Props.Repetition
import Verif.Spec.Parts

/-!
# C73: reading a board as lists and setting it up from them
-/

namespace Verif
open Spec Bitboard Position

theorem pieceCode_number (v : Option (Color × Kind)) : pieceCode v = pieceNumber v := by
  rcases v with _ | ⟨c, k⟩
  · rfl
  · cases c <;> cases k <;> rfl

theorem piecesInHand_eq (p : Position) (c : Color) : p.piecesInHand c = handKinds.map ((absPos p).hand c) := rfl

/-- **C73**: `pieces` lists, square by square, the piece that stands there; `pieces_in_hand` the counts of both hands. -/
theorem C73_read {p : Position} (h : Consistent p) :
    (∀ s, p.pieces s = pieceNumber ((absPos p).board s)) ∧ ∀ c, p.piecesInHand c = handKinds.map ((absPos p).hand c) :=
  ⟨fun s => by rw [pieces_raw h.raw, pieceCode_number], fun _ => rfl⟩

/-- The hands as `set_pieces` takes them. -/
def handLists (q : Pos) (c : Color) (i : Nat) : Nat := (handKinds.map (q.hand c)).getD i 0

theorem handLists_code (q : Pos) (c : Color) (h : HKind) : handLists q c h.code = q.hand c h := by cases h <;> rfl

/-- **C73**: after `set_pieces` with the lists of a placement `q` the board shows `q`, keeps the turn and the move number and
has an empty history; reading gives the lists back; and the board is, in every part, the one that `set_sfen` makes of its SFEN. -/
theorem C73_set (Z : Zobrist) (b : Board) (q : Pos) (hh : ∀ c h, q.hand c h ≤ h.total) (hl : -2147483648 ≤ b.pos.gamePly)
    (hu : b.pos.gamePly ≤ 2147483647) :
    let b' := b.setPieces Z (fun s => pieceNumber (q.board s)) (handLists q)
    absPos b'.pos = { q with turn := b.pos.turn } ∧ b'.pos.gamePly = b.pos.gamePly ∧ b'.hist = [] ∧
    (∀ s, b'.pos.pieces s = pieceNumber (q.board s)) ∧ (∀ c, b'.pos.piecesInHand c = handKinds.map (q.hand c)) ∧
    setSfen Z (toSfen b'.pos b'.pos.gamePly) = .ok b'.pos := by
  intro b'
  obtain ⟨r, e, hr, fr, ht, hg, hhand⟩ := setPieces_raw Z b.pos q hh (handLists q) (handLists_code q)
  have hb' : b'.pos = finish Z r := by
    rw [← e]
    show setPieces Z b.pos _ _ = setPieces Z b.pos _ _
    congr 1
    funext s
    exact (pieceCode_number _).symm
  have hraw : Raw (finish Z r) q.board := hr.congr rfl rfl rfl
  have habs : absPos b'.pos = { q with turn := b.pos.turn } := by
    rw [hb']
    refine pos_ext hraw.abs ?_ ht
    funext c h
    show (r.hand c).numOf h.code = q.hand c h
    rw [(hhand c).2 _ (hcode_lt h), handLists_code]
  refine ⟨habs, by rw [hb']; exact hg, rfl, fun s => ?_, fun c => ?_, ?_⟩
  · rw [hb', pieces_raw hraw, pieceCode_number]
  · rw [piecesInHand_eq, habs]
  · have hcode : ∀ s, b'.pos.piece s = pieceCode ((absPos b'.pos).board s) := by
      intro s; rw [habs, hb']; exact hraw.code s
    have hle : ∀ c h, (absPos b'.pos).hand c h ≤ h.total := by rw [habs]; exact hh
    have hgp : b'.pos.gamePly = b.pos.gamePly := by rw [hb']; exact hg
    obtain ⟨x, e1, x1, x2, x3, x4, x5, x6, x7⟩ := sfen_spec Z hcode hle b'.pos.gamePly (by rw [hgp]; exact hl) (by rw [hgp]; exact hu)
    have fx := fresh_setSfen e1
    rw [e1, hb']
    congr 1
    refine finish_eq Z (b := q.board) ?_ hr ⟨fx.over, x4, x6, x7⟩ fr ?_ ?_ ?_
    · rw [habs] at x1; exact x1
    · funext c
      refine Hand.ext_numOf _ _ (x5 c).1 (hhand c).1 fun i hi => ?_
      rw [(x5 c).2 i hi, hb']; rfl
    · rw [x2, hb']; rfl
    · rw [x3, hb']; rfl

example : (∀ c h, startPos.hand c h ≤ h.total) ∧ pieceNumber (startPos.board (sqN 44)) = 8 ∧ pieceNumber (startPos.board (sqN 36)) = 24 :=
  ⟨fun _ _ => Nat.zero_le _, by decide, by decide⟩

/-- **C73**: reading the lists of a board and setting them up again keeps placement, hands, turn, move number and key. -/
theorem C73_again (Z : Zobrist) (b : Board) (hi : Inv Z b.pos) (hl : -2147483648 ≤ b.pos.gamePly) (hu : b.pos.gamePly ≤ 2147483647) :
    let b' := b.setPieces Z b.pos.pieces fun c i => (b.pos.piecesInHand c).getD i 0
    absPos b'.pos = absPos b.pos ∧ b'.pos.gamePly = b.pos.gamePly ∧ b'.pos.getKey = b.pos.getKey ∧ b'.hist = [] := by
  intro b'
  have e : b' = b.setPieces Z (fun s => pieceNumber ((absPos b.pos).board s)) (handLists (absPos b.pos)) := by
    show b.setPieces Z _ _ = _
    congr 1
    funext s
    exact (C73_read hi.views).1 s
  have hh : ∀ c h, (absPos b.pos).hand c h ≤ h.total := fun c h => InSet.hand_le hi.inSet c h
  obtain ⟨h1, h2, h3, -⟩ := C73_set Z b (absPos b.pos) hh hl hu
  rw [← e] at h1 h2 h3
  have h1' : absPos b'.pos = absPos b.pos := h1
  obtain ⟨r, e', hr, -⟩ := setPieces_raw Z b.pos (absPos b.pos) hh (handLists (absPos b.pos)) (handLists_code _)
  have hb' : b'.pos = finish Z r := by
    rw [← e', e]
    show setPieces Z b.pos _ _ = setPieces Z b.pos _ _
    congr 1
    funext s
    exact (pieceCode_number _).symm
  refine ⟨h1', h2, ?_, h3⟩
  have hk : KeysOK Z b'.pos := by rw [hb']; exact finish_keys Z r
  have hc : ∀ s, b'.pos.piece s = pieceCode ((absPos b'.pos).board s) := by
    intro s; rw [h1', hb']; exact hr.code s
  rw [getKey_spec Z _ hc hk, getKey_spec Z _ hi.views.code hi.keys, h1']

theorem kingSquareOrNone_king {p : Position} (h : Consistent p) (c : Color) : kingSquareOrNone (p.bbOf PT.King c) = p.kingSquare c := by
  have h1 : OneKing (absPos p).board := by
    intro c s t h1 h2
    have a := (h.king c s).mpr h1
    have b := (h.king c t).mpr h2
    rw [a] at b; exact Option.some.inj b
  apply Option.ext
  intro s
  exact (kingSquareOrNone_iff h.raw h1 c s).trans (h.king c s).symm

theorem computeGolds_eq {p : Position} (h : Consistent p) : p.computeGolds = p.golds :=
  (wf_computeGolds h.raw).ext h.wfGolds fun s => by rw [Bool.eq_iff_iff, isSet_computeGolds h.raw, h.golds]

/-- The last steps of `finish` and of `setTurn`. -/
def withKeys (Z : Zobrist) (p : Position) : Position :=
  let p := { p with st := { p.st with boardKey := p.computeBoardKey Z, handKey := p.computeHandKey Z, hand := p.hand p.turn } }
  { p with st := { p.st with checkersBB := p.findCheckers } }

theorem setTurn_finish (Z : Zobrist) {p : Position} (h : Consistent p) (t : Color) :
    setTurn Z p t = finish Z { p with turn := t } := by
  have e1 : (fun c => kingSquareOrNone (p.bbOf PT.King c)) = p.kingSquare := funext fun c => kingSquareOrNone_king h c
  have e3 : ({ p with turn := t, kingSquare := fun c => kingSquareOrNone (p.bbOf PT.King c), golds := p.computeGolds } : Position) = { p with turn := t } := by
    rw [e1, computeGolds_eq h]
  exact (congrArg (withKeys Z) e3).symm

/-- **C73**: writing `turn` changes the side to move and nothing else on the board; key, hand of the side to move and
checks are those of the new position, whatever was played before. -/
theorem C73_turn (Z : Zobrist) {p : Position} (h : Inv Z p) (t : Color) :
    Inv Z (setTurn Z p t) ∧ absPos (setTurn Z p t) = { absPos p with turn := t } ∧ (setTurn Z p t).gamePly = p.gamePly ∧
    (¬ Pos.InCheck { absPos p with turn := t } t.opp →
      CheckOK (setTurn Z p t) ∧ ((setTurn Z p t).inCheck = true ↔ Pos.InCheck { absPos p with turn := t } t)) := by
  have hv : Consistent (setTurn Z p t) :=
    ⟨h.views.code, h.views.type, h.views.color, h.views.occ, h.views.golds, h.views.king, h.views.wfType, h.views.wfColor,
      h.views.wfOcc, h.views.wfGolds, h.views.hand⟩
  refine ⟨⟨hv, ⟨rfl, rfl, rfl⟩, h.inSet⟩, rfl, rfl, fun hn => ?_⟩
  have hc : CheckOK (setTurn Z p t) := checkOK_find hv hn rfl
  exact ⟨hc, hc.inCheck⟩

/-- **C73**: on a board just set up by `set_sfen` it gives, in every part, the board that `set_sfen` makes of the SFEN with the
other side to move. -/
theorem C73_turn_sfen (Z : Zobrist) {p : Position} (h : Inv Z p) {text : List Char} (he : setSfen Z text = .ok p) (t : Color)
    (hl : -2147483648 ≤ p.gamePly) (hu : p.gamePly ≤ 2147483647) :
    setSfen Z (toSfen { p with turn := t } p.gamePly) = .ok (setTurn Z p t) := by
  have hf := fresh_setSfen he
  rw [setTurn_finish Z h.views]
  obtain ⟨x, e1, x1, x2, x3, x4, x5, x6, x7⟩ := sfen_spec Z (p := { p with turn := t }) h.views.code
    (fun c h' => InSet.hand_le h.inSet c h') p.gamePly hl hu
  have fx := fresh_setSfen e1
  rw [e1]
  congr 1
  refine finish_eq Z (b := (absPos p).board) x1 (h.views.raw.congr rfl rfl rfl) ⟨fx.over, x4, x6, x7⟩ (hf.congr rfl rfl rfl) ?_ x2 x3
  funext c
  exact Hand.ext_numOf _ _ (x5 c).1 (h.views.hand c) (x5 c).2

/-- The start position meets the hypotheses of `C73_again`, `C73_turn` and `C73_turn_sfen`. -/
example : Inv zeroKeys (startModel zeroKeys) ∧ (startModel zeroKeys).gamePly = 0 ∧
    ¬ Pos.InCheck { absPos (startModel zeroKeys) with turn := .white } .black ∧
    setSfen zeroKeys (toSfen (startModel zeroKeys) 0) = .ok (startModel zeroKeys) := by
  obtain ⟨h1, -, h3⟩ := startModel_ok zeroKeys
  refine ⟨h1, by decide +kernel, ?_, ?_⟩
  · have := (C73_turn zeroKeys h1 .white).1.views
    show ¬ Pos.InCheck (absPos (setTurn zeroKeys (startModel zeroKeys) .white)) .black
    rw [← inCheckB_iff this]; decide +kernel
  · have hx := C73_set zeroKeys ⟨Position.clear, []⟩ startPos (fun _ _ => Nat.zero_le _) (by decide) (by decide)
    have e : (Board.setPieces zeroKeys ⟨Position.clear, []⟩ (fun s => pieceNumber (startPos.board s)) (handLists startPos)).pos = startModel zeroKeys := by
      show setPieces zeroKeys Position.clear _ _ = setPieces zeroKeys Position.clear _ _
      congr 1
      · funext s; exact (pieceCode_number _).symm
      · funext c (i : Nat)
        unfold handLists
        by_cases h : i < 7
        · interval_cases i <;> rfl
        · rw [List.getD_eq_default _ _ (by simp [handKinds]; omega)]
    dsimp only at hx
    rw [e] at hx
    have := hx.2.2.2.2.2
    rwa [show (startModel zeroKeys).gamePly = 0 from by decide +kernel] at this

/-- The start position with an empty history. -/
def turnStart : Board := ⟨startModel zeroKeys, []⟩

/-- 7g7f. -/
def turnMove : Move := makeMove PT.Pawn 60 59

/-- **C73** fails for the history: after 7g7f from the start position, giving Black the turn again by `turn = BLACK` and taking
the move back does not lead to the start position: the pawn on 7g belongs to White then. -/
theorem C73_fails_pop : LegalOp turnStart (.push turnMove) ∧ (absPos turnStart.pos).board 60 = some (.black, .pawn) ∧
    ∃ b b', turnStart.push zeroKeys turnMove = some b ∧ (b.setTurn zeroKeys .black).pop = some b' ∧ b'.hist = [] ∧
      (absPos b'.pos).board 60 = some (.white, .pawn) := by
  obtain ⟨h1, h2, h3⟩ := startModel_ok zeroKeys
  have hch := LChain.base (p0 := startModel zeroKeys) (startModel zeroKeys).st.continuousCheck h1 h2 h3.waiting
  rw [withCC_self] at hch
  have hb : playB zeroKeys turnStart [.push turnMove] = true := by decide +kernel
  have ha : Always LegalOp zeroKeys turnStart [.push turnMove] := (playB_legal h3 hch _ hb).mono fun _ _ h => h.1
  refine ⟨ha.1, by decide +kernel, ?_⟩
  have hx : ((turnStart.push zeroKeys turnMove).bind fun b => (b.setTurn zeroKeys .black).pop.bind fun b' =>
      some (b'.hist.length, b'.pos.piece 60)) = some (0, 17) := by decide +kernel
  rcases e1 : turnStart.push zeroKeys turnMove with _ | b
  · rw [e1] at hx; cases hx
  rcases e2 : (b.setTurn zeroKeys .black).pop with _ | b'
  · rw [e1] at hx; simp only [Option.bind_some, e2] at hx; cases hx
  rw [e1] at hx
  simp only [Option.bind_some, e2, Option.some.injEq, Prod.mk.injEq] at hx
  refine ⟨b, b', rfl, e2, List.length_eq_zero_iff.mp hx.1, ?_⟩
  show decodePiece (b'.pos.piece 60) = _
  rw [hx.2]; rfl

end Verif
