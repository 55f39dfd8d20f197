import Verif.Lemmas.IsLegalAny
import Verif.Props.Legal
import Verif.Props.MoveText
import Verif.Props.IsOk
import Verif.Props.Mate

/-!
# C27 and C07 for all integers and texts: what exactly is accepted
-/

namespace Verif
open Spec Bitboard Position

/-- **C27**, every integer with the form of a move on the board: `is_legal` answers, and it answers true exactly if the integer names
the type of a piece of the mover on its origin and the rules allow that piece to go to the destination with or without promotion. The
promotion flag, the captured piece and the upper bits are not looked at. -/
theorem C27_any_move (p : Position) (hp : Consistent p) (hc : CheckOK p) (hr : (absPos p).Regular) (m : Move) (f t : Square)
    (hm : m.isDrop = false) (hs : m.src = f.val) (hd : m.dst = t.val) :
    ∃ b, p.isLegal m = some b ∧ (b = true ↔ (∃ k, (absPos p).board f = some (p.turn, k) ∧ m.pieceTypeFrom = k.code) ∧
      ∃ promote, (absPos p).Legal (.move f t promote)) :=
  isLegal_any_move hp hc hr hm hs hd

/-- P7g-7f with a captured dragon and all upper bits set meets the hypotheses and is accepted in the start position. -/
example : Move.isDrop 0xffe11e3b#32 = false ∧ Move.src 0xffe11e3b#32 = 60 ∧ Move.dst 0xffe11e3b#32 = 59 ∧
    (startModel zeroKeys).isLegal 0xffe11e3b#32 = some true := by decide +kernel

/-- **C27**, every integer with the form of a drop of a piece other than a pawn, promoted pieces included: it is accepted exactly if a
piece of the kind is in hand, the square is empty and the king is not left in check. -/
theorem C27_any_drop (p : Position) (hp : Consistent p) (hc : CheckOK p) (hr : (absPos p).Regular) (m : Move) (h : HKind) (k : Kind) (t : Square)
    (hm : m.isDrop = true) (hd : m.dst = t.val) (hk : m.pieceTypeDropped = k.code) (hb : k.hand = some h) (hn : k ≠ .pawn) :
    ∃ b, p.isLegal m = some b ∧ (b = true ↔ 1 ≤ (absPos p).hand p.turn h ∧ (absPos p).board t = none ∧
      ¬ ((absPos p).play (.drop h t)).InCheck p.turn) := by
  obtain ⟨k', hk'⟩ := kings_of hp hr p.turn.opp
  obtain ⟨b, e1, e2⟩ := isLegal_any_drop hp hc hr hm hd (hp := h) (by rw [hk]; cases k <;> decide)
    (by rw [hk, ptToHand_kind, hb]) hk'
  refine ⟨b, e1, e2.trans ⟨fun e => ⟨e.1, e.2.1, e.2.2.1⟩, fun e => ⟨e.1, e.2.1, e.2.2, fun e' => ?_⟩⟩⟩
  rw [hk] at e'
  exact absurd e' (by cases k <;> first | exact absurd rfl hn | decide)

/-- A promoted pawn, for White with a pawn in hand. -/
example : (makeDropMove 9 4).isDrop = true ∧ (makeDropMove 9 4).dst = 4 ∧ (makeDropMove 9 4).pieceTypeDropped = Kind.proPawn.code ∧
    Kind.proPawn.hand = some .pawn := by decide

/-- **C27**, in terms of the rules: whatever `is_legal` accepts obeys all rules but those about promotion and unmovable pieces, and of the
moves that do only drops of pawns on the last rank may be refused. -/
theorem C27_loose (p : Position) (hp : Consistent p) (hc : CheckOK p) (hr : (absPos p).Regular) (mv : Mv) :
    ∃ b, p.isLegal (encode p mv) = some b ∧ (b = true → (absPos p).Loose mv) ∧
      ((absPos p).Loose mv → (∀ t, mv = .drop .pawn t → ¬ Dead p.turn .pawn t) → b = true) := by
  cases mv with
  | move f t pro =>
    have hf := C01_board_move_fields p.piece f t pro
    simp only [readBoardMove, Prod.mk.injEq] at hf
    obtain ⟨f1, f2, f3, -, -, f6⟩ := hf
    obtain ⟨b, e1, e2⟩ := C27_any_move p hp hc hr (encode p (.move f t pro)) f t f6 f1 f2
    refine ⟨b, e1, fun e => (e2.mp e).2, fun e _ => e2.mpr ⟨?_, e⟩⟩
    obtain ⟨pro', ⟨⟨k, hk, -⟩, -⟩, -⟩ := e
    exact ⟨k, hk, by rw [show (encode p (.move f t pro)).pieceTypeFrom = _ from f3]; exact pieceType_at hp hk⟩
  | drop h t =>
    obtain ⟨-, h1, hd, h2, -⟩ := drop_fields h t
    obtain ⟨k', hk'⟩ := kings_of hp hr p.turn.opp
    have h2 : (encode p (.drop h t)).pieceTypeDropped = h.kind.code := h2
    obtain ⟨b, e1, e2⟩ := isLegal_any_drop hp hc hr (m := encode p (.drop h t)) hd h1 (hp := h)
      (by rw [h2]; cases h <;> decide) (by rw [h2, ptToHand_handKind]) hk'
    have hpw : (encode p (.drop h t)).pieceTypeDropped = PT.Pawn ↔ h = .pawn := by rw [h2]; cases h <;> decide
    refine ⟨b, e1, fun e => ?_, fun e hdead => ?_⟩
    · obtain ⟨i1, i2, i3, i4⟩ := e2.mp e
      refine ⟨i1, i2, fun e' => (i4 (hpw.mpr e')).1, i3, ?_⟩
      refine (pawnDrop_iff hp hk' hr.waiting h i2).mp fun e' ha => (i4 (hpw.mpr e')).2 ?_
      refine (pawn_front k' t fun hdd => ?_).mpr ha
      rw [pawn_attack_iff] at ha
      have : farRank p.turn t = 0 := hdd
      have : 0 ≤ farRank p.turn k' := by unfold farRank Y; have := k'.isLt; cases p.turn <;> simp only <;> omega
      omega
    · obtain ⟨i1, i2, i3, i4, i5⟩ := e
      refine e2.mpr ⟨i1, i2, i4, fun e' => ?_⟩
      obtain rfl := hpw.mp e'
      refine ⟨i3 rfl, fun hfr => ?_⟩
      exact (pawnDrop_iff hp hk' hr.waiting .pawn i2).mpr i5 rfl ((pawn_front k' t (hdead t rfl)).mp hfr)

/-- Making a move that names no captured piece leaves the square and the hands of the opponent as they are. -/
theorem doBoard_uncaptured (Z : Zobrist) (p : Position) (m : Move) (chk : Bool) (hc : m.cap = 0) :
    (doBoard Z p m chk).byColor p.turn.opp = p.byColor p.turn.opp ∧
    (doBoard Z p m chk).byColor p.turn = (p.byColor p.turn).xorBit2 (sqN m.src) (sqN m.dst) ∧ (doBoard Z p m chk).hand = p.hand := by
  have hne : p.turn.opp ≠ p.turn := opp_ne p.turn
  unfold doBoard
  simp only [hc, ne_eq, not_true_eq_false, if_false]
  exact ⟨by simp [upd, hne], by simp [upd], trivial⟩

theorem isAny_of_isSet {b : Bitboard} {s : Square} (h : b.isSet s = true) : b.isAny = true := by
  by_contra hc
  obtain ⟨h0, h1⟩ := (not_isAny b).mp (by simpa using hc)
  have : b = zero := by cases b; simp only at h0 h1; subst h0 h1; rfl
  rw [this] at h
  simp at h

/-- **C27 fails** for every capture in every position: the integer that leaves out the captured piece is accepted, it is not in
`legal_moves`, and after it has been pushed `is_ok` answers false and the captured piece is in neither player's hand. -/
theorem C27_fails_capture (Z : Zobrist) (b : Board) (hp : Inv Z b.pos) (hc : CheckOK b.pos) (hr : (absPos b.pos).Regular) (f t : Square) (pro : Bool)
    (hl : (absPos b.pos).Legal (.move f t pro)) (ht : (absPos b.pos).board t ≠ none) :
    ∃ m l b', genLegal b.pos true = some l ∧ b.pos.isLegal m = some true ∧ m ∉ l ∧
      (m.src, m.dst, m.isPromotion) = (f.val, t.val, pro) ∧ b.push Z m = some b' ∧ b'.pos.isOK Z = false ∧
      (absPos b'.pos).hand = (absPos b.pos).hand := by
  obtain ⟨p, hist⟩ := b
  simp only at hp hc hr hl ht ⊢
  have hv := hp.views
  obtain ⟨m, hm⟩ : ∃ m, m = boardMove (upd p.piece t 0) f t pro := ⟨_, rfl⟩
  have hl0 := hl
  obtain ⟨⟨⟨k, hf, ha, hown, hpro, -⟩, -⟩, -⟩ := hl0
  have hft : f ≠ t := attacks_ne ha
  have hF := C01_board_move_fields (upd p.piece t 0) f t pro
  rw [← hm] at hF
  simp only [readBoardMove, Prod.mk.injEq] at hF
  obtain ⟨f1, f2, f3, f4, f5, f6⟩ := hF
  rw [show upd p.piece t 0 f = p.piece f by simp [upd, hft]] at f3
  rw [show upd p.piece t 0 t = 0 by simp [upd]] at f4
  have hkind : pieceType (p.piece f) = k.code := pieceType_at hv hf
  rw [hkind] at f3
  have f4 : m.cap = 0 := f4
  obtain ⟨x, e1, e2⟩ := C27_any_move p hv hc hr m f t f6 f1 f2
  obtain rfl : x = true := e2.mpr ⟨⟨k, hf, f3⟩, pro, hl⟩
  obtain ⟨l, el, -, hlist⟩ := genLegal_spec hv hc hr
  have hnot : m ∉ l := by
    intro hml
    obtain ⟨mv, e, hl'⟩ := (hlist m).mp hml
    cases mv with
    | move f' t' pro' =>
      have hG := C01_board_move_fields p.piece f' t' pro'
      rw [show boardMove p.piece f' t' pro' = m from e.symm] at hG
      simp only [readBoardMove, Prod.mk.injEq] at hG
      have : t' = t := Fin.ext (by rw [← hG.2.1, f2])
      subst this
      have hz := hG.2.2.2.1
      rw [f4] at hz
      rw [hv.code] at hz
      rcases hb : (absPos p).board t' with _ | ⟨c, kd⟩
      · exact ht hb
      · rw [hb] at hz
        revert hz
        cases c <;> cases kd <;> decide
    | drop h' t' =>
      have := (drop_fields h' t').2.2.1
      rw [show makeDropMove h'.kind.code t'.val = m from e.symm, f6] at this
      cases this
  have hdef : doMoveDefined m = true := by
    have h14 : m.pieceTypeToOf k.code ≤ 14 := by
      rw [Move.pieceTypeToOf_eq, show m.isPromotion = pro from f5]
      cases pro
      · simp; cases k <;> decide
      · have := (hpro rfl).1
        revert this
        cases k <;> decide
    have h1 : 1 ≤ k.code := by cases k <;> decide
    unfold doMoveDefined
    rw [show m.dst = t.val from f2, show m.isDrop = false from f6, show m.pieceTypeFrom = k.code from f3, f4]
    simp [t.isLt, h1, h14]
  have hpush : Board.push Z ⟨p, hist⟩ m = some ⟨doBoard Z p m (p.moveGivesCheck m), .move m :: hist⟩ := by
    unfold Board.push doMove
    rw [hdef, show m.isDrop = false from f6]; rfl
  obtain ⟨g1, g2, g3⟩ := doBoard_uncaptured Z p m (p.moveGivesCheck m) f4
  refine ⟨m, l, _, el, e1, hnot, by rw [f1, f2, f5], hpush, ?_, ?_⟩
  · have hsq : sqN m.src = f ∧ sqN m.dst = t := ⟨by rw [f1, sqN_val], by rw [f2, sqN_val]⟩
    obtain ⟨c, kd, hb⟩ : ∃ c kd, (absPos p).board t = some (c, kd) := by
      rcases hb : (absPos p).board t with _ | ⟨c, kd⟩
      · exact absurd hb ht
      · exact ⟨c, kd, rfl⟩
    obtain rfl : c = p.turn.opp := by
      rcases eq_or_opp p.turn c with rfl | rfl
      · exact absurd hb (hown kd)
      · rfl
    have h1 : ((doBoard Z p m (p.moveGivesCheck m)).byColor p.turn.opp).isSet t = true := by
      rw [g1]; exact (hv.color _ _).mpr ⟨kd, hb⟩
    have h2 : ((doBoard Z p m (p.moveGivesCheck m)).byColor p.turn).isSet t = true := by
      rw [g2, isSet_xorBit2, hsq.1, hsq.2]
      have : (p.byColor p.turn).isSet t = false := by
        rw [Bool.eq_false_iff]
        intro h
        obtain ⟨k2, h⟩ := (hv.color _ _).mp h
        exact hown k2 h
      simp [this]
    have h3 : ((doBoard Z p m (p.moveGivesCheck m)).byColor .black &&& (doBoard Z p m (p.moveGivesCheck m)).byColor .white).isAny = true := by
      refine isAny_of_isSet (s := t) ?_
      rw [isSet_and]
      cases hturn : p.turn <;> rw [hturn] at h1 h2
      · rw [h2, show Color.white = Color.black.opp from rfl, h1]; rfl
      · rw [h2, show Color.black = Color.white.opp from rfl, h1]; rfl
    rw [Bool.eq_false_iff]
    intro hok
    have := ((isOK_iff Z _).mp hok).1.1
    unfold okBitboards at this
    rw [h3] at this
    simp at this
  · show (absPos (doBoard Z p m (p.moveGivesCheck m))).hand = (absPos p).hand
    unfold absPos
    simp only [g3]

/-- **C27 fails** whenever a player who is not in check has a pawn in hand: `is_legal` accepts the drop of a promoted pawn on every empty
square, on files with a pawn as well, and `push` puts the promoted pawn there. -/
theorem C27_fails_promoted_drop (Z : Zobrist) (b : Board) (hp : Consistent b.pos) (hc : CheckOK b.pos) (hr : (absPos b.pos).Regular)
    (hin : ¬ (absPos b.pos).InCheck b.pos.turn) (hpawn : 1 ≤ (absPos b.pos).hand b.pos.turn .pawn) (t : Square)
    (ht : (absPos b.pos).board t = none) :
    ∃ l b', genLegal b.pos true = some l ∧ b.pos.isLegal (makeDropMove 9 t.val) = some true ∧ makeDropMove 9 t.val ∉ l ∧
      b.push Z (makeDropMove 9 t.val) = some b' ∧ (absPos b'.pos).board t = some (b.pos.turn, .proPawn) := by
  obtain ⟨p, hist⟩ := b
  simp only at hp hc hr hin hpawn ht ⊢
  obtain ⟨m, hm⟩ : ∃ m, m = makeDropMove 9 t.val := ⟨_, rfl⟩
  have hF : m.src = 89 ∧ m.dst = t.val := by
    have hn := makeDropMove_toNat 9 t.val (by decide) (by omega)
    rw [← hm] at hn
    have := t.isLt
    rw [Move.src_eq, Move.dst_eq, hn]
    omega
  have hd : m.isDrop = true := by unfold Move.isDrop; rw [hF.1]; rfl
  have hpt : m.pieceTypeDropped = 9 := by unfold Move.pieceTypeDropped; rw [hF.1]
  rw [← hm]
  obtain ⟨x, e1, e2⟩ := C27_any_drop p hp hc hr m .pawn .proPawn t hd hF.2 hpt rfl (by decide)
  obtain rfl : x = true := by
    refine e2.mpr ⟨hpawn, ht, fun h => hin ?_⟩
    obtain ⟨k, hk⟩ := kings_of hp hr p.turn
    obtain ⟨s, hs, -⟩ := (drop_inCheck (q := absPos p) (hp.kingAt hk) ht).mp h
    exact (hp.kingAt hk).inCheck.mpr ⟨s, hs⟩
  obtain ⟨l, el, -, hlist⟩ := genLegal_spec hp hc hr
  refine ⟨l, ⟨doDrop Z p m (p.moveGivesCheck m), .move m :: hist⟩, el, e1, fun hml => ?_, ?_, ?_⟩
  · obtain ⟨mv, e, -⟩ := (hlist m).mp hml
    cases mv with
    | move f' t' pro' =>
      have hG := C01_board_move_fields p.piece f' t' pro'
      rw [show boardMove p.piece f' t' pro' = m from e.symm] at hG
      simp only [readBoardMove, Prod.mk.injEq] at hG
      rw [hd] at hG
      exact absurd hG.2.2.2.2.2 (by decide)
    | drop h' t' =>
      have := (drop_fields h' t').2.2.2.1
      rw [show makeDropMove h'.kind.code t'.val = m from e.symm, hpt] at this
      revert this
      cases h' <;> decide
  · unfold Board.push doMove
    have hdef : doMoveDefined m = true := by
      unfold doMoveDefined
      rw [hF.2, hd, hpt]
      simp [t.isLt, ptToHand]
    rw [hdef, hd]; rfl
  · show decodePiece ((doDrop Z p m (p.moveGivesCheck m)).piece t) = _
    have : (doDrop Z p m (p.moveGivesCheck m)).piece t = mkPiece p.turn 9 := by
      unfold doDrop
      simp only [hF.2, sqN_val, hpt, upd, if_true]
    rw [this]
    cases p.turn <;> rfl

/-- Kings on 5i and 5a, Black's rook on 2h, White's pawn on 2c; Black holds a pawn. -/
def takeBoard (s : Square) : Option (Color × Kind) :=
  match s.val with
  | 44 => some (.black, .king) | 16 => some (.black, .rook) | 11 => some (.white, .pawn) | 36 => some (.white, .king) | _ => none

def takeHand (c : Color) (h : Nat) : Nat := match c, h with | .black, 0 => 1 | _, _ => 0

def takeModel : Position := setPieces zeroKeys clear (fun s => pieceCode (takeBoard s)) takeHand

theorem takeModel_ok : Inv zeroKeys takeModel ∧ absPos takeModel = ⟨takeBoard, fun c h => takeHand c h.code, .black⟩ ∧ CheckOK takeModel ∧
    (absPos takeModel).Regular :=
  setup_regular takeBoard takeHand 44 36 (by decide +kernel) (by decide +kernel) (fun c h => by cases c <;> cases h <;> decide)
    (by decide +kernel) (fun h => by cases h <;> decide +kernel) (by decide +kernel)

theorem takeModel_legal (mv : Mv) (h : (match genLegal takeModel true with | none => false | some l => l.contains (encode takeModel mv)) = true) :
    (absPos takeModel).Legal mv := by
  obtain ⟨hi, -, hc, hr⟩ := takeModel_ok
  obtain ⟨l, e, -, hm⟩ := genLegal_spec hi.views hc hr
  rw [e] at h
  obtain ⟨mv, e1, e2⟩ := (hm _).mp (by simpa using h)
  rw [encode_inj _ e1]; exact e2

/-- The rook takes the pawn on 2c: the hypotheses of `C27_fails_capture` hold, and those of `C27_fails_promoted_drop` for 3e. -/
example : Inv zeroKeys takeModel ∧ CheckOK takeModel ∧ (absPos takeModel).Regular ∧ (absPos takeModel).Legal (.move 16 11 true) ∧
    (absPos takeModel).board 11 ≠ none ∧ ¬ (absPos takeModel).InCheck takeModel.turn ∧ 1 ≤ (absPos takeModel).hand takeModel.turn .pawn ∧
    (absPos takeModel).board 22 = none := by
  obtain ⟨hi, ha, hc, hr⟩ := takeModel_ok
  refine ⟨hi, hc, hr, takeModel_legal _ (by decide +kernel), ?_, by rw [← inCheckB_iff hi.views]; decide +kernel, ?_, ?_⟩ <;>
    rw [ha] <;> decide

/-- Rook to 2e with promotion: far from the promotion zone, so not legal, but it obeys the loose rules and `C07_usi_exact` says that its text is read. -/
example : (absPos takeModel).Loose (.move 16 13 true) ∧ ¬ (absPos takeModel).Legal (.move 16 13 true) := by
  refine ⟨⟨false, takeModel_legal _ (by decide +kernel)⟩, fun h => ?_⟩
  obtain ⟨⟨⟨k, -, -, -, hp, -⟩, -⟩, -⟩ := h
  exact absurd (hp rfl).2 (by decide)

/-! ### C07 -/

theorem checked_cases {p : Position} {x m : Move} (h : p.checked x = some m) : m = 0#32 ∨ p.isLegal m = some true := by
  unfold checked at h
  rcases e : p.isLegal x with _ | b
  · rw [e] at h; cases h
  · rw [e] at h
    cases b
    · cases h; exact .inl rfl
    · cases h; exact .inr e

/-- **C07**, every text whatever: what `move_from_usi` returns is 0 or accepted by `is_legal`. -/
theorem C07_usi_tested (p : Position) (s : List Char) (m : Move) (h : p.usiToMove s = some m) : m = 0#32 ∨ p.isLegal m = some true := by
  have hz : ∀ {m : Move}, some 0#32 = some m → m = 0#32 ∨ p.isLegal m = some true := fun e => .inl (Option.some.inj e).symm
  unfold usiToMove at h
  obtain ⟨c0, -, h⟩ := Option.bind_eq_some_iff.mp h
  rcases hc : charToPiece c0 with _ | pc <;> rw [hc] at h <;> simp only at h
  · unfold usiBoard at h
    obtain ⟨f, -, h⟩ := Option.bind_eq_some_iff.mp h
    cases f with
    | none => exact hz h
    | some f =>
      obtain ⟨t, -, h⟩ := Option.bind_eq_some_iff.mp h
      cases t with
      | none => exact hz h
      | some t =>
        obtain ⟨c4, -, h⟩ := Option.bind_eq_some_iff.mp h
        split at h
        · exact checked_cases h
        · split at h
          · obtain ⟨c5, -, h⟩ := Option.bind_eq_some_iff.mp h
            split at h
            · exact hz h
            · exact checked_cases h
          · exact hz h
  · unfold usiDrop at h
    obtain ⟨c1, -, h⟩ := Option.bind_eq_some_iff.mp h
    split at h
    · exact hz h
    · obtain ⟨t, -, h⟩ := Option.bind_eq_some_iff.mp h
      cases t with
      | none => exact hz h
      | some t => exact checked_cases h

/-- **C07**, the same for `move_from_csa`. -/
theorem C07_csa_tested (p : Position) (s : List Char) (m : Move) (h : p.csaToMove s = some m) : m = 0#32 ∨ p.isLegal m = some true := by
  have hz : ∀ {m : Move}, some 0#32 = some m → m = 0#32 ∨ p.isLegal m = some true := fun e => .inl (Option.some.inj e).symm
  unfold csaToMove at h
  split at h
  · split at h
    · exact hz h
    · split at h
      · exact hz h
      · unfold csaBoard at h
        split at h
        · exact checked_cases h
        · split at h
          · exact hz h
          · split at h
            · exact checked_cases h
            · split at h
              · exact checked_cases h
              · exact hz h
  · exact hz h

/-- **C07**: the moves that `move_from_usi` returns obey all rules but those about promotion and unmovable pieces; and every move that does,
other than a pawn drop on the last rank, is returned for its text. -/
theorem C07_usi_exact (p : Position) (hp : Consistent p) (hc : CheckOK p) (hr : (absPos p).Regular) :
    (∀ s : List Char, s.length ≠ 0 → s.length ≠ 2 → (∀ t, s ≠ 'K' :: '*' :: t) → (∀ t, s ≠ 'k' :: '*' :: t) →
      p.usiToMove s = some 0#32 ∨ ∃ mv, p.usiToMove s = some (encode p mv) ∧ (absPos p).Loose mv) ∧
    ∀ mv, (absPos p).Loose mv → (∀ t, mv = .drop .pawn t → ¬ Dead p.turn .pawn t) → p.usiToMove (usiText mv) = some (encode p mv) := by
  refine ⟨fun s h0 h2 hK hk => ?_, fun mv hl hd => ?_⟩
  · obtain ⟨m, l, e, el, h⟩ := C07_usi_partial p hp hc hr s h0 h2 hK hk
    rcases h with rfl | ⟨mv, rfl, -⟩
    · exact .inl e
    · rcases C07_usi_tested p s _ e with h | h
      · rw [h] at e; exact .inl e
      · obtain ⟨b, i1, i2, -⟩ := C27_loose p hp hc hr mv
        rw [h] at i1; cases i1
        exact .inr ⟨mv, e, i2 rfl⟩
  · obtain ⟨b, i1, -, i2⟩ := C27_loose p hp hc hr mv
    rw [i2 hl hd] at i1
    exact usi_text i1

end Verif
