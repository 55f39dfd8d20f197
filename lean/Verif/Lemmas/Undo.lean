import Verif.Lemmas.Play

namespace Verif
open Spec Bitboard Position

/-! ### Keys -/

/-- The stored keys and the stored hand are the ones computed from scratch. -/
structure KeysOK (Z : Zobrist) (p : Position) : Prop where
  board : p.st.boardKey = p.computeBoardKey Z
  hand : p.st.handKey = p.computeHandKey Z
  stHand : p.st.hand = p.hand p.turn

theorem placeKey_move (Z : Zobrist) (b : Square → Option (Color × Kind)) {s t : Square} (hst : s ≠ t) (v : Option (Color × Kind)) :
    placeKey Z (Pos.set (Pos.set b s none) t v) = placeKey Z b - pieceKey Z s (b s) + pieceKey Z t v - pieceKey Z t (b t) := by
  rw [placeKey_set, placeKey_set]
  have : Pos.set b s none t = b t := by
    unfold Pos.set; rw [if_neg (fun e => hst e.symm)]
  rw [this]
  simp only [pieceKey]
  abel

theorem handKey_add (Z : Zobrist) (n n' : Color → Nat → Nat) (c : Color) (i : Nat) (hi : i < 7)
    (hsame : ∀ c' j, j < 7 → ¬ (c' = c ∧ j = i) → n' c' j = n c' j) (h1 : n' c i = n c i + 1) :
    handKeyOf Z n' = handKeyOf Z n + Z.hand i c := by
  have h := handKeyOf_upd Z n n' c i hi hsame
  rw [h1, succ_nsmul] at h
  have h2 : handKeyOf Z n' = handKeyOf Z n - n c i • Z.hand i c + (n c i • Z.hand i c + Z.hand i c) := by
    rw [← h]; abel
  rw [h2]; abel

theorem withTurn_flip_move (Z : Zobrist) (us : Color) (P : BitVec 64) (s t : Square) (a b c : Option (Color × Kind)) :
    (withTurn us P ^^^ zobTurn) - pieceKey Z s a + pieceKey Z t b - pieceKey Z t c =
      withTurn us.opp (P - pieceKey Z s a + pieceKey Z t b - pieceKey Z t c) := by
  rw [← withTurn_opp, withTurn_sub _ _ _ (pieceKey_even Z s a), withTurn_add _ _ _ (pieceKey_even Z t b),
    withTurn_sub _ _ _ (pieceKey_even Z t c)]

theorem doDrop_keys (Z : Zobrist) {p : Position} (h : Consistent p) (hkey : KeysOK Z p) {hk : HKind} {t : Square}
    (h1 : 1 ≤ (absPos p).hand p.turn hk) (ht : (absPos p).board t = none) (chk : Bool) :
    KeysOK Z (doDrop Z p (makeDropMove hk.kind.code t.val) chk) := by
  obtain ⟨hd, -, -, hpt, -⟩ := drop_fields hk t
  have hc := doDrop_consistent Z h h1 ht chk
  have hr := raw_doDrop Z h.raw hk t ht chk
  constructor
  · rw [boardKey_place Z hc.code, hr.abs, placeKey_set]
    show (p.st.boardKey ^^^ zobTurn) + Z.board (Move.pieceTypeDropped _) (sqN _) p.turn = withTurn p.turn.opp _
    rw [hpt, hd, hkey.board, boardKey_place Z h.code, ht, ← withTurn_opp, withTurn_add _ _ _ (Z.board_even _ _ _)]
    simp only [pieceKey, sub_zero]
  · rw [computeHandKey_eq]
    show p.st.handKey - Z.hand (ptToHand (Move.pieceTypeDropped _)) p.turn = _
    rw [hpt, ptToHand_handKind, hkey.hand, computeHandKey_eq]
    have hcnt := (hand_drop h p.turn hk h1).2
    have e := handKey_add Z (fun c i => ((doDrop Z p (makeDropMove hk.kind.code t.val) chk).hand c).numOf i)
      (fun c i => (p.hand c).numOf i) p.turn hk.code (hcode_lt hk) ?_ ?_
    · rw [e]; abel
    · intro c' j hj hne
      obtain ⟨hk', rfl⟩ := hcode_surj j hj
      simp only [doDrop, hpt, ptToHand_handKind, upd]
      by_cases hc' : c' = p.turn
      · subst hc'
        have : hk' ≠ hk := fun e => hne ⟨rfl, by rw [e]⟩
        rw [if_pos rfl, hcnt, if_neg this]
      · rw [if_neg hc']
    · simp only [doDrop, hpt, ptToHand_handKind, upd_same, hcnt, if_true]
      have : 1 ≤ (p.hand p.turn).numOf hk.code := h1
      omega
  · rfl

theorem doBoard_keys (Z : Zobrist) {p : Position} (h : Consistent p) (hkey : KeysOK Z p) (hq : (absPos p).InSet) {s t : Square}
    {pro : Bool} {k : Kind} (hs : (absPos p).board s = some (p.turn, k)) (hpro : pro = true → k.promoted.isSome = true) (hst : s ≠ t)
    (ht : ∀ k', (absPos p).board t ≠ some (p.turn, k')) (htk : (absPos p).board t ≠ some (p.turn.opp, .king)) (chk : Bool) :
    KeysOK Z (doBoard Z p (boardMove p.piece s t pro) chk) := by
  have hpt : pieceType (p.piece s) = k.code := by rw [h.code, hs, pieceType_pieceCode]; rfl
  obtain ⟨hd, hsrc, hdv, hsv, hnd, hptf, hptt, hcap, -⟩ := board_fields p s t pro k hpt hpro
  rw [h.code t, pieceType_pieceCode] at hcap
  have hc := doBoard_consistent Z h hq hs hpro hst ht htk chk
  have hr := raw_doBoard Z h.raw s t pro k hs hpro hst ht chk
  have hthem : ∀ c' k', (absPos p).board t = some (c', k') → c' = p.turn.opp ∧ k' ≠ .king := by
    intro c' k' hb
    rcases eq_or_opp p.turn c' with e | e
    · subst e; exact absurd hb (ht _)
    · subst e; exact ⟨rfl, by rintro rfl; exact htk hb⟩
  constructor
  · rw [boardKey_place Z hc.code, hr.abs, placeKey_move Z _ hst]
    rw [show (doBoard Z p (boardMove p.piece s t pro) chk).turn = p.turn.opp from rfl, ← withTurn_flip_move,
      ← boardKey_place Z h.code, ← hkey.board, hs]
    simp only [doBoard, hd, hsrc, hptf, hptt, hcap]
    rcases hb : (absPos p).board t with _ | ⟨c', k'⟩
    · simp [typeCode, pieceKey]
    · obtain ⟨rfl, -⟩ := hthem _ _ hb
      simp [typeCode, pieceKey, code_ne_zero]
  · rw [computeHandKey_eq]
    rcases hb : (absPos p).board t with _ | ⟨c', k'⟩
    · rw [hand_doBoard_none Z h chk hb]
      simp only [doBoard, hcap, hb, typeCode]
      rw [if_neg (by simp), hkey.hand, computeHandKey_eq]
    · obtain ⟨rfl, hkk⟩ := hthem _ _ hb
      obtain ⟨hk, hhk, e⟩ := cap_hand hkk
      have hcnt := (hand_capture h hq p.turn hk (InSet.hand_lt hq p.turn hb hhk)).2
      rw [hand_doBoard_some Z h chk hb hhk]
      simp only [doBoard, hcap, hb, typeCode]
      rw [if_pos (code_ne_zero k'), hkey.hand, computeHandKey_eq, e]
      symm
      apply handKey_add Z _ _ _ _ (hcode_lt hk)
      · intro c' j hj hne
        obtain ⟨hk', rfl⟩ := hcode_surj j hj
        unfold upd
        by_cases hc' : c' = p.turn
        · subst hc'
          have : hk' ≠ hk := fun e => hne ⟨rfl, by rw [e]⟩
          rw [if_pos rfl, hcnt, if_neg this]
        · rw [if_neg hc']
      · rw [upd_same, hcnt, if_pos rfl]
  · rfl

/-! ### Undo -/

theorem position_eq {p q : Position} (h1 : p.byType = q.byType) (h2 : p.byColor = q.byColor) (h3 : p.golds = q.golds)
    (h4 : p.piece = q.piece) (h5 : p.kingSquare = q.kingSquare) (h6 : p.hand = q.hand) (h7 : p.turn = q.turn) (h8 : p.st = q.st)
    (h9 : p.prev = q.prev) (h10 : p.gamePly = q.gamePly) : p = q := by
  cases p; cases q; simp_all

theorem Consistent.golds_eq {p : Position} (h : Consistent p) : p.golds = p.computeGolds :=
  h.wfGolds.ext (wf_computeGolds h.raw) (fun s => by rw [Bool.eq_iff_iff, h.golds, isSet_computeGolds h.raw])

theorem Consistent.occ_eq {p : Position} (h : Consistent p) : p.byColor .black ||| p.byColor .white = p.byType 0 :=
  ((h.wfColor _).or (h.wfColor _)).ext (h.wfType 0) (fun s => by
    rw [isSet_or, show (p.byType 0).isSet s = _ from h.occ s]
    unfold Pos.occ
    rcases hb : (absPos p).board s with _ | ⟨c, k⟩
    · simp [h.color_none hb]
    · rw [h.color_some hb, h.color_some hb]
      cases c <;> rfl)

theorem plus_minus (x : Hand) (i : Nat) : (x.plusOne i).minusOne i = x := by
  unfold Hand.plusOne Hand.minusOne; rw [add_sub_cancel_right]
theorem minus_plus (x : Hand) (i : Nat) : (x.minusOne i).plusOne i = x := by
  unfold Hand.plusOne Hand.minusOne; rw [sub_add_cancel]

theorem upd_upd {α β : Type} [DecidableEq α] (f : α → β) (a : α) (v w : β) : upd (upd f a v) a w = upd f a w := by
  funext x; unfold upd; split <;> rfl
theorem upd_self {α β : Type} [DecidableEq α] (f : α → β) (a : α) (v : β) (h : f a = v) : upd f a v = f := by
  funext x; unfold upd; split
  · next e => rw [e, h]
  · rfl

/-- Boards with the same colour sets and the same type sets above 0, the latter's union in entry 0. -/
theorem undo_tail {p : Position} {bt : Nat → Bitboard} {bc : Color → Bitboard} (h : Consistent p)
    (h1 : ∀ n, n ≠ 0 → bt n = p.byType n) (h2 : bc = p.byColor) :
    upd bt PT.Occupied (bc .black ||| bc .white) = p.byType := by
  funext n
  unfold upd
  split
  · next e => rw [e, h2, h.occ_eq]
  · next e => exact h1 n e

theorem computeGolds_congr {p q : Position} (h : p.byType = q.byType) : p.computeGolds = q.computeGolds := by
  simp only [computeGolds, bbOf5, bbOf4, bbOf3, bbOf2, h]

theorem undo_doDrop (Z : Zobrist) {p : Position} (h : Consistent p) {hk : HKind} {t : Square}
    (ht : (absPos p).board t = none) (chk : Bool) :
    undoMove (doDrop Z p (makeDropMove hk.kind.code t.val) chk) (makeDropMove hk.kind.code t.val) = some p := by
  obtain ⟨hd, -, hdr, hpt, hdef⟩ := drop_fields hk t
  have hr := raw_doDrop Z h.raw hk t ht chk
  have hcol : upd (doDrop Z p (makeDropMove hk.kind.code t.val) chk).byColor p.turn
      (((doDrop Z p (makeDropMove hk.kind.code t.val) chk).byColor p.turn).xorBit t) = p.byColor := by
    funext c
    refine WF.ext (wf_upd hr.wfColor (wf_xorBit (hr.wfColor _) t) c) (h.wfColor c) (fun u => ?_)
    rw [isSet_upd_xorBit]
    simp only [doDrop, hd, isSet_upd_xorBit]
    simp
  have hty : ∀ n, n ≠ 0 → upd (doDrop Z p (makeDropMove hk.kind.code t.val) chk).byType hk.kind.code
      (((doDrop Z p (makeDropMove hk.kind.code t.val) chk).byType hk.kind.code).xorBit t) n = p.byType n := by
    intro n hn
    refine WF.ext (wf_upd hr.wfType (wf_xorBit (hr.wfType _) t) n) (h.wfType n) (fun u => ?_)
    rw [isSet_upd_xorBit]
    simp only [doDrop, hd, hpt, isSet_upd_xorBit, PT.Occupied, hn, decide_false, Bool.false_and, Bool.xor_false]
    simp
  unfold undoMove
  have hprev : (doDrop Z p (makeDropMove hk.kind.code t.val) chk).prev = p.st :: p.prev := rfl
  have hturn : (doDrop Z p (makeDropMove hk.kind.code t.val) chk).turn.opp = p.turn := opp_opp _
  rw [hprev]
  simp only [hdef, hdr, if_true, hturn, hd, hpt]
  congr 1
  apply position_eq
  · exact undo_tail h hty hcol
  · exact hcol
  · rw [h.golds_eq]
    exact computeGolds_congr (undo_tail h hty hcol)
  · simp only [doDrop, hd]
    rw [upd_upd, upd_self]
    exact h.piece_none ht
  · rfl
  · simp only [doDrop, hpt, upd_upd, upd_same, minus_plus]
    exact upd_self _ _ _ rfl
  · rfl
  · rfl
  · rfl
  · show p.gamePly + 1 - 1 = p.gamePly
    omega

theorem upd_ite_self {α β : Type} [DecidableEq α] (c : Prop) [Decidable c] (f : α → β) (a : α) (v w : β) (hw : f a = w) :
    (if c then upd (if c then upd f a v else f) a w else (if c then upd f a v else f)) = f := by
  split
  · rw [upd_upd, upd_self _ _ _ hw]
  · rfl

theorem undo_doBoard (Z : Zobrist) {p : Position} (h : Consistent p) {s t : Square} {pro : Bool} {k : Kind}
    (hs : (absPos p).board s = some (p.turn, k)) (hpro : pro = true → k.promoted.isSome = true) (hst : s ≠ t)
    (ht : ∀ k', (absPos p).board t ≠ some (p.turn, k')) (htk : (absPos p).board t ≠ some (p.turn.opp, .king)) (chk : Bool) :
    undoMove (doBoard Z p (boardMove p.piece s t pro) chk) (boardMove p.piece s t pro) = some p := by
  have hdef := board_defined h hs hpro ht htk
  have hpt : pieceType (p.piece s) = k.code := by rw [h.code, hs, pieceType_pieceCode]; rfl
  obtain ⟨hd, hsrc, hdv, hsv, hnd, hptf, hptt, hcap, -⟩ := board_fields p s t pro k hpt hpro
  rw [h.code t, pieceType_pieceCode] at hcap
  obtain ⟨m, hm⟩ : ∃ m, m = boardMove p.piece s t pro := ⟨_, rfl⟩
  have hr := raw_doBoard Z h.raw s t pro k hs hpro hst ht chk
  simp only [← hm] at hr hdef hd hsrc hnd hptf hptt hcap ⊢
  obtain ⟨k', hk'⟩ : ∃ k', k' = Pos.arriving k pro := ⟨_, rfl⟩
  rw [← hk'] at hr hptt
  obtain ⟨cap, hcapv⟩ : ∃ x, x = typeCode ((absPos p).board t) := ⟨_, rfl⟩
  rw [← hcapv] at hcap
  obtain ⟨p', hp'⟩ : ∃ x, x = doBoard Z p m chk := ⟨_, rfl⟩
  have hthem : ∀ c' k', (absPos p).board t = some (c', k') → c' = p.turn.opp ∧ k' ≠ .king := by
    intro c' k' hb
    rcases eq_or_opp p.turn c' with e | e
    · subst e; exact absurd hb (ht _)
    · subst e; exact ⟨rfl, by rintro rfl; exact htk hb⟩
  have hcol : upd (if cap ≠ 0 then upd p'.byColor p.turn.opp ((p'.byColor p.turn.opp).xorBit t) else p'.byColor) p.turn
      (((if cap ≠ 0 then upd p'.byColor p.turn.opp ((p'.byColor p.turn.opp).xorBit t) else p'.byColor) p.turn).xorBit2 s t)
      = p.byColor := by
    funext c
    rw [← hp'] at hr
    refine WF.ext (wf_upd (wf_ite_upd hr.wfColor) (wf_xorBit2 (wf_ite_upd hr.wfColor _) s t) c) (h.wfColor c) (fun u => ?_)
    rw [isSet_upd_xorBit2, isSet_ite_upd]
    simp only [hp', doBoard, hd, hsrc, hcap]
    rw [isSet_ite_upd, isSet_upd_xorBit2]
    generalize (p.byColor c).isSet u = x1
    generalize (decide (c = p.turn) && (decide (u = s) || decide (u = t))) = x2
    generalize (decide (cap ≠ 0) && (decide (c = p.turn.opp) && decide (u = t))) = x3
    cases x1 <;> cases x2 <;> cases x3 <;> rfl
  have hty : ∀ n, n ≠ 0 → upd (upd (if cap ≠ 0 then upd p'.byType cap ((p'.byType cap).xorBit t) else p'.byType) k.code
      (((if cap ≠ 0 then upd p'.byType cap ((p'.byType cap).xorBit t) else p'.byType) k.code).xorBit s)) k'.code
      ((upd (if cap ≠ 0 then upd p'.byType cap ((p'.byType cap).xorBit t) else p'.byType) k.code
      (((if cap ≠ 0 then upd p'.byType cap ((p'.byType cap).xorBit t) else p'.byType) k.code).xorBit s) k'.code).xorBit t) n
      = p.byType n := by
    intro n hn
    rw [← hp'] at hr
    have w1 := fun n => wf_ite_upd (c := cap ≠ 0) (a := cap) (s := t) hr.wfType n
    have w2 := fun n => wf_upd (a := k.code) w1 (wf_xorBit (w1 k.code) s) n
    refine WF.ext (wf_upd w2 (wf_xorBit (w2 _) t) n) (h.wfType n) (fun u => ?_)
    rw [isSet_upd_xorBit, isSet_upd_xorBit, isSet_ite_upd]
    simp only [hp', doBoard, hd, hsrc, hptf, hptt, hcap]
    rw [upd_ne _ _ hn, isSet_ite_upd, isSet_upd_xorBit, isSet_upd_xorBit]
    generalize (p.byType n).isSet u = x1
    generalize (decide (n = k.code) && decide (u = s)) = x2
    generalize (decide (n = k'.code) && decide (u = t)) = x3
    generalize (decide (cap ≠ 0) && (decide (n = cap) && decide (u = t))) = x4
    cases x1 <;> cases x2 <;> cases x3 <;> cases x4 <;> rfl
  have hturn : p'.turn.opp = p.turn := by rw [hp']; exact opp_opp _
  have hturn' : p'.turn = p.turn.opp := by rw [hp']; rfl
  have hprev : p'.prev = p.st :: p.prev := by rw [hp']; rfl
  have hply : p'.gamePly = p.gamePly + 1 := by rw [hp']; rfl
  have hpiece : p'.piece = upd (upd p.piece s 0) t (mkPiece p.turn k'.code) := by
    rw [hp']; simp only [doBoard, hd, hsrc, hptf, hptt]
  have hhand : p'.hand = if cap ≠ 0 then upd p.hand p.turn ((p.hand p.turn).plusOne (ptToHand cap)) else p.hand := by
    rw [hp']; simp only [doBoard, hcap]
  have hks : p'.kingSquare = if k'.code = PT.King then upd p.kingSquare p.turn (some t) else p.kingSquare := by
    rw [hp']; simp only [doBoard, hd, hptf, hptt]
  rw [← hp']
  unfold undoMove
  rw [hprev]
  simp only [hdef, hnd, if_true, hd, hsrc, hptf, hptt, hcap, hturn', opp_opp, Bool.false_eq_true, if_false]
  congr 1
  apply position_eq
  · exact undo_tail h hty hcol
  · exact hcol
  · rw [h.golds_eq]
    exact computeGolds_congr (undo_tail h hty hcol)
  · rw [hpiece]
    funext u
    unfold upd
    by_cases hus : u = s
    · subst hus; simp [h.piece_some hs]
    · simp only [hus, if_false]
      by_cases hut : u = t
      · subst hut
        rw [hcapv]
        rcases hb : (absPos p).board u with _ | ⟨c', kc⟩
        · simp [typeCode, h.piece_none hb]
        · obtain ⟨rfl, -⟩ := hthem _ _ hb
          simp [typeCode, h.piece_some hb, code_ne_zero]
      · simp only [hut, if_false]
  · rw [hks]
    by_cases hk : k'.code = PT.King
    · rw [if_pos hk, if_pos hk, upd_upd]
      refine upd_self _ _ _ ?_
      rw [show PT.King = Kind.code .king from rfl, code_inj, hk', arriving_king hpro] at hk
      rw [h.king, hs, hk]
    · rw [if_neg hk, if_neg hk]
  · rw [hhand]
    by_cases hc : cap = 0
    · simp [hc]
    · simp only [ne_eq, hc, not_false_eq_true, if_true, upd_upd, upd_same, plus_minus]
      exact upd_self _ _ _ rfl
  · rfl
  · rfl
  · rfl
  · show p'.gamePly - 1 = p.gamePly
    omega

end Verif
