import Verif.Lemmas.DoMove

namespace Verif
open Spec Bitboard Position

theorem total_eq (h : HKind) : h.total = setSize h.code := by cases h <;> rfl

/-- In-set positions have small hands. -/
theorem InSet.hand_le {q : Pos} (hq : q.InSet) (c : Color) (h : HKind) : q.hand c h ≤ h.total := by
  have := hq h
  unfold Pos.material at this
  cases c <;> omega

theorem onBoard_pos {q : Pos} {s : Square} {c : Color} {k : Kind} {h : HKind} (hs : q.board s = some (c, k)) (hk : k.hand = some h) :
    1 ≤ q.onBoard h := by
  unfold Pos.onBoard
  rw [Nat.one_le_iff_ne_zero, ← Nat.pos_iff_ne_zero, List.countP_pos_iff]
  exact ⟨s, List.mem_finRange s, by simp [hs, hk]⟩

/-- A piece that can be captured leaves room in the hand. -/
theorem InSet.hand_lt {q : Pos} (hq : q.InSet) (c : Color) {s : Square} {c' : Color} {k : Kind} {h : HKind}
    (hs : q.board s = some (c', k)) (hk : k.hand = some h) : q.hand c h < h.total := by
  have h1 := hq h
  have h2 := onBoard_pos hs hk
  unfold Pos.material at h1
  cases c <;> omega

theorem hand_is {p : Position} (h : Consistent p) (c : Color) : HandIs (p.hand c) (fun i => (p.hand c).numOf i) :=
  HandIs.of_wf (h.hand c) _ (fun _ _ => rfl)

theorem hand_counts {p : Position} (hq : (absPos p).InSet) (c : Color) : ∀ i < 7, (p.hand c).numOf i ≤ setSize i := by
  intro i hi
  obtain ⟨h, rfl⟩ := hcode_surj i hi
  have := InSet.hand_le hq c h
  rw [total_eq] at this
  exact this

theorem hand_drop {p : Position} (h : Consistent p) (c : Color) (hk : HKind) (h1 : 1 ≤ (p.hand c).numOf hk.code) :
    ((p.hand c).minusOne hk.code).WF ∧ ∀ hk' : HKind, ((p.hand c).minusOne hk.code).numOf hk'.code =
      if hk' = hk then (p.hand c).numOf hk'.code - 1 else (p.hand c).numOf hk'.code := by
  have := C09_minusOne (p.hand c) _ (hand_is h c) hk.code (hcode_lt hk) h1
  refine ⟨this.wf, fun hk' => ?_⟩
  rw [this.counts _ (hcode_lt hk')]
  simp only [hcode_inj]

theorem hand_capture {p : Position} (h : Consistent p) (hq : (absPos p).InSet) (c : Color) (hk : HKind)
    (h1 : (absPos p).hand c hk < hk.total) :
    ((p.hand c).plusOne hk.code).WF ∧ ∀ hk' : HKind, ((p.hand c).plusOne hk.code).numOf hk'.code =
      if hk' = hk then (p.hand c).numOf hk'.code + 1 else (p.hand c).numOf hk'.code := by
  have := C09_plusOne (p.hand c) _ (hand_is h c) (hand_counts hq c) hk.code (hcode_lt hk) (by rw [← total_eq]; exact h1)
  refine ⟨this.wf, fun hk' => ?_⟩
  rw [this.counts _ (hcode_lt hk')]
  simp only [hcode_inj]

theorem arriving_king {k : Kind} {pro : Bool} (hpro : pro = true → k.promoted.isSome = true) :
    Pos.arriving k pro = .king ↔ k = .king := by
  cases pro
  · rfl
  · have := hpro rfl
    cases k <;> simp [Kind.promoted] at this <;> simp [Pos.arriving, Kind.promoted]

theorem cap_hand {k : Kind} (hk : k ≠ .king) : ∃ h, k.hand = some h ∧ ptToHand k.code = h.code := by
  cases k <;> first | exact absurd rfl hk | exact ⟨_, rfl, rfl⟩

/-! ### Drops -/

section drop
variable {p : Position} (Z : Zobrist) (h : Consistent p) {hk : HKind} {t : Square} (h1 : 1 ≤ (absPos p).hand p.turn hk)
  (ht : (absPos p).board t = none) (chk : Bool)
include h h1 ht

theorem doDrop_consistent : Consistent (doDrop Z p (makeDropMove hk.kind.code t.val) chk) := by
  have hr := raw_doDrop Z h.raw hk t ht chk
  obtain ⟨hd, -, -, hpt, -⟩ := drop_fields hk t
  refine hr.consistent ?_ ?_ ?_ ?_
  · intro c u
    show p.kingSquare c = some u ↔ _
    rw [h.king, Pos.set]
    split
    · next e =>
      subst e; rw [ht]
      cases hk <;> simp [HKind.kind]
    · exact Iff.rfl
  · exact isSet_computeGolds (hr.congr rfl rfl rfl)
  · exact wf_computeGolds (hr.congr rfl rfl rfl)
  · intro c
    simp only [doDrop, hpt, ptToHand_handKind, upd]
    split
    · exact (hand_drop h p.turn hk h1).1
    · exact h.hand c

theorem doDrop_abs : absPos (doDrop Z p (makeDropMove hk.kind.code t.val) chk) = (absPos p).play (.drop hk t) := by
  have hr := raw_doDrop Z h.raw hk t ht chk
  obtain ⟨hd, -, -, hpt, -⟩ := drop_fields hk t
  have hb := hr.abs
  have hh : (absPos (doDrop Z p (makeDropMove hk.kind.code t.val) chk)).hand = ((absPos p).play (.drop hk t)).hand := by
    funext c hk'
    simp only [absPos, doDrop, hpt, ptToHand_handKind, upd, Pos.play]
    by_cases hc : c = p.turn
    · subst hc
      simp [(hand_drop h p.turn hk h1).2]
    · simp [hc]
  have hturn : (absPos (doDrop Z p (makeDropMove hk.kind.code t.val) chk)).turn = ((absPos p).play (.drop hk t)).turn := rfl
  generalize absPos (doDrop Z p (makeDropMove hk.kind.code t.val) chk) = q at *
  cases q
  subst hb hh hturn
  rfl
end drop

/-! ### Board moves -/

section board
variable {p : Position} (Z : Zobrist) (h : Consistent p) (hq : (absPos p).InSet) {s t : Square} {pro : Bool} {k : Kind}
  (hs : (absPos p).board s = some (p.turn, k)) (hpro : pro = true → k.promoted.isSome = true) (hst : s ≠ t)
  (ht : ∀ k', (absPos p).board t ≠ some (p.turn, k')) (htk : (absPos p).board t ≠ some (p.turn.opp, .king)) (chk : Bool)
include h hs

omit hs in
theorem hand_doBoard_none (ht0 : (absPos p).board t = none) :
    (doBoard Z p (boardMove p.piece s t pro) chk).hand = p.hand := by
  have hcap : (boardMove p.piece s t pro).cap = 0 := by
    have hf := C01_board_move_fields p.piece s t pro
    simp only [readBoardMove, Prod.mk.injEq] at hf
    rw [hf.2.2.2.1, h.piece_none ht0]; rfl
  simp [doBoard, hcap]

omit hs in
theorem hand_doBoard_some {c' : Color} {k' : Kind} {hk : HKind} (ht0 : (absPos p).board t = some (c', k')) (hk' : k'.hand = some hk) :
    (doBoard Z p (boardMove p.piece s t pro) chk).hand = upd p.hand p.turn ((p.hand p.turn).plusOne hk.code) := by
  have hcap : (boardMove p.piece s t pro).cap = k'.code := by
    have hf := C01_board_move_fields p.piece s t pro
    simp only [readBoardMove, Prod.mk.injEq] at hf
    rw [hf.2.2.2.1, h.piece_some ht0, pieceType_mkPiece]
  have hh : ptToHand k'.code = hk.code := by rw [ptToHand_kind, hk']
  simp [doBoard, hcap, hh, code_ne_zero]

include hq hpro hst ht htk

omit hpro hst in
theorem doBoard_hand_counts :
    (∀ c, ((doBoard Z p (boardMove p.piece s t pro) chk).hand c).WF) ∧
    (absPos (doBoard Z p (boardMove p.piece s t pro) chk)).hand = ((absPos p).play (.move s t pro)).hand := by
  rcases hb : (absPos p).board t with _ | ⟨c', k'⟩
  · have e := hand_doBoard_none Z h (s := s) (pro := pro) chk hb
    refine ⟨fun c => by rw [e]; exact h.hand c, ?_⟩
    funext c hk'
    show ((doBoard Z p (boardMove p.piece s t pro) chk).hand c).numOf hk'.code = _
    rw [e]
    simp only [Pos.play, hs, hb]
    simp; rfl
  · have hkk : k' ≠ .king := by
      rintro rfl
      rcases eq_or_opp p.turn c' with e | e
      · subst e; exact ht _ hb
      · subst e; exact htk hb
    obtain ⟨hk, hhk, -⟩ := cap_hand hkk
    have e := hand_doBoard_some Z h (s := s) (pro := pro) chk hb hhk
    have hc := hand_capture h hq p.turn hk (InSet.hand_lt hq p.turn hb hhk)
    constructor
    · intro c
      rw [e]; unfold upd
      split
      · exact hc.1
      · exact h.hand c
    · funext c hk'
      show ((doBoard Z p (boardMove p.piece s t pro) chk).hand c).numOf hk'.code = _
      rw [e]
      simp only [Pos.play, hs, hb, upd]
      by_cases hcu : c = p.turn
      · subst hcu
        simp only [if_true, hc.2]
        by_cases hh : hk' = hk
        · subst hh
          have : (absPos p).turn = p.turn := rfl
          simp [this, hhk]; rfl
        · have : ¬ hk = hk' := fun e => hh e.symm
          simp [hh, hhk, this]; rfl
      · have : ¬ c = (absPos p).turn := hcu
        simp only [hcu, if_false, this, false_and]; rfl

theorem doBoard_consistent : Consistent (doBoard Z p (boardMove p.piece s t pro) chk) := by
  have hr := raw_doBoard Z h.raw s t pro k hs hpro hst ht chk
  have hpt : pieceType (p.piece s) = k.code := by rw [h.code, hs, pieceType_pieceCode]; rfl
  obtain ⟨hd, hsrc, -, -, -, hptf, hptt, hcap, -⟩ := board_fields p s t pro k hpt hpro
  refine hr.consistent ?_ ?_ ?_ ?_
  · intro c u
    have e : (doBoard Z p (boardMove p.piece s t pro) chk).kingSquare =
        if k = .king then upd p.kingSquare p.turn (some t) else p.kingSquare := by
      simp only [doBoard, hd, hptf, hptt]
      have : ((Pos.arriving k pro).code = PT.King) ↔ k = .king := by
        rw [← arriving_king hpro, show PT.King = Kind.code .king from rfl, code_inj]
      simp only [this]
    rw [e]
    unfold Pos.set
    by_cases hk : k = .king
    · subst hk
      have hk' : Pos.arriving .king pro = .king := (arriving_king hpro).mpr rfl
      rw [if_pos rfl, hk']
      rcases eq_or_opp p.turn c with e | e
      · subst e
        rw [upd_same]
        by_cases hut : u = t
        · subst hut; simp
        · rw [if_neg hut]
          by_cases hus : u = s
          · subst hus; simp; exact fun e => hut e.symm
          · rw [if_neg hus]
            constructor
            · intro e; exact absurd (Option.some.inj e).symm hut
            · intro e; exact absurd (h.king_unique e hs) hus
      · subst e
        rw [upd_ne _ _ (opp_ne _), h.king]
        by_cases hut : u = t
        · subst hut; simp [htk, ne_opp]
        · rw [if_neg hut]
          by_cases hus : u = s
          · subst hus; rw [hs]; simp [ne_opp]
          · rw [if_neg hus]
    · have hk' : Pos.arriving k pro ≠ .king := fun e => hk ((arriving_king hpro).mp e)
      rw [if_neg hk, h.king]
      by_cases hut : u = t
      · subst hut
        rw [if_pos rfl]
        constructor
        · intro e
          rcases eq_or_opp p.turn c with e' | e'
          · subst e'; exact absurd e (ht _)
          · subst e'; exact absurd e htk
        · intro e
          exact absurd (congrArg Prod.snd (Option.some.inj e)) hk'
      · rw [if_neg hut]
        by_cases hus : u = s
        · subst hus
          rw [hs, if_pos rfl]
          simp [hk]
        · rw [if_neg hus]
  · exact isSet_computeGolds (hr.congr rfl rfl rfl)
  · exact wf_computeGolds (hr.congr rfl rfl rfl)
  · exact (doBoard_hand_counts Z h hq (pro := pro) hs ht htk chk).1

theorem doBoard_abs : absPos (doBoard Z p (boardMove p.piece s t pro) chk) = (absPos p).play (.move s t pro) := by
  have hr := raw_doBoard Z h.raw s t pro k hs hpro hst ht chk
  have hb := hr.abs
  have hh := (doBoard_hand_counts Z h hq (pro := pro) hs ht htk chk).2
  have hturn : (absPos (doBoard Z p (boardMove p.piece s t pro) chk)).turn = p.turn.opp := rfl
  generalize absPos (doBoard Z p (boardMove p.piece s t pro) chk) = q at *
  cases q
  subst hb hh hturn
  simp only [Pos.play, hs]
  rfl
end board

/-! ### Both kinds of move -/

theorem board_defined {p : Position} (h : Consistent p) {s t : Square} {pro : Bool} {k : Kind}
    (hs : (absPos p).board s = some (p.turn, k)) (hpro : pro = true → k.promoted.isSome = true)
    (ht : ∀ k', (absPos p).board t ≠ some (p.turn, k')) (htk : (absPos p).board t ≠ some (p.turn.opp, .king)) :
    doMoveDefined (boardMove p.piece s t pro) = true := by
  have hpt : pieceType (p.piece s) = k.code := by rw [h.code, hs, pieceType_pieceCode]; rfl
  obtain ⟨hd, hsrc, hdv, hsv, hnd, hptf, hptt, hcap, -⟩ := board_fields p s t pro k hpt hpro
  simp only [doMoveDefined, hdv, hnd, hptf, hptt, hcap]
  simp only [t.isLt, code_pos, code_le, decide_true, Bool.true_and, Bool.false_eq_true, if_false]
  rcases hb : (absPos p).board t with _ | ⟨c', k'⟩
  · rw [h.piece_none hb]; rfl
  · have hkk : k' ≠ .king := by
      rintro rfl
      rcases eq_or_opp p.turn c' with e | e
      · subst e; exact ht _ hb
      · subst e; exact htk hb
    obtain ⟨hk, hhk, e⟩ := cap_hand hkk
    rw [h.piece_some hb, pieceType_mkPiece, e]
    simp [hcode_lt]

/-- Making an encoded playable move is defined, keeps the views consistent and plays the rule move. -/
theorem doMove_play (Z : Zobrist) {p : Position} (h : Consistent p) (hq : (absPos p).InSet) {m : Mv} (hm : (absPos p).Playable m) :
    ∃ p', doMove Z p (encode p m) = some p' ∧ Consistent p' ∧ absPos p' = (absPos p).play m := by
  cases m with
  | move s t pro =>
    obtain ⟨hst, ⟨k, hs, hpro⟩, ht, htk⟩ := hm
    have hdef := board_defined h hs hpro ht htk
    have hnd : (boardMove p.piece s t pro).isDrop = false := by
      have hf := C01_board_move_fields p.piece s t pro
      simp only [readBoardMove, Prod.mk.injEq] at hf
      exact hf.2.2.2.2.2
    refine ⟨_, ?_, doBoard_consistent Z h hq hs hpro hst ht htk (p.moveGivesCheck (boardMove p.piece s t pro)),
      doBoard_abs Z h hq hs hpro hst ht htk _⟩
    simp [doMove, encode, hdef, hnd]
  | drop hk t =>
    obtain ⟨h1, ht⟩ := hm
    obtain ⟨-, -, hdr, -, hdef⟩ := drop_fields hk t
    refine ⟨_, ?_, doDrop_consistent Z h h1 ht (p.moveGivesCheck (makeDropMove hk.kind.code t.val)), doDrop_abs Z h h1 ht _⟩
    simp [doMove, encode, hdef, hdr]

end Verif
