import Verif.Lemmas.Keys
import Verif.Props.Moves
import Verif.Spec.Material

namespace Verif
open Spec Bitboard Position

theorem sqN_val (s : Square) : sqN s.val = s := by
  ext; simp [sqN, Fin.ofNat, Nat.mod_eq_of_lt s.isLt]

/-! ### Fields of encoded moves -/

theorem handKind_code_bounds (h : HKind) : 1 ≤ h.kind.code ∧ h.kind.code ≤ 7 := by cases h <;> decide
theorem ptToHand_handKind (h : HKind) : ptToHand h.kind.code = h.code := by cases h <;> rfl
theorem hcode_lt (h : HKind) : h.code < 7 := by cases h <;> decide
theorem hcode_inj {h h' : HKind} : h.code = h'.code ↔ h = h' := by cases h <;> cases h' <;> simp [HKind.code]
theorem hcode_surj (i : Nat) (hi : i < 7) : ∃ h : HKind, h.code = i := by
  interval_cases i
  · exact ⟨.pawn, rfl⟩
  · exact ⟨.lance, rfl⟩
  · exact ⟨.knight, rfl⟩
  · exact ⟨.silver, rfl⟩
  · exact ⟨.gold, rfl⟩
  · exact ⟨.bishop, rfl⟩
  · exact ⟨.rook, rfl⟩

theorem ptToHand_kind (k : Kind) : ptToHand k.code = (match k.hand with | none => 7 | some h => h.code) := by
  cases k <;> rfl

theorem drop_fields (h : HKind) (t : Square) :
    let m := makeDropMove h.kind.code t.val
    sqN m.dst = t ∧ m.dst = t.val ∧ m.isDrop = true ∧ m.pieceTypeDropped = h.kind.code ∧ doMoveDefined m = true := by
  have hb := handKind_code_bounds h
  have hf := C01_drop_move_fields h.kind.code hb.1 hb.2 t
  intro m
  have h1 : m.dst = t.val := hf.1
  have h2 : m.isDrop = true := hf.2.1
  have h3 : m.pieceTypeDropped = h.kind.code := hf.2.2.1
  refine ⟨by rw [h1, sqN_val], h1, h2, h3, ?_⟩
  simp [doMoveDefined, h1, h2, h3, ptToHand_handKind, t.isLt]
  cases h <;> decide

/-- Code of the piece type of an optional piece, 0 for none. -/
def typeCode : Option (Color × Kind) → Nat
  | none => 0
  | some (_, k) => k.code

theorem pieceType_pieceCode (v : Option (Color × Kind)) : pieceType (pieceCode v) = typeCode v := by
  rcases v with _ | ⟨c, k⟩
  · rfl
  · exact pieceType_mkPiece c k

theorem arriving_code (k : Kind) (pro : Bool) (h : pro = true → k.promoted.isSome = true) :
    (Pos.arriving k pro).code = k.code + (if pro = true then 8 else 0) := by
  cases pro
  · rfl
  · have := h rfl
    cases k <;> simp [Kind.promoted] at this <;> rfl

theorem board_fields (p : Position) (s t : Square) (pro : Bool) (k : Kind) (hs : pieceType (p.piece s) = k.code)
    (hpro : pro = true → k.promoted.isSome = true) :
    let m := boardMove p.piece s t pro
    sqN m.dst = t ∧ sqN m.src = s ∧ m.dst = t.val ∧ m.src = s.val ∧ m.isDrop = false ∧ m.pieceTypeFrom = k.code ∧
    m.pieceTypeToOf k.code = (Pos.arriving k pro).code ∧ m.cap = pieceType (p.piece t) ∧ m.isPromotion = pro := by
  intro m
  have hf := C01_board_move_fields p.piece s t pro
  simp only [readBoardMove, Prod.mk.injEq] at hf
  obtain ⟨h1, h2, h3, h4, h5, h6⟩ := hf
  refine ⟨?_, ?_, h2, h1, h6, h3.trans hs, ?_, h4, h5⟩
  · show sqN (boardMove p.piece s t pro).dst = t; rw [h2, sqN_val]
  · show sqN (boardMove p.piece s t pro).src = s; rw [h1, sqN_val]
  · rw [Move.pieceTypeToOf_eq, arriving_code k pro hpro]
    have h5' : m.isPromotion = pro := h5
    rw [h5']

/-! ### The board after a move -/

theorem wf_xorBit {b : Bitboard} (h : b.WF) (s : Square) : (b.xorBit s).WF := h.xor (WF.setMask s)

theorem raw_doDrop (Z : Zobrist) {p : Position} {b : Square → Option (Color × Kind)} (h : Raw p b) (hk : HKind) (t : Square)
    (ht : b t = none) (chk : Bool) :
    Raw (doDrop Z p (makeDropMove hk.kind.code t.val) chk) (Pos.set b t (some (p.turn, hk.kind))) := by
  obtain ⟨hd, -, -, hpt, -⟩ := drop_fields hk t
  have h0 : ∀ k : Kind, decide ((0 : Nat) = k.code) = false := fun k => decide_eq_false (fun e => code_ne_zero k e.symm)
  constructor
  · intro u
    simp only [doDrop, hd, hpt, upd, Pos.set]
    split
    · rfl
    · exact h.code u
  · intro k u
    simp only [doDrop, hd, hpt, isSet_upd_xorBit, PT.Occupied, code_ne_zero, decide_false, Bool.false_and, Bool.xor_false,
      code_inj]
    unfold Pos.set
    by_cases hu : u = t
    · subst hu
      have : (p.byType k.code).isSet u = false := by
        rw [Bool.eq_false_iff, ne_eq, h.type, ht]; simp
      simp [this, eq_comm]
    · simp [hu, h.type]
  · intro c u
    simp only [doDrop, hd, isSet_upd_xorBit]
    unfold Pos.set
    by_cases hu : u = t
    · subst hu
      have : (p.byColor c).isSet u = false := by
        rw [Bool.eq_false_iff, ne_eq, h.color, ht]; simp
      simp [this, eq_comm]
    · simp [hu, h.color]
  · intro u
    simp only [doDrop, hd, hpt, isSet_upd_xorBit, PT.Occupied, h0, Bool.false_and, Bool.xor_false, Position.occupied,
      decide_true, Bool.true_and]
    rw [show (p.byType 0).isSet u = (b u).isSome from h.occ u]
    unfold Pos.set
    by_cases hu : u = t
    · subst hu; simp [ht]
    · simp [hu]
  · intro n
    simp only [doDrop, hd, hpt]
    exact wf_upd (wf_upd h.wfType (wf_xorBit (h.wfType _) t)) (wf_xorBit (wf_upd h.wfType (wf_xorBit (h.wfType _) t) _) t) n
  · intro c
    simp only [doDrop, hd]
    exact wf_upd h.wfColor (wf_xorBit (h.wfColor _) t) c

theorem typeCode_eq_zero {v : Option (Color × Kind)} : typeCode v = 0 ↔ v = none := by
  rcases v with _ | ⟨c, k⟩
  · simp [typeCode]
  · simp [typeCode, code_ne_zero]

theorem isSet_upd_xorBit2 {α : Type} [DecidableEq α] (f : α → Bitboard) (a x : α) (s s' t : Square) :
    (upd f a ((f a).xorBit2 s s') x).isSet t = ((f x).isSet t ^^ (decide (x = a) && (decide (t = s) || decide (t = s')))) := by
  unfold upd
  split
  · next h => subst h; simp
  · next h => simp [h]

theorem isSet_ite_upd {α : Type} [DecidableEq α] (c : Prop) [Decidable c] (f : α → Bitboard) (a x : α) (s t : Square) :
    ((if c then upd f a ((f a).xorBit s) else f) x).isSet t =
      ((f x).isSet t ^^ (decide c && (decide (x = a) && decide (t = s)))) := by
  split
  · next h => rw [isSet_upd_xorBit]; simp [h]
  · next h => simp [h]

theorem wf_ite_upd {α : Type} [DecidableEq α] {c : Prop} [Decidable c] {f : α → Bitboard} {a : α} {s : Square}
    (hf : ∀ x, (f x).WF) (x : α) : ((if c then upd f a ((f a).xorBit s) else f) x).WF := by
  split
  · exact wf_upd hf (wf_xorBit (hf a) s) x
  · exact hf x

theorem wf_xorBit2 {b : Bitboard} (h : b.WF) (s t : Square) : (b.xorBit2 s t).WF :=
  h.xor ((WF.setMask s).or (WF.setMask t))

theorem raw_doBoard (Z : Zobrist) {p : Position} {b : Square → Option (Color × Kind)} (h : Raw p b) (s t : Square) (pro : Bool)
    (k : Kind) (hs : b s = some (p.turn, k)) (hpro : pro = true → k.promoted.isSome = true) (hst : s ≠ t)
    (ht : ∀ k', b t ≠ some (p.turn, k')) (chk : Bool) :
    Raw (doBoard Z p (boardMove p.piece s t pro) chk)
      (Pos.set (Pos.set b s none) t (some (p.turn, Pos.arriving k pro))) := by
  have hpt : pieceType (p.piece s) = k.code := by rw [h.code, hs, pieceType_pieceCode]; rfl
  obtain ⟨hd, hsrc, -, -, -, hptf, hptt, hcap, -⟩ := board_fields p s t pro k hpt hpro
  rw [h.code t, pieceType_pieceCode] at hcap
  obtain ⟨k', hk'⟩ : ∃ k', k' = Pos.arriving k pro := ⟨_, rfl⟩
  rw [← hk'] at hptt ⊢
  have htype : ∀ k1 u, ((doBoard Z p (boardMove p.piece s t pro) chk).byType k1.code).isSet u = true ↔
      ∃ c, Pos.set (Pos.set b s none) t (some (p.turn, k')) u = some (c, k1) := by
    intro k1 u
    simp only [doBoard, hd, hsrc, hptf, hptt, hcap, PT.Occupied]
    rw [upd_ne _ _ (code_ne_zero k1), isSet_ite_upd, isSet_upd_xorBit, isSet_upd_xorBit]
    simp only [code_inj]
    unfold Pos.set
    by_cases hut : u = t
    · subst hut
      have hus : u ≠ s := fun e => hst e.symm
      simp only [hus, decide_false, decide_true, Bool.and_false, Bool.xor_false, Bool.and_true, if_true]
      rcases hb : b u with _ | ⟨c, kc⟩
      · have : (p.byType k1.code).isSet u = false := by rw [Bool.eq_false_iff, ne_eq, h.type, hb]; simp
        simp [this, typeCode, eq_comm]
      · have : (p.byType k1.code).isSet u = decide (k1 = kc) := by
          rw [Bool.eq_iff_iff, h.type, hb]; simp [eq_comm]
        rw [this]
        simp only [typeCode, code_inj, ne_eq, code_ne_zero, not_false_eq_true, decide_true, Bool.true_and]
        rw [Bool.xor_right_comm]
        simp [eq_comm]
    · simp only [hut, decide_false, Bool.and_false, Bool.xor_false, if_false]
      by_cases hus : u = s
      · subst hus
        have : (p.byType k1.code).isSet u = decide (k1 = k) := by
          rw [Bool.eq_iff_iff, h.type, hs]; simp [eq_comm]
        simp [this]
      · simp [hus, h.type]
  have hcol : ∀ c u, ((doBoard Z p (boardMove p.piece s t pro) chk).byColor c).isSet u = true ↔
      ∃ k1, Pos.set (Pos.set b s none) t (some (p.turn, k')) u = some (c, k1) := by
    intro c u
    simp only [doBoard, hd, hsrc, hcap]
    rw [isSet_ite_upd, isSet_upd_xorBit2]
    unfold Pos.set
    by_cases hut : u = t
    · subst hut
      have hus : u ≠ s := fun e => hst e.symm
      simp only [hus, decide_false, decide_true, Bool.false_or, Bool.and_true, if_true]
      rcases hb : b u with _ | ⟨c', kc⟩
      · have : (p.byColor c).isSet u = false := by rw [Bool.eq_false_iff, ne_eq, h.color, hb]; simp
        simp [this, typeCode, eq_comm]
      · have hc' : c' = p.turn.opp := by
          rcases eq_or_opp p.turn c' with e | e
          · subst e; exact absurd hb (ht kc)
          · exact e
        have : (p.byColor c).isSet u = decide (c = p.turn.opp) := by
          rw [Bool.eq_iff_iff, h.color, hb, hc']; simp [eq_comm]
        rw [this]
        simp only [typeCode, ne_eq, code_ne_zero, not_false_eq_true, decide_true, Bool.true_and]
        rw [Bool.xor_right_comm]
        simp [eq_comm]
    · simp only [hut, decide_false, Bool.and_false, Bool.xor_false, if_false, Bool.or_false]
      by_cases hus : u = s
      · subst hus
        have : (p.byColor c).isSet u = decide (c = p.turn) := by
          rw [Bool.eq_iff_iff, h.color, hs]; simp [eq_comm]
        simp [this]
      · simp [hus, h.color]
  constructor
  · intro u
    simp only [doBoard, hd, hsrc, hptf, hptt, upd, Pos.set]
    by_cases hut : u = t
    · simp [hut]; rfl
    · by_cases hus : u = s
      · subst hus; simp [hut]; rfl
      · simp only [hut, hus, if_false]; exact h.code u
  · exact htype
  · exact hcol
  · intro u
    have e : (doBoard Z p (boardMove p.piece s t pro) chk).occupied =
      (doBoard Z p (boardMove p.piece s t pro) chk).byColor .black ||| (doBoard Z p (boardMove p.piece s t pro) chk).byColor .white := by
      simp only [doBoard, Position.occupied, upd_same]
    rw [e, isSet_or, Bool.eq_iff_iff, Bool.or_eq_true, hcol, hcol]
    rcases Pos.set (Pos.set b s none) t (some (p.turn, k')) u with _ | ⟨c, k1⟩
    · simp
    · cases c <;> simp
  · intro n
    simp only [doBoard, hd, hsrc, hptf, hptt, hcap]
    have w1 := fun n => wf_upd (a := k.code) h.wfType (wf_xorBit (h.wfType k.code) s) n
    have w2 := fun n => wf_upd (a := k'.code) w1 (wf_xorBit (w1 k'.code) t) n
    have c1 := fun n => wf_upd (a := p.turn) h.wfColor (wf_xorBit2 (h.wfColor p.turn) s t) n
    exact wf_upd (fun n => wf_ite_upd w2 n) ((wf_ite_upd c1 _).or (wf_ite_upd c1 _)) n
  · intro c
    simp only [doBoard, hd, hsrc, hptf, hptt, hcap]
    have c1 := fun n => wf_upd (a := p.turn) h.wfColor (wf_xorBit2 (h.wfColor p.turn) s t) n
    exact wf_ite_upd c1 c

end Verif
