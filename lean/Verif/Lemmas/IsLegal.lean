import Verif.Lemmas.Legal
import Verif.Props.Bitboards

/-!
The test of a single move against the rules.
-/

namespace Verif
open Spec Bitboard Position

theorem popFirst_spec {b : Bitboard} (hw : b.WF) (hne : ∃ s, b.isSet s = true) :
    ∃ c, b.isSet c = true ∧ sqN b.popFirst.1 = c ∧ (b.popFirst.2.isAny = true ↔ ∃ s, b.isSet s = true ∧ s ≠ c) := by
  obtain ⟨S, hS⟩ : ∃ S : Finset Square, S = Finset.univ.filter fun s => b.isSet s = true := ⟨_, rfl⟩
  have hm : ∀ s, b.isSet s = true ↔ s ∈ S := by intro s; rw [hS]; simp
  have hr : Represents b S := (represents_iff b S).mpr ⟨hw, hm⟩
  have hn : S.Nonempty := by obtain ⟨s, hs⟩ := hne; exact ⟨s, (hm s).mp hs⟩
  obtain ⟨h1, h2, -⟩ := C11_popFirst b S hr hn
  refine ⟨S.min' hn, (hm _).mpr (S.min'_mem hn), by rw [h1, sqN_val], ?_⟩
  obtain ⟨w, hw2⟩ := (represents_iff _ _).mp h2
  rw [w.isAny_iff]
  refine exists_congr fun s => ?_
  rw [hw2, Finset.mem_erase, hm, and_comm]

section
variable {p : Position}

/-- The promotion and dead-square rules, the part of the rules that `is_legal` leaves to the caller. -/
def PromotionOK (q : Pos) : Mv → Prop
  | .move f t pro => ∀ kd, q.board f = some (q.turn, kd) →
      (pro = true → kd.promoted.isSome = true ∧ (zone q.turn f ∨ zone q.turn t)) ∧ (pro = false → ¬ Dead q.turn kd t)
  | .drop h t => ¬ Dead q.turn h.kind t

/-- What the code tests on the checking pieces. -/
theorem check_target (hc : CheckOK p) {k : Square} (hK : KingAt (absPos p) p.turn k) (hin : p.inCheck = true) :
    ∃ c, sqN p.st.checkersBB.popFirst.1 = c ∧ Checker (absPos p) k c ∧
      (p.st.checkersBB.popFirst.2.isAny = true ↔ ∃ s, Checker (absPos p) k s ∧ s ≠ c) ∧
      ∀ t, p.st.checkersBB.isSet t = true ↔ Checker (absPos p) k t := by
  have hchk : ∀ s, p.st.checkersBB.isSet s = true ↔ Checker (absPos p) k s := by
    intro s
    rw [hc.iff]
    constructor
    · rintro ⟨k2, e, ha⟩; rw [(hK k2).mp e] at ha; exact ha
    · intro ha; exact ⟨k, hK.at, ha⟩
  have hne : ∃ s, p.st.checkersBB.isSet s = true := by
    obtain ⟨s, hs⟩ := hK.inCheck.mp (hc.inCheck.mp hin)
    exact ⟨s, (hchk s).mpr hs⟩
  obtain ⟨c, h1, h2, h3⟩ := popFirst_spec hc.wf hne
  refine ⟨c, h2, (hchk c).mp h1, ?_, hchk⟩
  rw [h3]
  simp only [hchk]

theorem piece_zero (h : Consistent p) (t : Square) : (p.piece t != 0) = true ↔ (absPos p).board t ≠ none := by
  rw [h.code]
  rcases e : (absPos p).board t with _ | ⟨c, k⟩
  · simp [pieceCode]
  · simp only [bne_iff_ne, ne_eq, reduceCtorEq, not_false_eq_true, iff_true]
    cases c <;> cases k <;> decide

theorem pawn_front (k t : Square) (hd : ¬ Dead p.turn .pawn t) :
    frontNo p.turn t = (k.val : Int) ↔
      Attacks p.turn .pawn (absPos p).occ t k := by
  rw [pawn_attack_iff]
  have := t.isLt
  have := k.isLt
  generalize p.turn = c at *
  unfold Dead at hd
  simp only at hd
  unfold farRank X Y frontNo at *
  cases c <;> simp only at hd ⊢ <;> omega

theorem nifu_test (h : Consistent p) (t : Square) : (p.bbOf PT.Pawn p.turn &&& fileMask (file t)).isAny = true ↔
    ∃ u, X u = X t ∧ (absPos p).board u = some (p.turn, .pawn) := by
  have hw : (p.bbOf PT.Pawn p.turn &&& fileMask (file t)).WF := ((h.wfType _).and_left).and_left
  rw [hw.isAny_iff]
  refine exists_congr fun u => ?_
  rw [isSet_and, Bool.and_eq_true, show PT.Pawn = Kind.pawn.code from rfl, ← (show (p.bbOf Kind.pawn.code p.turn).WF from (h.wfType _).and_left).mem_toList, mem_bbOf h]
  rw [show (fileMask (file t)).isSet u = _ from isSet_fileMask ⟨file t, file_lt t⟩ u, and_comm]
  refine and_congr_left fun _ => ?_
  unfold X
  simp only [decide_eq_true_eq]
  unfold file
  omega

theorem isLegal_encode_drop (h : Consistent p) (hc : CheckOK p) (hq : (absPos p).Regular) (hp : HKind) (t : Square)
    (hd : ¬ Dead p.turn hp.kind t) :
    ∃ b, p.isLegal (encode p (.drop hp t)) = some b ∧ (b = true ↔ (absPos p).Legal (.drop hp t)) := by
  obtain ⟨k, hk⟩ := kings_of h hq p.turn
  obtain ⟨k', hk'⟩ := kings_of h hq p.turn.opp
  have hK := h.kingAt hk
  obtain ⟨-, f1, f2, f3, -⟩ := drop_fields hp t
  have hlt : (encode p (.drop hp t)).dst < 81 := by rw [show (encode p (.drop hp t)).dst = t.val from f1]; exact t.isLt
  have hsq : (⟨(encode p (.drop hp t)).dst, hlt⟩ : Square) = t := Fin.ext f1
  have hch : hp.code < 7 := hcode_lt hp
  have hpt : (encode p (.drop hp t)).pieceTypeDropped = hp.kind.code := f3
  have h15 : hp.kind.code ≤ 15 := by cases hp <;> decide
  unfold isLegal
  suffices hs : ∃ b, p.moveIsPseudoLegal (encode p (.drop hp t)) = some b ∧ (b = true ↔ (absPos p).Legal (.drop hp t)) by
    obtain ⟨b, e, hb⟩ := hs
    exact ⟨b, by rw [e, Option.map_some, isLegal_drop, Bool.and_true], hb⟩
  have hdrop := drop_inCheck (q := absPos p) hK (h := hp) (t := t)
  unfold moveIsPseudoLegal
  rw [dif_pos hlt]
  simp only [hsq]
  rw [if_pos (show (encode p (.drop hp t)).isDrop = true from f2)]
  simp only [hpt, ptToHand_handKind, show (encode p (.drop hp t)).dst = t.val from f1]
  rw [if_pos ⟨h15, hch⟩]
  by_cases h1 : (!(p.hand p.turn).has hp.code || p.piece t != 0) = true
  · rw [if_pos h1]
    refine ⟨false, rfl, ?_⟩
    simp only [Bool.false_eq_true, false_iff]
    rintro ⟨⟨hps, -⟩, -⟩
    rw [Bool.or_eq_true, Bool.not_eq_true', ← Bool.not_eq_true, has_iff h, piece_zero h] at h1
    exact h1.elim (fun e => e hps.1) (fun e => e hps.2.1)
  · rw [if_neg h1]
    rw [Bool.or_eq_true, not_or, Bool.not_eq_true', ← Bool.not_eq_true, not_not, has_iff h, piece_zero h, not_not] at h1
    obtain ⟨hh, ht⟩ := h1
    -- the answer to a check
    obtain ⟨cb, hcb, hcb'⟩ : ∃ cb, p.dropAnswersCheck t = some cb ∧ (cb = true ↔ ¬ ((absPos p).play (.drop hp t)).InCheck p.turn) := by
      unfold dropAnswersCheck
      by_cases hin : p.inCheck = true
      · rw [if_pos hin, hk]
        obtain ⟨c, e1, e2, e3, -⟩ := check_target hc hK hin
        simp only [e1]
        by_cases h2 : p.st.checkersBB.popFirst.2.isAny = true
        · rw [if_pos h2]
          refine ⟨false, rfl, ?_⟩
          simp only [Bool.false_eq_true, false_iff, not_not]
          obtain ⟨s, hs, hsc⟩ := e3.mp h2
          apply (hdrop ht).mpr
          by_contra hn
          push Not at hn
          exact two_checkers hs e2 hsc (.inr (hn s hs)) (.inr (hn c e2))
        · rw [if_neg h2]
          refine ⟨_, rfl, ?_⟩
          rw [isSet_betweenBB]
          have hdr := hdrop ht
          rw [show (absPos p).turn = p.turn from rfl] at hdr
          rw [hdr]
          constructor
          · rintro hb ⟨s, hs, hn⟩
            by_cases hsc : s = c
            · rw [hsc] at hn; exact hn hb
            · exact h2 (e3.mpr ⟨s, hs, hsc⟩)
          · intro hn
            by_contra hb
            exact hn ⟨c, e2, hb⟩
      · rw [if_neg hin]
        refine ⟨true, rfl, ?_⟩
        simp only [true_iff]
        intro hin'
        obtain ⟨s, hs, -⟩ := (hdrop ht).mp hin'
        exact hin (hc.inCheck.mpr (hK.inCheck.mpr ⟨s, hs⟩))
    simp only [hcb]
    cases cb with
    | false =>
      refine ⟨false, rfl, ?_⟩
      simp only [Bool.false_eq_true, false_iff] at hcb' ⊢
      rintro ⟨⟨-, hs⟩, -⟩
      exact hcb' hs
    | true =>
      have hsafe := hcb'.mp rfl
      simp only
      by_cases hpw : hp.kind.code = PT.Pawn
      · have : hp = .pawn := by cases hp <;> first | rfl | (exact absurd hpw (by decide))
        subst this
        rw [if_pos hpw]
        by_cases hn : (p.bbOf PT.Pawn p.turn &&& fileMask (file t)).isAny = true
        · rw [if_pos hn]
          refine ⟨false, rfl, ?_⟩
          simp only [Bool.false_eq_true, false_iff]
          rintro ⟨⟨⟨-, -, -, hps⟩, -⟩, -⟩
          obtain ⟨u, hu, e⟩ := (nifu_test h t).mp hn
          exact hps rfl u hu e
        · rw [if_neg hn]
          rw [nifu_test h] at hn
          push Not at hn
          have hps : (absPos p).Pseudo (.drop .pawn t) := ⟨hh, ht, hd, fun _ u hu => hn u hu⟩
          have hpd := pawnDrop_iff h hk' hq.waiting .pawn ht
          simp only [hk']
          by_cases hfr : Attacks p.turn .pawn (absPos p).occ t k'
          · rw [if_pos ((pawn_front k' t hd).mpr hfr)]
            obtain ⟨b, hb⟩ := isMate_isSome hk' t
            rw [hb] at hpd ⊢
            refine ⟨!b, rfl, ?_⟩
            constructor
            · intro e
              refine ⟨⟨hps, hsafe⟩, hpd.mp fun _ _ => ?_⟩
              cases b <;> simp at e ⊢
            · rintro ⟨-, hm⟩
              have := hpd.mpr hm rfl hfr
              cases b <;> simp at this ⊢
          · rw [if_neg fun e => hfr ((pawn_front k' t hd).mp e)]
            exact ⟨true, rfl, fun _ => ⟨⟨hps, hsafe⟩, hpd.mp fun _ e => absurd e hfr⟩, fun _ => rfl⟩
      · rw [if_neg hpw]
        have hne : hp ≠ .pawn := by rintro rfl; exact hpw rfl
        refine ⟨true, rfl, fun _ => ⟨⟨⟨hh, ht, hd, fun e => absurd e hne⟩, hsafe⟩, ?_⟩, fun _ => rfl⟩
        rintro ⟨t', e, -⟩
        cases e
        exact hne rfl

theorem isLegal_encode_move (h : Consistent p) (hc : CheckOK p) (hq : (absPos p).Regular) (f t : Square) (pro : Bool)
    (hpro : PromotionOK (absPos p) (.move f t pro)) :
    ∃ b, p.isLegal (encode p (.move f t pro)) = some b ∧ (b = true ↔ (absPos p).Legal (.move f t pro)) := by
  obtain ⟨k, hk⟩ := kings_of h hq p.turn
  have hK := h.kingAt hk
  obtain ⟨g1, g2⟩ := sqN_fields (p := p) f t pro
  have f1 : (encode p (.move f t pro)).dst = t.val := (src_eq p f t pro).2.1
  have hpf : (encode p (.move f t pro)).pieceTypeFrom = pieceType (p.piece f) := by
    have hf := C01_board_move_fields p.piece f t pro
    simp only [readBoardMove, Prod.mk.injEq] at hf
    exact hf.2.2.1
  have hlt : (encode p (.move f t pro)).dst < 81 := by rw [f1]; exact t.isLt
  have hsq : (⟨(encode p (.move f t pro)).dst, hlt⟩ : Square) = t := Fin.ext f1
  have hlegal : (absPos p).Legal (.move f t pro) ↔ (absPos p).Safe (.move f t pro) :=
    ⟨fun e => e.1, fun e => ⟨e, by rintro ⟨t', e', -⟩; cases e'⟩⟩
  rw [hlegal]
  unfold isLegal moveIsPseudoLegal
  rw [dif_pos hlt]
  simp only [hsq]
  rw [if_neg (by rw [encode_isDrop]; decide)]
  simp only [g1, hpf]
  rcases hb : (absPos p).board f with _ | ⟨c, kd⟩
  · -- nothing to move
    have hno : ¬ (absPos p).Safe (.move f t pro) := by
      rintro ⟨⟨kd, e, -⟩, -⟩; rw [hb] at e; cases e
    have hz : p.piece f = 0 := by rw [h.code, hb]; rfl
    refine ⟨false, ?_, by simp [hno]⟩
    simp only [hz]
    split
    · rfl
    · rw [if_neg (by decide), if_pos]
      · rfl
      · show (!(zero : Bitboard).isSet t) = true
        simp
  · have hpt := pieceType_at h hb
    rw [hpt]
    rcases eq_or_opp p.turn c with rfl | rfl
    · have hcode : p.piece f = mkPiece p.turn kd.code := by rw [h.code, hb]; rfl
      by_cases hown : (p.byColor p.turn).isSet t = true
      · refine ⟨false, ?_, ?_⟩
        · rw [if_pos (by rw [hown]; simp)]; rfl
        · simp only [Bool.false_eq_true, false_iff]
          rintro ⟨⟨kd', -, -, ht, -⟩, -⟩
          obtain ⟨kd2, e⟩ := (h.color _ _).mp hown
          exact ht kd2 e
      · have ht : ∀ k', (absPos p).board t ≠ some (p.turn, k') := fun k' e => hown ((h.color _ _).mpr ⟨k', e⟩)
        rw [if_neg (by rw [hcode]; simpa using hown), if_neg (by cases kd <;> decide)]
        by_cases hat : (attacksFrom kd.code p.turn f p.occupied).isSet t = true
        · rw [if_neg (by rw [hat]; decide)]
          rw [isSet_attacksFrom, h.occ_fun] at hat
          have hps : (absPos p).Pseudo (.move f t pro) := ⟨kd, hb, hat, ht, (hpro kd hb).1, (hpro kd hb).2⟩
          have hsafe : (absPos p).Safe (.move f t pro) ↔ ¬ ((absPos p).play (.move f t pro)).InCheck p.turn := ⟨fun e => e.2, fun e => ⟨hps, e⟩⟩
          rw [hsafe]
          by_cases hin : p.inCheck = true
          · rw [if_pos hin]
            by_cases hkd : kd = .king
            · subst hkd
              obtain rfl := (hK f).mp hb
              rw [if_pos (show Kind.king.code = PT.King from rfl), Option.map_some]
              refine ⟨_, rfl, ?_⟩
              have hki := king_inCheck (q := absPos p) hK (pro := pro) (attacks_ne hat).symm
              rw [show (absPos p).turn = p.turn from rfl] at hki
              rw [Bool.and_eq_true, isLegal_king h hb, hki, Bool.not_eq_true', ← Bool.not_eq_true, attackersIsAny_iff h]
              have hocc : (p.occupied.clearBit f).isSet = occWithout (absPos p).occ f := by
                funext u
                rw [isSet_clearBit, h.occ]
                unfold occWithout
                by_cases huf : u = f <;> simp [huf]
              rw [hocc]
              refine ⟨fun e => e.1, fun e => ⟨e, ?_⟩⟩
              rintro ⟨s, kd, hs, ha⟩
              exact e ⟨s, kd, hs, attacks_without.mpr (.inl ha)⟩
            · rw [if_neg (by intro e; exact hkd (by cases kd <;> first | rfl | exact absurd e (by decide))), hk]
              obtain ⟨c, e1, e2, e3, e4⟩ := check_target hc hK hin
              have hmi := move_inCheck (q := absPos p) hK (pro := pro) hb hkd ht
              rw [show (absPos p).turn = p.turn from rfl] at hmi
              simp only [e1]
              rw [hmi]
              by_cases h2 : p.st.checkersBB.popFirst.2.isAny = true
              · rw [if_pos h2]
                refine ⟨false, rfl, ?_⟩
                simp only [Bool.false_eq_true, false_iff, not_not]
                obtain ⟨s, hs, hsc⟩ := e3.mp h2
                by_contra hn
                push Not at hn
                have aux : ∀ u, Checker (absPos p) k u → u = t ∨ Between u t k := fun u hu => by
                  by_cases hut : u = t
                  · exact .inl hut
                  · exact .inr (hn u (.inl hu) hut)
                exact two_checkers hs e2 hsc (aux s hs) (aux c e2)
              · rw [if_neg h2, Option.map_some]
                refine ⟨_, rfl, ?_⟩
                rw [Bool.and_eq_true, isSet_or, Bool.or_eq_true, isSet_betweenBB, e4, isLegal_other h hb hkd hk hat ht]
                have hone : ∀ s, Checker (absPos p) k s ↔ s = c := by
                  intro s
                  constructor
                  · intro hs
                    by_contra hsc
                    exact h2 (e3.mpr ⟨s, hs, hsc⟩)
                  · rintro rfl; exact e2
                rw [hone]
                constructor
                · rintro ⟨h3, h4⟩ ⟨s, h5 | h5, h6, h7⟩
                  · rw [(hone s).mp h5] at h6 h7
                    exact h3.elim h7 (fun e => h6 e.symm)
                  · exact h4 ⟨s, h5, h6, h7⟩
                · intro hn
                  push Not at hn
                  constructor
                  · by_cases hct : t = c
                    · exact .inr hct
                    · exact .inl (hn c (.inl e2) (Ne.symm hct))
                  · rintro ⟨s, h5, h6, h7⟩
                    exact h7 (hn s (.inr h5) h6)
          · rw [if_neg hin, Option.map_some, Bool.true_and]
            refine ⟨_, rfl, ?_⟩
            exact isLegal_quiet h hq (fun e => hin (hc.inCheck.mpr e)) hps
        · refine ⟨false, ?_, ?_⟩
          · rw [if_pos (by rw [Bool.not_eq_true'] ; exact Bool.eq_false_iff.mpr hat)]; rfl
          · simp only [Bool.false_eq_true, false_iff]
            rintro ⟨⟨kd', e, ha, -⟩, -⟩
            rw [show (absPos p).turn = p.turn from rfl, hb] at e; cases e
            exact hat (by rw [isSet_attacksFrom, h.occ_fun]; exact ha)
    · have hne : p.piece f ≠ mkPiece p.turn kd.code := by
        rw [h.code, hb]
        show mkPiece p.turn.opp kd.code ≠ _
        cases p.turn <;> cases kd <;> decide
      refine ⟨false, ?_, ?_⟩
      · rw [if_pos (by simp [hne])]; rfl
      · simp only [Bool.false_eq_true, false_iff]
        rintro ⟨⟨kd', e, -⟩, -⟩
        rw [show (absPos p).turn = p.turn from rfl, hb] at e
        simp only [Option.some.injEq, Prod.mk.injEq] at e
        exact opp_ne p.turn e.1

end
end Verif
