import Verif.Lemmas.CheckGen

/-!
The generator of checking moves writes only legal checking moves when the side to move is not in check; in check its moves
need the further test `checkMoveIsEvasion`.
-/

namespace Verif
open Spec Bitboard Position

theorem tRank9_iff (c : Color) (s : Square) : rank s ≠ tRank9 c ↔ farRank c s < 8 := by
  have := rank9_iff c s
  cases c <;> exact this

theorem drop_from (hp : HKind) (t : Square) : (makeDropMove hp.kind.code t.val).pieceTypeFrom = 0 := by
  revert t
  cases hp <;> decide +kernel

section
variable {p : Position} {k : Square} {all : Bool} {f t : Square} {kd : Kind} {m : Move} (h : Consistent p)
include h

theorem alignedChecks_sound (hf : (absPos p).board f = some (p.turn, kd)) (hfk : f ≠ k) (hx : (p.checkMovers k).isSet f = true)
    (hat : Attacks p.turn kd (absPos p).occ f t) (ho : ∀ kd', (absPos p).board t ≠ some (p.turn, kd')) (hl : OnLine f t k)
    (hm : m ∈ alignedChecks p all k f t) : Checking p k m := by
  unfold alignedChecks at hm
  simp only [pieceType_at h hf] at hm
  have gold : goldLike kd = true → m ∈ (if (goldAttack p.turn.opp k &&& goldAttack p.turn f).isSet t = true then [genMove p kd.code f t] else []) →
      Checking p k m := by
    intro hg hm
    split at hm
    · next ht => rw [List.mem_singleton.mp hm]; exact gold_check h hg hf ho ht
    · simp at hm
  cases kd <;> simp only [Kind.code] at hm
  · have hc := pawnTable_sound (movers_pawn h hf hx) hat
    have hp : Attacks p.turn .pawn (absPos p).occ t k := by
      rcases hc with hc | ⟨hc, -⟩
      · exact hc
      · rw [pawn_attack_iff] at hat ⊢
        have hX : X k = X f := by
          obtain ⟨d, hd, hk, ht⟩ := hl
          have hd0 : d.1 = 0 := by
            rcases ht with ⟨n, h1, h2, h3⟩ | ⟨n, h1, h2, h3⟩
            · by_contra hne
              rcases unit_ne hd.1 hne with e | e <;> rw [e] at h2 <;> omega
            · rw [neg_fst] at h2
              by_contra hne
              rcases unit_ne hd.1 hne with e | e <;> rw [e] at h2 <;> omega
          obtain ⟨n, h1, h2, h3⟩ := hk
          rw [hd0] at h2; omega
        have := gold_file hc (by omega)
        rcases this with e | e
        · exact ⟨by omega, by omega⟩
        · exfalso
          have he : farRank p.turn f = farRank p.turn k := by omega
          refine hfk (sq_ext hX.symm ?_)
          unfold farRank at he
          generalize p.turn = c at he
          cases c <;> simp only at he <;> omega
    split at hm
    · split at hm
      · next hz =>
        rw [List.mem_cons] at hm
        rcases hm with rfl | hm
        · refine checking_pro (kd := .pawn) h hf hat ho rfl (.inr ((canPromote_iff _ _).mp hz)) ?_
          rw [← back_gold p.turn .proPawn rfl]
          exact pawn_gold' hp
        · split at hm
          · rw [List.mem_singleton.mp hm]; exact checking_non (kd := .pawn) h hf hat ho hp
          · simp at hm
      · rw [List.mem_singleton.mp hm]; exact checking_non (kd := .pawn) h hf hat ho hp
    · simp at hm
  · simp at hm
  · simp at hm
  · exact silver_check h hf ho hm
  · simp at hm
  · simp at hm
  · exact gold rfl hm
  · simp at hm
  · exact gold rfl hm
  · exact gold rfl hm
  · exact gold rfl hm
  · exact gold rfl hm
  · split at hm
    · next ht =>
      rw [isSet_and, Bool.and_eq_true] at ht
      rw [List.mem_singleton.mp hm]
      exact checking_non (kd := .horse) h hf hat ho (horse_back h ht.1)
    · simp at hm
  · split at hm
    · next ht =>
      rw [isSet_and, Bool.and_eq_true] at ht
      rw [List.mem_singleton.mp hm]
      exact checking_non (kd := .dragon) h hf hat ho (dragon_back h ht.1)
    · simp at hm

variable (hk : p.kingSquare p.turn.opp = some k) (hw : ¬ (absPos p).InCheck p.turn.opp)
include hk hw

theorem uncoverChecks_sound (hf : (absPos p).board f = some (p.turn, kd)) {s : Square} (hp : PinLine (absPos p) p.turn k f s)
    (hm : m ∈ uncoverChecks p all k f) : Checking p k m := by
  have hK := h.kingAt hk
  unfold uncoverChecks at hm
  rw [pieceType_at h hf] at hm
  obtain ⟨t, ht, hm⟩ := List.mem_flatMap.mp hm
  rw [((wf_attacksFrom _ _ _ _).and_left).mem_toList, isSet_and, Bool.and_eq_true] at ht
  have hat := att_of h ht.1
  have ho := own_of h ht.2
  have htk : t ≠ k := by
    rintro rfl
    exact hw (hK.inCheck.mpr ⟨f, kd, by rw [show p.turn.opp.opp = p.turn by cases p.turn <;> rfl]; exact hf,
      by rw [show p.turn.opp.opp = p.turn by cases p.turn <;> rfl]; exact hat⟩)
  have hon := hp.onLine (t := t) hK.occ (fun u hu => Attacks.path hat u hu) htk (attacks_ne hat).symm
  have hal := isAlignedT_iff (b := t) hp.aligned
  by_cases ha : isAlignedT f t k = true
  · rw [if_neg (by rw [ha]; decide)] at hm
    split at hm
    · next hx => exact alignedChecks_sound h hf (between_ne_right hp.btw) hx hat ho (hal.mp ha) hm
    · simp at hm
  · rw [if_pos (by simpa using ha)] at hm
    obtain ⟨pro, e, hpro⟩ := pieceMoves_sound h hf hm
    have hno : ¬ (t = s ∨ Between s t k) := fun e => ha (hal.mpr (hon.mpr e))
    exact ⟨f, t, pro, kd, e, hf, hat, ho, hpro, .inr ⟨s, hp, fun e => hno (.inl e.symm), fun e => hno (.inr e)⟩⟩

theorem boardChecks_sound (hm : m ∈ boardChecks p all k) : Checking p k m := by
  have hK := h.kingAt hk
  unfold boardChecks at hm
  simp only [List.mem_append] at hm
  have wy : (p.discoveredCheckBB true).WF := wf_hiddenCheckers h _ _
  have wx : (p.checkMovers k).WF := (h.wfColor _).and_right
  rcases hm with hm | hm
  · obtain ⟨f, hf, hm⟩ := List.mem_flatMap.mp hm
    rw [wy.mem_toList, isSet_discoveredCheckBB h] at hf
    obtain ⟨k', hk', s, hp, kd, hb⟩ := hf
    rw [hk] at hk'
    cases hk'
    exact uncoverChecks_sound h hk hw hb hp hm
  · obtain ⟨f, hf, hm⟩ := List.mem_flatMap.mp hm
    rw [((wx.or wy).xor wy).mem_toList, isSet_xor, isSet_or] at hf
    have hx : (p.checkMovers k).isSet f = true := by
      revert hf
      cases (p.checkMovers k).isSet f <;> cases (p.discoveredCheckBB true).isSet f <;> simp
    obtain ⟨kd, hb⟩ : ∃ kd, (absPos p).board f = some (p.turn, kd) := by
      unfold checkMovers at hx
      rw [isSet_and, Bool.and_eq_true] at hx
      exact (h.color _ _).mp hx.2
    refine directChecks_sound h hb ?_ hx hm
    rintro rfl
    rw [hK.at] at hb
    simp only [Option.some.injEq, Prod.mk.injEq] at hb
    exact opp_ne p.turn hb.1

/-- A checking move is pseudo-legal and attacks the king. -/
theorem Checking.check (hm : Checking p k m) : ∃ mv, m = encode p mv ∧ (absPos p).Pseudo mv ∧ ((absPos p).play mv).InCheck p.turn.opp ∧
    ¬ (absPos p).PawnDropMate mv ∧ ∃ f t pro, mv = .move f t pro := by
  have hK := h.kingAt hk
  obtain ⟨f, t, pro, kd, e, hf, hat, ho, hpro, hc⟩ := hm
  have hps : (absPos p).Pseudo (.move f t pro) := ⟨kd, hf, hat, ho, hpro.1, hpro.2⟩
  have hg := move_gives (q := absPos p) (pro := pro) hK hw hf hat ho
  refine ⟨.move f t pro, e, hps, ⟨k, ?_, ?_⟩, (by rintro ⟨t', e', -⟩; cases e'), f, t, pro, rfl⟩
  · exact (king_after (pseudo_playable hps hw) k).mpr hK.at
  · rw [show p.turn.opp.opp = p.turn by cases p.turn <;> rfl]
    rcases hc with hc | ⟨s, h1, h2, h3⟩
    · exact ⟨t, (hg t).mpr (.inl ⟨rfl, hc⟩)⟩
    · exact ⟨s, (hg s).mpr (.inr ⟨h1, h3⟩)⟩

theorem drop_check {hp : HKind} (hin : (p.hand p.turn).has hp.code = true) (ht : (absPos p).board t = none)
    (ha : Attacks p.turn hp.kind (absPos p).occ t k) (hn : hp = .pawn → ∀ u, X u = X t → (absPos p).board u ≠ some (p.turn, .pawn))
    (hmate : hp = .pawn → p.isPawnDropCheckMate p.turn t = some false) :
    (absPos p).Pseudo (.drop hp t) ∧ ((absPos p).play (.drop hp t)).InCheck p.turn.opp ∧ ¬ (absPos p).PawnDropMate (.drop hp t) := by
  have hK := h.kingAt hk
  have hps : (absPos p).Pseudo (.drop hp t) := ⟨(has_iff h _ _).mp hin, ht, attack_alive ha, hn⟩
  refine ⟨hps, ⟨k, (king_after (pseudo_playable hps hw) k).mpr hK.at, ?_⟩, (pawnDrop_iff h hk hw hp ht).mp fun e _ => hmate e⟩
  rw [show p.turn.opp.opp = p.turn by cases p.turn <;> rfl]
  exact ⟨t, (drop_gives (q := absPos p) hK hw ht t).mpr ⟨rfl, ha⟩⟩

theorem pawnDropChecks_sound (hin : (p.hand p.turn).has 0 = true) : ∃ l, pawnDropChecks p k = some l ∧ ∀ m ∈ l, ∃ t,
    m = encode p (.drop .pawn t) ∧ (absPos p).Pseudo (.drop .pawn t) ∧ ((absPos p).play (.drop .pawn t)).InCheck p.turn.opp ∧
      ¬ (absPos p).PawnDropMate (.drop .pawn t) := by
  obtain ⟨bb, hbb⟩ : ∃ bb, bb = (p.bbOf PT.Pawn p.turn).toList.foldl clearFile (~~~p.occupied &&& pawnAttack p.turn.opp k) := ⟨_, rfl⟩
  have hwb : bb.WF := by rw [hbb]; exact wf_foldl_clearFile _ (wf_pawnAttack _ _).and_right
  have hmem : ∀ t, bb.isSet t = true → (absPos p).board t = none ∧ Attacks p.turn .pawn (absPos p).occ t k ∧
      ∀ u, X u = X t → (absPos p).board u ≠ some (p.turn, .pawn) := by
    intro t ht
    rw [hbb, isSet_foldl_clearFile, isSet_and, Bool.and_eq_true, empty_iff h, back_pawn _ _ _ (absPos p).occ] at ht
    exact ⟨ht.1.1, ht.1.2, fun u hu e => ht.2 u ((mem_bbOf h .pawn p.turn u).mpr e) hu.symm⟩
  have hone : ∀ t, bb.isSet t = true → farRank p.turn k < 8 ∧ t = backSq p.turn k := by
    intro t ht
    have ha := (pawn_attack_iff _ _ _ _).mp (hmem t ht).2.1
    have hr : farRank p.turn k < 8 := by
      have := Y_bounds t
      unfold farRank at ha ⊢
      generalize p.turn = c at ha ⊢
      cases c <;> simp only at ha ⊢ <;> omega
    exact ⟨hr, ((backSq_iff p.turn t k hr).mpr ⟨ha.1, by omega⟩).symm⟩
  unfold pawnDropChecks
  simp only [← hbb]
  by_cases hr : rank k ≠ tRank9 p.turn
  · rw [if_pos hr]
    by_cases hs : (bb.isSet (backSq p.turn k) && p.piece (backSq p.turn k) == 0) = true
    · rw [if_pos hs]
      rw [Bool.and_eq_true] at hs
      obtain ⟨b, hb⟩ := isMate_isSome hk (backSq p.turn k)
      rw [hb, Option.map_some]
      refine ⟨_, rfl, fun m hm => ?_⟩
      rw [List.mem_append] at hm
      rcases hm with hm | hm
      · cases b with
        | true => simp at hm
        | false =>
          rw [if_pos (by rfl), List.mem_singleton] at hm
          obtain ⟨m1, m2, m3⟩ := hmem _ hs.1
          exact ⟨backSq p.turn k, hm, drop_check h hk hw (hp := .pawn) hin m1 m2 (fun _ => m3) (fun _ => hb)⟩
      · obtain ⟨t, ht, -⟩ := List.mem_map.mp hm
        rw [(hwb.xorBit _).mem_toList, isSet_xorBit] at ht
        exfalso
        by_cases htb : bb.isSet t = true
        · rw [htb, (hone t htb).2] at ht
          simp at ht
        · have : t = backSq p.turn k := by
            by_contra hne
            rw [Bool.eq_false_iff.mpr htb] at ht
            simp [hne] at ht
          rw [this] at htb
          exact htb hs.1
    · rw [if_neg hs]
      refine ⟨_, rfl, fun m hm => ?_⟩
      obtain ⟨t, ht, -⟩ := List.mem_map.mp hm
      rw [hwb.mem_toList] at ht
      exfalso
      apply hs
      rw [← (hone t ht).2, ht, Bool.true_and, beq_iff_eq, piece_zero_iff h]
      exact (hmem t ht).1
  · rw [if_neg hr]
    refine ⟨_, rfl, fun m hm => ?_⟩
    obtain ⟨t, ht, -⟩ := List.mem_map.mp hm
    rw [hwb.mem_toList] at ht
    exact absurd ((tRank9_iff p.turn k).mpr (hone t ht).1) hr

theorem dropChecks_sound {hp : HKind} (hne : hp ≠ .pawn) {bb : Bitboard} (hwb : bb.WF)
    (hbb : ∀ t, bb.isSet t = true → Attacks p.turn hp.kind (absPos p).occ t k) (hm : m ∈ dropChecks p hp.code hp.kind.code bb) :
    ∃ t, m = encode p (.drop hp t) ∧ (absPos p).Pseudo (.drop hp t) ∧ ((absPos p).play (.drop hp t)).InCheck p.turn.opp ∧
      ¬ (absPos p).PawnDropMate (.drop hp t) := by
  unfold dropChecks at hm
  split at hm
  · next hin =>
    obtain ⟨t, ht, rfl⟩ := List.mem_map.mp hm
    rw [hwb.and_right.mem_toList, isSet_and, Bool.and_eq_true, empty_iff h] at ht
    exact ⟨t, rfl, drop_check h hk hw hin ht.1 (hbb t ht.2) (fun e => absurd e hne) (fun e => absurd e hne)⟩
  · simp at hm

theorem dropsCheck_sound : ∃ l, dropsCheck p k = some l ∧ ∀ m ∈ l, ∃ hp t,
    m = encode p (.drop hp t) ∧ (absPos p).Pseudo (.drop hp t) ∧ ((absPos p).play (.drop hp t)).InCheck p.turn.opp ∧
      ¬ (absPos p).PawnDropMate (.drop hp t) := by
  obtain ⟨l, hl, hp⟩ : ∃ l, (if (p.hand p.turn).has 0 then pawnDropChecks p k else some []) = some l ∧ ∀ m ∈ l, ∃ t,
      m = encode p (.drop .pawn t) ∧ (absPos p).Pseudo (.drop .pawn t) ∧ ((absPos p).play (.drop .pawn t)).InCheck p.turn.opp ∧
      ¬ (absPos p).PawnDropMate (.drop .pawn t) := by
    by_cases hin : (p.hand p.turn).has 0 = true
    · rw [if_pos hin]; exact pawnDropChecks_sound h hk hw hin
    · rw [if_neg hin]; exact ⟨[], rfl, by simp⟩
  unfold dropsCheck
  simp only [hl, Option.map_some]
  refine ⟨_, rfl, fun m hm => ?_⟩
  simp only [List.mem_append] at hm
  rcases hm with (((((hm | hm) | hm) | hm) | hm) | hm) | hm
  · obtain ⟨t, r⟩ := hp m hm; exact ⟨_, t, r⟩
  · exact ⟨_, dropChecks_sound h hk hw (hp := .lance) (by decide) (wf_lanceAttack _ _ _)
      (fun t ht => by rw [← h.occ_fun]; exact (back_lance _ _ _ _).mp ht) hm⟩
  · exact ⟨_, dropChecks_sound h hk hw (hp := .knight) (by decide) (wf_knightAttack _ _) (fun t ht => (back_knight _ _ _ _).mp ht) hm⟩
  · exact ⟨_, dropChecks_sound h hk hw (hp := .silver) (by decide) (wf_silverAttack _ _) (fun t ht => (back_silver _ _ _ _).mp ht) hm⟩
  · exact ⟨_, dropChecks_sound h hk hw (hp := .gold) (by decide) (wf_goldAttack _ _) (fun t ht => (back_gold _ .gold rfl _ _ _).mp ht) hm⟩
  · exact ⟨_, dropChecks_sound h hk hw (hp := .bishop) (by decide) (wf_bishopAttack _ _)
      (fun t ht => by rw [← h.occ_fun]; exact (back_bishop _ _ _ _).mp ht) hm⟩
  · exact ⟨_, dropChecks_sound h hk hw (hp := .rook) (by decide) (wf_rookAttack _ _)
      (fun t ht => by rw [← h.occ_fun]; exact (back_rook _ _ _ _).mp ht) hm⟩

/-- Everything in the list is pseudo-legal, attacks the king, passes the test of pins, and is no mate by a dropped pawn. -/
theorem genCheck_sound (all : Bool) : ∃ l, genCheck p all = some l ∧ ∀ m ∈ l, ∃ mv, m = encode p mv ∧ (absPos p).Pseudo mv ∧
    ((absPos p).play mv).InCheck p.turn.opp ∧ ¬ (absPos p).PawnDropMate mv ∧ p.pseudoLegalMoveIsLegal m p.pinnedBB = true := by
  obtain ⟨l, hl, hd⟩ := dropsCheck_sound h hk hw
  unfold genCheck
  simp only [hk, hl, Option.map_some]
  refine ⟨_, rfl, fun m hm => ?_⟩
  rw [List.mem_append] at hm
  rcases hm with hm | hm
  · have := (filterSwap_perm _ _ _ le_rfl).mem_iff.mp hm
    rw [List.mem_filter] at this
    obtain ⟨mv, e, r1, r2, r3, -⟩ := (boardChecks_sound h hk hw this.1).check h hk hw
    exact ⟨mv, e, r1, r2, r3, this.2⟩
  · obtain ⟨hp, t, e, r1, r2, r3⟩ := hd m hm
    exact ⟨_, e, r1, r2, r3, by rw [e]; exact isLegal_drop hp t _⟩

omit hk hw in
/-- In check, the test of an answer to the check together with the test of pins decides whether a pseudo-legal move leaves the
own king safe. -/
theorem evasion_test (hc : CheckOK p) (hq : (absPos p).Regular) (hin : p.inCheck = true) {mv : Mv} (hps : (absPos p).Pseudo mv)
    (hpin : p.pseudoLegalMoveIsLegal (encode p mv) p.pinnedBB = true) :
    ∃ b, p.checkMoveIsEvasion (encode p mv) = some b ∧ (b = true ↔ ¬ ((absPos p).play mv).InCheck p.turn) := by
  obtain ⟨k, hk⟩ := kings_of h hq p.turn
  have hK := h.kingAt hk
  obtain ⟨c, e1, e2, e3, e4⟩ := check_target hc hK hin
  unfold checkMoveIsEvasion
  simp only
  cases mv with
  | drop hp t =>
    obtain ⟨-, f1, f2, f3, -⟩ := drop_fields hp t
    have hdst : sqN (encode p (.drop hp t)).dst = t := by rw [show (encode p (.drop hp t)).dst = t.val from f1, sqN_val]
    have hnk : ¬ (encode p (.drop hp t)).pieceTypeFrom = PT.King := by
      rw [show (encode p (.drop hp t)).pieceTypeFrom = 0 from drop_from hp t]
      decide
    rw [if_neg hnk, hdst, e1]
    have hdrop := drop_inCheck (q := absPos p) hK (h := hp) (t := t) hps.2.1
    rw [show (absPos p).turn = p.turn from rfl] at hdrop
    rw [hdrop]
    by_cases h2 : p.st.checkersBB.popFirst.2.isAny = true
    · rw [if_pos h2]
      refine ⟨false, rfl, ?_⟩
      simp only [Bool.false_eq_true, false_iff, not_not]
      obtain ⟨s, hs, hsc⟩ := e3.mp h2
      by_contra hn
      push Not at hn
      exact two_checkers hs e2 hsc (.inr (hn s hs)) (.inr (hn c e2))
    · rw [if_neg h2, hk]
      refine ⟨_, rfl, ?_⟩
      rw [isSet_or, Bool.or_eq_true, isSet_betweenBB, e4]
      constructor
      · rintro hb ⟨s, hs, hn⟩
        have hsc : s = c := by
          by_contra hsc
          exact h2 (e3.mpr ⟨s, hs, hsc⟩)
        rw [hsc] at hn
        rcases hb with hb | hb
        · exact hn hb
        · obtain ⟨kd, hb, -⟩ := hb
          rw [hps.2.1] at hb; cases hb
      · intro hn
        by_contra hb
        exact hn ⟨c, e2, fun e => hb (.inl e)⟩
  | move f t pro =>
    obtain ⟨kd, hb, hat, ht, -⟩ := hps
    obtain ⟨g1, g2⟩ := sqN_fields (p := p) f t pro
    have hpf : (encode p (.move f t pro)).pieceTypeFrom = pieceType (p.piece f) := by
      have hf := C01_board_move_fields p.piece f t pro
      simp only [readBoardMove, Prod.mk.injEq] at hf
      exact hf.2.2.1
    rw [hpf, pieceType_at h hb, g1, g2]
    by_cases hkd : kd = .king
    · subst hkd
      obtain rfl := (hK f).mp hb
      rw [if_pos (show Kind.king.code = PT.King from rfl)]
      refine ⟨_, rfl, ?_⟩
      have hki := king_inCheck (q := absPos p) hK (pro := pro) (attacks_ne hat).symm
      rw [show (absPos p).turn = p.turn from rfl] at hki
      rw [hki, Bool.not_eq_true', ← Bool.not_eq_true, attackersIsAny_iff h]
      have hocc : (p.occupied.clearBit f).isSet = occWithout (absPos p).occ f := by
        funext u
        rw [isSet_clearBit, h.occ]
        unfold occWithout
        by_cases huf : u = f <;> simp [huf]
      rw [hocc]
    · rw [if_neg (by intro e; exact hkd (by cases kd <;> first | rfl | exact absurd e (by decide))), hk, e1]
      have hmi := move_inCheck (q := absPos p) hK (pro := pro) hb hkd ht
      rw [show (absPos p).turn = p.turn from rfl] at hmi
      rw [hmi]
      rw [isLegal_other h hb hkd hk hat ht] at hpin
      by_cases h2 : p.st.checkersBB.popFirst.2.isAny = true
      · rw [if_pos h2]
        refine ⟨false, rfl, ?_⟩
        simp only [Bool.false_eq_true, false_iff, not_not]
        obtain ⟨s, hs, hsc⟩ := e3.mp h2
        by_contra hn
        push Not at hn
        have aux : ∀ u, Checker (absPos p) k u → u = t ∨ Between u t k := fun u hu => by
          by_cases hut : u = t
          · exact .inl hut
          · exact .inr (hn u (.inl hu) hut)
        exact two_checkers hs e2 hsc (aux s hs) (aux c e2)
      · rw [if_neg h2]
        refine ⟨_, rfl, ?_⟩
        rw [isSet_or, Bool.or_eq_true, isSet_betweenBB, e4]
        have hone : ∀ s, Checker (absPos p) k s ↔ s = c := by
          intro s
          constructor
          · intro hs
            by_contra hsc
            exact h2 (e3.mpr ⟨s, hs, hsc⟩)
          · rintro rfl; exact e2
        rw [hone]
        constructor
        · rintro h3 ⟨s, h5 | h5, h6, h7⟩
          · rw [(hone s).mp h5] at h6 h7
            exact h3.elim h7 (fun e => h6 e.symm)
          · exact hpin ⟨s, h5, h6, h7⟩
        · intro hn
          push Not at hn
          by_cases hct : t = c
          · exact .inr hct
          · exact .inl (hn c (.inl e2) (Ne.symm hct))

end
end Verif
