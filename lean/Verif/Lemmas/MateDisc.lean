import Verif.Lemmas.MateDouble

/-!
The group of `mateMoveIn1Ply` that gives check by uncovering a line piece.
-/

namespace Verif
open Spec Bitboard Position

theorem count1s_pos {b : Bitboard} {f : Square} (hf : b.isSet f = true) : count1s (b.p0 ||| b.p1) ≠ 0 := by
  intro h0
  have hlen : count1s (b.p0 ||| b.p1) = (bits (b.p0 ||| b.p1)).length := by unfold count1s bits; exact List.countP_eq_length_filter
  rw [hlen, List.length_eq_zero_iff] at h0
  rw [isSet_eq] at hf
  split at hf
  · have : f.val ∈ bits (b.p0 ||| b.p1) := (mem_bits _ _).mpr (by rw [BitVec.getLsbD_or, hf]; rfl)
    rw [h0] at this; cases this
  · have : f.val - 63 ∈ bits (b.p0 ||| b.p1) := (mem_bits _ _).mpr (by rw [BitVec.getLsbD_or, hf]; simp)
    rw [h0] at this; cases this

/-- The squares in a row up to a square of the board are on the board. -/
theorem at_mid {k S : Square} {d : Dir} {n j : Nat} (hd : IsDir d) (hS : At k d n S) (hj : j ≤ n) : ∃ w, At k d j w := by
  obtain ⟨h1, h2⟩ := hS
  have a1 := X_bounds k; have a2 := X_bounds S; have a3 := Y_bounds k; have a4 := Y_bounds S
  have hx : 0 ≤ X k + (j : Int) * d.1 ∧ X k + (j : Int) * d.1 < 9 := by
    rcases hd.1 with e | e | e <;> rw [e] at h1 ⊢ <;> omega
  have hy : 0 ≤ Y k + (j : Int) * d.2 ∧ Y k + (j : Int) * d.2 < 9 := by
    rcases hd.2.1 with e | e | e <;> rw [e] at h2 ⊢ <;> omega
  obtain ⟨e1, e2⟩ := sqOf_coord hx hy
  exact ⟨_, e1, e2⟩

theorem val_eq (s : Square) : (s.val : Int) = 9 * X s + Y s := by unfold X Y; omega

theorem discStart_at {k src S s2 : Square} {d : Dir} {m n : Nat} (hd : IsDir d) (hm : 1 ≤ m) (hmn : m < n) (hs : At k d m src) (hS : At k d n S)
    (h : discStart k src = some s2) : At k d 1 s2 := by
  unfold discStart at h
  obtain ⟨w, hw⟩ := at_mid hd hS (j := m + 1) (by omega)
  have hn := at_sub (by omega) hs hw
  rw [show m + 1 - m = 1 by omega] at hn
  rw [nextSquare_of hd (line_of_at hm hs) hn] at h
  have h := Option.some.inj h
  obtain ⟨u, hu⟩ := at_mid hd hS (j := 1) (by omega)
  have e : k.val + w.val - src.val = u.val := by
    obtain ⟨a1, a2⟩ := hn
    obtain ⟨b1, b2⟩ := hu
    have v1 := val_eq k; have v2 := val_eq w; have v3 := val_eq src; have v4 := val_eq u
    omega
  simp only [e] at h
  have : sqN u.val = u := by unfold sqN; apply Fin.ext; simp [Fin.ofNat, Nat.mod_eq_of_lt u.isLt]
  rw [this] at h
  rw [← h]; exact hu

section
variable {p : Position} {k : Square} (h : Ready p k)
include h
variable {src S t : Square} {kd : Kind}

/-- `pinnedPieces` finds only pieces pinned after the move. -/
theorem pinnedPieces_sound (hU : Unc p k src S t kd) (pro : Bool) {f : Square} (hft : f ≠ t)
    (hf : (p.pinnedPieces p.turn.opp k src t).isSet f = true) :
    ∃ s, PinLine ((absPos p).play (.move src t pro)) p.turn k f s := by
  have ha := hU.after pro
  unfold pinnedPieces at hf
  simp only [opp_opp] at hf
  have hfold := isSet_foldl_if (fun sq => decide (count1s ((betweenBB k sq &&& (p.occupied &&& ~~~setMask src ||| setMask t)).p0 |||
      (betweenBB k sq &&& (p.occupied &&& ~~~setMask src ||| setMask t)).p1) ≤ 1))
    (fun sq => betweenBB k sq &&& (p.occupied &&& ~~~setMask src ||| setMask t) &&& p.byColor p.turn.opp)
    ((((p.bbOf2 PT.Rook PT.Dragon &&& rookAttackToEdge k) ||| (p.bbOf2 PT.Bishop PT.Horse &&& bishopAttackToEdge k) |||
      (p.byType PT.Lance &&& lanceAttackToEdge p.turn.opp k)) &&& ~~~setMask src &&& p.byColor p.turn)).toList zero f
  simp only [decide_eq_true_eq] at hfold
  rw [hfold] at hf
  rcases hf with hf | ⟨s, hs, hcount, hf⟩
  · simp at hf
  rw [((h.cons.wfColor p.turn).and_right).mem_toList] at hs
  have hpin : ∃ kd', (absPos p).board s = some (p.turn, kd') ∧ SlideLine p.turn kd' s k := by
    rw [← isSet_pinners h.cons]
    simp only [isSet_and, isSet_or, Bool.and_eq_true, Bool.or_eq_true] at hs ⊢
    obtain ⟨⟨h1, -⟩, h2⟩ := hs
    refine ⟨h2, ?_⟩
    rcases h1 with (h1 | h1) | h1
    · exact .inl (.inr h1)
    · exact .inr h1
    · exact .inl (.inl h1)
  have hss : s ≠ src := by
    simp only [isSet_and, isSet_not, isSet_setMask, Bool.and_eq_true, Bool.not_eq_true', decide_eq_false_iff_not] at hs
    exact hs.1.2
  have hset : ∀ u, (betweenBB k s &&& (p.occupied &&& ~~~setMask src ||| setMask t)).isSet u = true ↔
      Between s u k ∧ ((absPos p).play (.move src t pro)).occ u = true := by
    intro u
    rw [isSet_and, Bool.and_eq_true, isSet_betweenBB, ha.occ, isSet_or, isSet_and, isSet_not, isSet_setMask, isSet_setMask, Bool.or_eq_true,
      Bool.and_eq_true, h.cons.occ, between_symm]
    simp only [decide_eq_true_eq, Bool.not_eq_true', decide_eq_false_iff_not, ne_eq, Option.some.injEq]
    constructor
    · rintro ⟨e, e' | e'⟩
      · exact ⟨e, .inr ⟨e'.2, e'.1⟩⟩
      · exact ⟨e, .inl e'⟩
    · rintro ⟨e, e' | e'⟩
      · exact ⟨e, .inr e'⟩
      · exact ⟨e, .inl ⟨e'.2, e'.1⟩⟩
  rw [isSet_and, Bool.and_eq_true] at hf
  obtain ⟨hfb, hfo⟩ := (hset f).mp hf.1
  have hw : (betweenBB k s &&& (p.occupied &&& ~~~setMask src ||| setMask t)).WF := (wf_betweenBB k s).and_left
  have hone : isOneBitMerged (betweenBB k s &&& (p.occupied &&& ~~~setMask src ||| setMask t)) = true := by
    unfold isOneBitMerged
    rw [beq_iff_eq]
    have := count1s_pos hf.1
    omega
  obtain ⟨u, hu, huu⟩ := (isOneBitMerged_iff hw fun u v hu hv => between_not_63 ((hset u).mp hu).1 ((hset v).mp hv).1).mp hone
  have hfu := huu f hf.1
  subst hfu
  obtain ⟨kd', e1, e2⟩ := hpin
  refine ⟨s, ⟨kd', (ha.own s kd').mpr (.inr ⟨fun e => hss (Option.some.inj e), e1⟩), e2⟩, hfb, hfo, fun w hw1 hw2 => huu w ((hset w).mpr ⟨hw1, hw2⟩)⟩

omit h in
/-- The walk has seen every square from `s2` to the uncovered piece. -/
theorem discWalk_true {capPawn : Bool} {pinned slide : Bitboard} {d : Dir} {n : Nat} (hd : IsDir d) (hS : At k d n S)
    (hempty : ∀ j w, 1 ≤ j → j < n → At k d j w → w ≠ src → p.piece w = 0) :
    ∀ (fuel j : Nat) (s1 s2 : Square), 1 ≤ j → At k d (j - 1) s1 → At k d j s2 →
      p.discWalk k src t capPawn pinned slide fuel s1 s2 = true →
      ∀ i w, j ≤ i → i ≤ n → At k d i w → p.canCaptureAvoid p.turn.opp k w t pinned slide = false ∧
        (i < n → p.canPawnDrop p.turn.opp w = false ∧ (capPawn = true → file w ≠ file t)) := by
  intro fuel
  induction fuel with
  | zero => intro j s1 s2 _ _ _ hw; cases hw
  | succ fuel ih =>
    intro j s1 s2 hj h1 h2 hw i w hji hin hwi
    unfold discWalk at hw
    simp only at hw
    split at hw
    · cases hw
    rename_i c1
    rw [Bool.not_eq_true] at c1
    by_cases hjn : j = n
    · obtain rfl : i = j := by omega
      obtain rfl := at_unique hwi h2
      exact ⟨c1, fun hlt => absurd hlt (by omega)⟩
    · have hns : ¬ (s2 ≠ src ∧ p.piece s2 ≠ 0) := fun e => e.2 (hempty j s2 hj (by omega) h2 e.1)
      rw [if_neg hns] at hw
      split at hw
      · cases hw
      rename_i c2
      rw [Bool.or_eq_true, not_or, Bool.not_eq_true, Bool.and_eq_true, beq_iff_eq, not_and] at c2
      by_cases hij : i = j
      · subst hij
        obtain rfl := at_unique hwi h2
        exact ⟨c1, fun _ => c2⟩
      · have hstep : At s1 d 1 s2 := by
          have := at_sub (by omega) h1 h2
          rwa [show j - (j - 1) = 1 by omega] at this
        have hline : Line s1 d s2 := line_of_at (le_refl 1) hstep
        have hmid : ∃ s3, At s2 d 1 s3 := by
          obtain ⟨s3, e⟩ := at_mid hd hS (j := j + 1) (by omega)
          have := at_sub (by omega) h2 e
          rw [show j + 1 - j = 1 by omega] at this
          exact ⟨s3, this⟩
        obtain ⟨s3, h3⟩ := hmid
        rw [nextSquare_of hd hline h3] at hw
        simp only at hw
        exact ih (j + 1) s2 s3 (by omega) (by rw [Nat.add_sub_cancel]; exact h2) (at_add h2 h3) hw i w (by omega) hin hwi

/-- The uncovered piece mates. -/
theorem Unc.disc (hU : Unc p k src S t kd) {pro : Bool} {bb : Bitboard} (hpro : ProOK p.turn kd src t pro) (hpawn : kd ≠ .pawn)
    (hex : (p.hand p.turn.opp).exceptPawnExists = false)
    (hl : leavesLine src t (p.kingSquare p.turn) p.pinnedBB = false)
    (hsup : ((kingAttack k &&& setMask t).isAny && !(p.attackersTo p.turn t p.occupied ^^^ setMask src).isAny) = false)
    (hm : p.discMates k src t bb = true)
    (hbb : ∀ u, bb.isSet u = true → Attacks p.turn (Pos.arriving kd pro) ((p.occupied ^^^ setMask src) ||| setMask t).isSet t u) :
    (absPos p).Legal (.move src t pro) ∧ ((absPos p).play (.move src t pro)).Mated := by
  have ha := hU.after pro
  have htk := hU.tk h
  have hturn : ((absPos p).play (.move src t pro)).turn = p.turn.opp := ha.turn
  refine ⟨h.legal_move hU.board hU.notKing ⟨kd, hU.board, hU.att, hU.free, hpro.1, hpro.2⟩
    (fun k' hk' => leavesLineN_false (knight := false) h hU.board hU.att hU.free hk' hl), ?_⟩
  obtain ⟨d, n, m, hd, hm1, hmn, hs, hS⟩ := pin_line hU.pin
  unfold discMates at hm
  simp only at hm
  split at hm
  · cases hm
  split at hm
  · cases hm
  rename_i c2
  rw [Bool.not_eq_true] at c2
  split at hm
  · cases hm
  rename_i s2 hst
  have h2 := discStart_at hd hm1 hmn hs hS hst
  have hk0 : At k d (1 - 1) k := by unfold At; simp
  have hempty : ∀ j w, 1 ≤ j → j < n → At k d j w → w ≠ src → p.piece w = 0 := by
    intro j w hj hjn hw hne
    rw [piece_zero_iff h.cons]
    by_contra hb
    have hbt : Between S w k := between_symm.mp (between_iff.mpr ⟨d, hd, line_of_at hj hw, line_of_at (n := n - j) (by omega) (at_sub (by omega) hw hS)⟩)
    refine hne (hU.pin.only w hbt ?_)
    unfold Pos.occ
    rcases hbw : (absPos p).board w with _ | x
    · exact absurd hbw hb
    · rfl
  have hwalk := discWalk_true hd hS hempty 9 1 k s2 (le_refl 1) hk0 h2 hm
  have hslide : ∀ w, ((p.occupied ^^^ setMask src) ||| setMask t).isSet w = true ↔ ((absPos p).play (.move src t pro)).occ w = true := by
    intro w
    rw [ha.occ, isSet_or, isSet_xor, isSet_setMask, isSet_setMask, h.cons.occ_fun]
    by_cases e : w = src
    · subst e; simp [occ_of_board hU.board]
    · by_cases e' : w = t <;> simp [e, e']
  have hsq : ∀ v, v = S ∨ Between S v k → ∃ i, 1 ≤ i ∧ i ≤ n ∧ At k d i v ∧ (v ≠ S → i < n) := by
    rintro v (rfl | hv)
    · exact ⟨n, by omega, le_refl n, hS, fun e => absurd rfl e⟩
    · obtain ⟨j, hj, hjn, hv⟩ := between_at hd (by omega) hS hv
      exact ⟨j, hj, by omega, hv, fun _ => hjn⟩
  refine mated_of (ha.king h.kingAt htk) (hU.checker h pro) ?_ ?_ ?_
  · intro u hu hfr
    rw [hturn] at hu hfr
    rw [hturn, opp_opp]
    by_cases hut : u = t
    · subst hut
      have hany : (kingAttack k &&& setMask u).isAny = true := by
        refine ((WF.setMask u).and_right : (kingAttack k &&& setMask u).WF).isAny_iff.mpr ⟨u, ?_⟩
        rw [isSet_and, (isSet_king_step p.turn.opp k u).mpr hu, isSet_setMask]; simp
      rw [hany, Bool.true_and, Bool.not_eq_false'] at hsup
      have hwf : (p.attackersTo p.turn u p.occupied ^^^ setMask src).WF := (wf_attackersTo h.cons _ _ _).xor (WF.setMask src)
      obtain ⟨s, hs⟩ := hwf.isAny_iff.mp hsup
      have hsrc : (p.attackersTo p.turn u p.occupied).isSet src = true := by
        rw [isSet_attackersTo h.cons]; exact ⟨kd, hU.board, by rw [h.cons.occ_fun]; exact hU.att⟩
      rw [isSet_xor, isSet_setMask] at hs
      have hne : s ≠ src := by rintro rfl; rw [hsrc] at hs; simp at hs
      simp only [hne, decide_false, Bool.xor_false] at hs
      obtain ⟨kd', e1, e2⟩ := (isSet_attackersTo h.cons _ _ _ _).mp hs
      refine ⟨s, kd', (ha.own s kd').mpr (.inr ⟨fun e => hne (Option.some.inj e), e1⟩), attacks_mono' (fun w hw ho => ?_) e2⟩
      unfold occWithout at ho
      split at ho
      · cases ho
      · rcases (ha.occ w).mp ho with e | e
        · exact absurd e (between_ne_right hw)
        · rw [h.cons.occ]; exact e.2
    · have hfr' : ∀ kd, (absPos p).board u ≠ some (p.turn.opp, kd) := fun kd e => hfr kd ((ha.them u kd).mpr ⟨hut, e⟩)
      have hor : bb.isSet u = true ∨ (p.aroundAvoid p.turn k src ((p.occupied ^^^ setMask src ||| setMask t) ^^^ setMask k)).isSet u = true := by
        by_contra hcon
        rw [not_or, Bool.not_eq_true, Bool.not_eq_true] at hcon
        have hw : (kingAttack k &&& ~~~(bb ||| p.aroundAvoid p.turn k src ((p.occupied ^^^ setMask src ||| setMask t) ^^^ setMask k) |||
          p.byColor p.turn.opp)).WF := (wf_kingAttack k).and_left
        rw [Bool.eq_false_iff, ne_eq, hw.isAny_iff] at c2
        apply c2
        refine ⟨u, ?_⟩
        have e1 : (p.byColor p.turn.opp).isSet u = false := by
          rw [Bool.eq_false_iff, ne_eq, h.cons.color]; rintro ⟨kd, e⟩; exact hfr' kd e
        have e2 : (kingAttack k).isSet u = true := (isSet_king_step _ k u).mpr hu
        simp only [isSet_and, isSet_not, isSet_or, e1, e2, hcon.1, hcon.2]; decide
      rcases hor with e | e
      · refine ⟨t, _, ha.arrived, attacks_mono (fun w hw => ?_) (hbb u e)⟩
        unfold occWithout at hw
        split at hw
        · cases hw
        · exact (hslide w).mpr hw
      · obtain ⟨s, kd', e1, e2, e3⟩ := aroundAvoid_sound h (by rw [hU.board]; intro e; cases e; exact hpawn rfl) e
        refine ⟨s, kd', (ha.own s kd').mpr (.inr ⟨e2, e1⟩), attacks_mono (fun w hw => ?_) e3⟩
        unfold occWithout at hw
        split at hw
        · cases hw
        · rename_i hwk
          rw [isSet_xor, isSet_setMask, (hslide w).mpr hw]; simp [hwk]
  · intro f v kd' hf hkd' hatt hv
    rw [hturn] at hf hatt
    rw [hturn, opp_opp]
    obtain ⟨hft, hf⟩ := (ha.them f kd').mp hf
    obtain ⟨i, hi1, hin, hvi, -⟩ := hsq v hv
    obtain ⟨e1, e2⟩ := canCaptureAvoid_any h (hwalk i v hi1 hin hvi).1 hf hkd' hft (attacks_mono (fun w hw => (hslide w).mp hw) hatt)
    obtain ⟨s, hs⟩ := pinnedPieces_sound h hU pro hft e1
    refine ⟨s, .inr hs, hs.leaves (attacks_ne hatt).symm ?_⟩
    rw [← isAlignedT_iff hs.aligned, e2]; decide
  · intro hp v hv hps
    exfalso
    obtain ⟨i, hi1, hin, hvi, hlt⟩ := hsq v (.inr hv)
    obtain ⟨e1, e2⟩ := (hwalk i v hi1 hin hvi).2 (hlt (between_ne_left hv))
    refine no_drop h ha hex e1 (fun hb hX => ?_) hp hps
    exfalso
    refine e2 ?_ ?_
    · rw [pieceType_at h.cons hb]; rfl
    · rw [← file_eq_X, ← file_eq_X] at hX; omega

theorem tryDisc_split {pt : Nat} {m : Move} (hb : (absPos p).board src = some (p.turn, kd)) (hkd : kd ≠ .king)
    (hp : PinLine (absPos p) p.turn k src S) (hat : Attacks p.turn kd (absPos p).occ src t)
    (hfree : ∀ kd', (absPos p).board t ≠ some (p.turn, kd')) (hm : p.tryDisc k src pt t = some m) :
    Unc p k src S t kd ∧ leavesLine src t (p.kingSquare p.turn) p.pinnedBB = false ∧
    ((kingAttack k &&& setMask t).isAny && !(p.attackersTo p.turn t p.occupied ^^^ setMask src).isAny) = false ∧
    ((∃ bb, discAttacks p.turn pt src t (p.occupied ^^^ setMask src ||| setMask t) = some bb ∧ p.discMates k src t bb = true ∧
      m = if canPromote2 p.turn src t = true ∧ (!(p.piece src).testBit 3) = true ∧ pt ≠ PT.Gold then genPro p pt src t else genMove p pt src t) ∨
     (pt = PT.Silver ∧ p.discMates k src t (silverAttack p.turn t) = true ∧ m = genMove p PT.Silver src t)) := by
  unfold tryDisc at hm
  simp only at hm
  split at hm
  · cases hm
  rename_i c1
  split at hm
  · cases hm
  rename_i c2
  split at hm
  · cases hm
  split at hm
  · cases hm
  split at hm
  · cases hm
  split at hm
  · cases hm
  rename_i c3
  rw [Bool.not_eq_true] at c1 c2 c3
  refine ⟨⟨hb, hkd, hp, hat, hfree, ?_⟩, c2, c3, ?_⟩
  · rw [← isAlignedT_iff hp.aligned, c1]; decide
  · rcases orElse_found hm with hm | hm
    · left
      split at hm
      · cases hm
      · rename_i bb hbb
        split at hm
        · rename_i hd
          exact ⟨bb, hbb, hd, (Option.some.inj hm).symm⟩
        · cases hm
    · right
      split at hm
      · rename_i hd
        exact ⟨hd.1, hd.2, (Option.some.inj hm).symm⟩
      · cases hm

omit h in
theorem wf_discTargets {bb : Bitboard} (ht : p.discTargets k src = some bb) : bb.WF := by
  unfold discTargets at ht
  simp only at ht
  obtain ⟨r, hr⟩ : ∃ r, r = (!(knightRows p.turn &&& setMask src).isAny) := ⟨_, rfl⟩
  rw [← hr] at ht
  split at ht
  · cases r
    · cases ht; exact (wf_knightAttack _ _).and_left
    · cases ht
  · cases ht; exact wf_silverAttack _ _
  · cases ht; exact (wf_goldAttack _ _).and_left
  · cases ht; exact (wf_goldAttack _ _).and_left
  · cases ht; exact (wf_goldAttack _ _).and_left
  · cases ht; exact (wf_goldAttack _ _).and_left
  · cases ht; exact (wf_goldAttack _ _).and_left
  · cases ht; exact wf_bishopAttack _ _
  · cases ht; exact (wf_horseAttack _ _).and_left
  · cases ht; exact wf_rookAttack _ _
  · cases ht; exact (wf_dragonAttack _ _).and_left
  · cases ht

omit h in
/-- A knight on one of the three ranks looked at jumps into the promotion zone. -/
theorem knight_rows {c : Color} {src t : Square} {occ : Square → Bool}
    (hr : (knightRows c &&& setMask src).isAny = true) (ha : Attacks c .knight occ src t) : zone c t := by
  have key : (∀ s : Square, ((rankMask 2 ||| rankMask 3 ||| rankMask 4) &&& setMask s).isAny = true → Y s ≤ 4) ∧
      (∀ s : Square, ((rankMask 4 ||| rankMask 5 ||| rankMask 6) &&& setMask s).isAny = true → 4 ≤ Y s) := by decide +kernel
  have hfr : farRank c src ≤ 4 := by
    unfold farRank
    cases c
    · exact key.1 src hr
    · have := key.2 src hr
      show 8 - Y src ≤ 4
      omega
  have := (knight_coord ha).2
  unfold zone; omega

theorem discLine_sound {bb : Bitboard} {m : Move} (hex : (p.hand p.turn.opp).exceptPawnExists = false)
    (hb : (absPos p).board src = some (p.turn, kd)) (hkd : kd ≠ .king)
    (hp : PinLine (absPos p) p.turn k src S) (ht : p.discTargets k src = some bb) (hset : bb.isSet t = true)
    (hfree : ∀ kd', (absPos p).board t ≠ some (p.turn, kd')) (hm : p.tryDisc k src (asGold kd.code) t = some m) : Found2 p m := by
  have hpk := pieceType_at h.cons hb
  have hocc : p.occupied.isSet = (absPos p).occ := h.cons.occ_fun
  have hcp : ∀ s t, canPromote2 p.turn s t = true ↔ zone p.turn s ∨ zone p.turn t := canPromote2_iff p.turn
  have hbit : (p.piece src).testBit 3 = kd.code.testBit 3 := by
    rw [← hpk]
    unfold pieceType
    rw [show (16 : Nat) = 2 ^ 4 from rfl, Nat.testBit_mod_two_pow]
    simp
  unfold discTargets at ht
  simp only [hpk] at ht
  have gold : goldLike kd = true → asGold kd.code = 7 → bb = goldAttack p.turn src &&& ~~~goldAttack p.turn.opp k → Found2 p m := by
    intro hg e7 hbb
    rw [hbb, isSet_and, Bool.and_eq_true] at hset
    rw [e7] at hm
    obtain ⟨hU, hl, hs, ⟨bb', hbb', hd, rfl⟩ | ⟨e, -⟩⟩ := tryDisc_split h hb hkd hp (gold_attack hg hset.1) hfree hm
    · rw [if_neg (fun e => e.2.2 rfl)]
      cases hbb'
      obtain ⟨e1, e2⟩ := hU.disc h (pro := false) (proOK_false (dead_gold hg)) (by rintro rfl; cases hg) hex hl hs hd
        (fun u hu => gold_attack hg hu)
      exact ⟨_, e1, e2, .inr ⟨src, t, kd, rfl, hb, hg, rfl⟩⟩
    · cases e
  cases kd with
  | pawn => cases ht
  | lance => cases ht
  | king => exact absurd rfl hkd
  | gold => cases ht; exact gold rfl rfl rfl
  | proPawn => cases ht; exact gold rfl rfl rfl
  | proLance => cases ht; exact gold rfl rfl rfl
  | proKnight => cases ht; exact gold rfl rfl rfl
  | proSilver => cases ht; exact gold rfl rfl rfl
  | knight =>
    change (if _ = true then none else some _) = some bb at ht
    by_cases hr : (knightRows p.turn &&& setMask src).isAny = true
    · rw [if_neg (by rw [hr]; decide)] at ht
      cases ht
      rw [isSet_and, Bool.and_eq_true] at hset
      have hat : Attacks p.turn .knight (absPos p).occ src t := attack_of h (kd := .knight) hset.1
      have hz := knight_rows hr hat
      obtain ⟨hU, hl, hs, ⟨bb', hbb', hd, rfl⟩ | ⟨e, -⟩⟩ := tryDisc_split h hb hkd hp hat hfree hm
      · rw [if_pos ⟨(hcp _ _).mpr (.inr hz), by rw [hbit]; decide, by decide⟩]
        cases hbb'
        obtain ⟨e1, e2⟩ := hU.disc h (pro := true) (proOK_true rfl (.inr hz)) (by decide) hex hl hs hd
          (fun u hu => gold_attack (kd := .proKnight) rfl hu)
        exact ⟨_, e1, e2, .inl (genPro_eq hpk)⟩
      · cases e
    · rw [if_pos (by simpa using hr)] at ht
      cases ht
  | silver =>
    cases ht
    have hat : Attacks p.turn .silver (absPos p).occ src t := attack_of h (kd := .silver) hset
    obtain ⟨hU, hl, hs, ⟨bb', hbb', hd, rfl⟩ | ⟨-, hd, rfl⟩⟩ := tryDisc_split h hb hkd hp hat hfree hm
    · change (if canPromote2 p.turn src t = true then some _ else none) = some bb' at hbb'
      obtain ⟨hz, hbb'⟩ : canPromote2 p.turn src t = true ∧ some (goldAttack p.turn t) = some bb' := by
        split at hbb'
        · exact ⟨by assumption, hbb'⟩
        · cases hbb'
      rw [if_pos ⟨hz, by rw [hbit]; decide, by decide⟩]
      cases hbb'
      obtain ⟨e1, e2⟩ := hU.disc h (pro := true) (proOK_true rfl ((hcp _ _).mp hz)) (by decide) hex hl hs hd
        (fun u hu => gold_attack (kd := .proSilver) rfl hu)
      exact ⟨_, e1, e2, .inl (genPro_eq hpk)⟩
    · obtain ⟨e1, e2⟩ := hU.disc h (pro := false) (proOK_false id) (by decide) hex hl hs hd
        (fun u hu => .inl ((isSet_silverAttack p.turn t u).mp hu))
      exact ⟨_, e1, e2, .inl (genMove_eq hpk)⟩
  | bishop =>
    cases ht
    have hat : Attacks p.turn .bishop (absPos p).occ src t := attack_of h (kd := .bishop) hset
    obtain ⟨hU, hl, hs, ⟨bb', hbb', hd, rfl⟩ | ⟨e, -⟩⟩ := tryDisc_split h hb hkd hp hat hfree hm
    · change some (if canPromote2 p.turn src t = true then _ else _) = some bb' at hbb'
      by_cases hz : canPromote2 p.turn src t = true
      · rw [if_pos ⟨hz, by rw [hbit]; decide, by decide⟩]
        rw [if_pos hz] at hbb'
        cases hbb'
        obtain ⟨e1, e2⟩ := hU.disc h (pro := true) (proOK_true rfl ((hcp _ _).mp hz)) (by decide) hex hl hs hd
          (fun u hu => (isSet_attacksFrom .horse p.turn t u _).mp hu)
        exact ⟨_, e1, e2, .inl (genPro_eq hpk)⟩
      · rw [if_neg (fun e => hz e.1)]
        rw [if_neg hz] at hbb'
        cases hbb'
        obtain ⟨e1, e2⟩ := hU.disc h (pro := false) (proOK_false id) (by decide) hex hl hs hd
          (fun u hu => (isSet_attacksFrom .bishop p.turn t u _).mp hu)
        exact ⟨_, e1, e2, .inl (genMove_eq hpk)⟩
    · cases e
  | rook =>
    cases ht
    have hat : Attacks p.turn .rook (absPos p).occ src t := attack_of h (kd := .rook) hset
    obtain ⟨hU, hl, hs, ⟨bb', hbb', hd, rfl⟩ | ⟨e, -⟩⟩ := tryDisc_split h hb hkd hp hat hfree hm
    · change some (if canPromote2 p.turn src t = true then _ else _) = some bb' at hbb'
      by_cases hz : canPromote2 p.turn src t = true
      · rw [if_pos ⟨hz, by rw [hbit]; decide, by decide⟩]
        rw [if_pos hz] at hbb'
        cases hbb'
        obtain ⟨e1, e2⟩ := hU.disc h (pro := true) (proOK_true rfl ((hcp _ _).mp hz)) (by decide) hex hl hs hd
          (fun u hu => (isSet_attacksFrom .dragon p.turn t u _).mp hu)
        exact ⟨_, e1, e2, .inl (genPro_eq hpk)⟩
      · rw [if_neg (fun e => hz e.1)]
        rw [if_neg hz] at hbb'
        cases hbb'
        obtain ⟨e1, e2⟩ := hU.disc h (pro := false) (proOK_false id) (by decide) hex hl hs hd
          (fun u hu => (isSet_attacksFrom .rook p.turn t u _).mp hu)
        exact ⟨_, e1, e2, .inl (genMove_eq hpk)⟩
    · cases e
  | horse =>
    cases ht
    rw [isSet_and, Bool.and_eq_true] at hset
    have hat : Attacks p.turn .horse (absPos p).occ src t := attack_of h (kd := .horse) hset.1
    obtain ⟨hU, hl, hs, ⟨bb', hbb', hd, rfl⟩ | ⟨e, -⟩⟩ := tryDisc_split h hb hkd hp hat hfree hm
    · rw [if_neg (fun e => by have := e.2.1; rw [hbit] at this; revert this; decide)]
      cases hbb'
      obtain ⟨e1, e2⟩ := hU.disc h (pro := false) (proOK_false id) (by decide) hex hl hs hd
        (fun u hu => (isSet_attacksFrom .horse p.turn t u _).mp hu)
      exact ⟨_, e1, e2, .inl (genMove_eq hpk)⟩
    · cases e
  | dragon =>
    cases ht
    rw [isSet_and, Bool.and_eq_true] at hset
    have hat : Attacks p.turn .dragon (absPos p).occ src t := attack_of h (kd := .dragon) hset.1
    obtain ⟨hU, hl, hs, ⟨bb', hbb', hd, rfl⟩ | ⟨e, -⟩⟩ := tryDisc_split h hb hkd hp hat hfree hm
    · rw [if_neg (fun e => by have := e.2.1; rw [hbit] at this; revert this; decide)]
      cases hbb'
      obtain ⟨e1, e2⟩ := hU.disc h (pro := false) (proOK_false id) (by decide) hex hl hs hd
        (fun u hu => (isSet_attacksFrom .dragon p.turn t u _).mp hu)
      exact ⟨_, e1, e2, .inl (genMove_eq hpk)⟩
    · cases e

theorem mateDisc_sound {m : Move} (hm : p.mateDisc k = some m) : Found2 p m := by
  unfold mateDisc at hm
  split at hm
  · cases hm
  rename_i hex
  rw [Bool.not_eq_true] at hex
  obtain ⟨src, hs, hm⟩ := mem_found hm
  have hwf : (p.discoveredCheckBB true).WF := wf_hiddenCheckers h.cons false true
  rw [hwf.and_left.mem_toList, isSet_and, Bool.and_eq_true] at hs
  obtain ⟨k', e, S, hp, kd, hb⟩ := (isSet_discoveredCheckBB h.cons true src).mp hs.1
  rw [h.king] at e; cases e
  rw [if_pos rfl] at hb
  unfold mateDiscOne at hm
  simp only at hm
  split at hm
  · cases hm
  split at hm
  · cases hm
  rename_i bb hbb
  obtain ⟨t, ht, hm⟩ := mem_found hm
  rw [(wf_discTargets hbb).and_left.mem_toList, isSet_and, Bool.and_eq_true] at ht
  rw [pieceType_at h.cons hb] at hm
  refine discLine_sound h hex hb ?_ hp hbb ht.1 ?_ hm
  · rintro rfl
    unfold discTargets at hbb
    simp only [pieceType_at h.cons hb] at hbb
    cases hbb
  · have := ht.2
    split at this
    · rw [isSet_and, Bool.and_eq_true, isSet_attackersTo h.cons] at this
      obtain ⟨⟨kd', e, -⟩, -⟩ := this
      intro kd'' e'
      rw [e] at e'
      cases hc : p.turn <;> rw [hc] at e' <;> cases e'
    · rw [isSet_and, Bool.and_eq_true, isSet_not, Bool.not_eq_true', not_own_iff h.cons] at this
      exact this.2

end

end Verif
