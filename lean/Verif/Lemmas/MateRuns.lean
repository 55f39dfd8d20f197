import Verif.Lemmas.MateSteps

/-!
Mates by moves of knights, lances and pawns, and all mates next to the king together.
-/

namespace Verif
open Spec Bitboard Position

theorem farRank_bounds (c : Color) (s : Square) : 0 ≤ farRank c s ∧ farRank c s ≤ 8 := by
  unfold farRank Y; cases c <;> simp only <;> omega

section
variable {p : Position} {k f t : Square} {kd : Kind} {pro : Bool} (h : Ready p k)
include h

omit h in
/-- Pieces that only go forwards promote on the square they reach. -/
theorem Contact.zone (c : Contact p k f t kd true) (hk : kd = .pawn ∨ kd = .lance ∨ kd = .knight) : zone p.turn t := by
  have h1 := forward p.turn hk c.att
  rcases c.proOk.2 with e | e
  · unfold Spec.zone at e ⊢; omega
  · exact e

theorem mateKnight_hit (c : Contact p k f t .knight pro) : Hit (p.mateKnight k) := by
  have hb := (isSet_bbOf h .knight p.turn f).mpr c.stands
  have h2 : (knightAttack p.turn.opp t).isSet f = true := (back_knight p.turn t f (absPos p).occ).mpr c.att
  have h3 : (knightAttack p.turn f).isSet t = true := (C13_steps p.turn f t (absPos p).occ).2.1.mpr c.att
  have hfree := (not_own_iff h.cons t).mpr c.free
  have wt : ((p.byColor p.turn).notAnd (knightAttack p.turn f)).WF := (wf_knightAttack _ _).notAnd
  unfold mateKnight
  simp only
  cases pro with
  | true =>
    have h1 := (back_gold p.turn .proKnight rfl k t (fun _ => true)).mpr c.hits
    have hz := (isSet_tRank123 _ _).mpr (c.zone (by simp))
    have hadj := contact_adj p.turn.opp (by decide) c.hits
    refine hit_find (a := f) ?_ (hit_left (hit_find (a := t) ?_ ?_))
    · rw [(wf_bbOf h _ _).and_left.mem_toList, isSet_and, Bool.and_eq_true]
      refine ⟨hb, ?_⟩
      unfold knightCheckTable
      rw [isSet_or, Bool.or_eq_true, isSet_unionOver, isSet_unionOver]
      refine .inr ⟨t, (wf_goldAttack _ _).and_left.mem_toList t |>.mpr ?_, h2⟩
      rw [isSet_and, h1, hz]; rfl
    · rw [wt.and_left.mem_toList, isSet_and, isSet_notAnd, isSet_and, hfree, h3, h1, hz]; rfl
    · exact Contact.tryHit (kd := .knight) (pro' := true) (support := true) (knight := true) h c (by decide) (fun _ => rfl)
        (within_gold rfl) (fun _ => hadj)
  | false =>
    have h1 := (back_knight p.turn k t (fun _ => true)).mpr c.hits
    refine hit_find (a := f) ?_ (hit_right (hit_find (a := t) ?_ ?_))
    · rw [(wf_bbOf h _ _).and_left.mem_toList, isSet_and, Bool.and_eq_true]
      refine ⟨hb, ?_⟩
      unfold knightCheckTable
      rw [isSet_or, Bool.or_eq_true, isSet_unionOver, isSet_unionOver]
      exact .inl ⟨t, (wf_knightAttack _ _).mem_toList t |>.mpr h1, h2⟩
    · rw [wt.and_left.mem_toList, isSet_and, isSet_notAnd, hfree, h3, h1]; rfl
    · exact Contact.tryHit (kd := .knight) (pro' := false) (support := false) (knight := true) h c (by decide) (fun _ => rfl)
        (within_knight c.hits) (fun e => by cases e)

omit h in
theorem pawn_gold_front {c : Color} {t k : Square} (ha : Attacks c .pawn (fun _ => true) t k) : (goldAttack c.opp k).isSet t = true := by
  rw [pawn_attack_iff] at ha
  rw [isSet_goldAttack, step_iff]
  unfold farRank at ha
  cases c <;> simp [Kind.goldSteps, Color.opp] at ha ⊢ <;> omega

omit h in
/-- The squares from which a lance attacks. -/
theorem lance_edge {s u : Square} (ha : Attacks p.turn .lance (absPos p).occ s u) : (lanceAttackToEdge p.turn.opp u).isSet s = true := by
  rw [isSet_lanceEdge]
  have := (attacks_symm p.turn .lance (absPos p).occ u s).mpr ha
  rcases (attacks_iff ..).mp this with ⟨d, hd, -⟩ | e
  · cases hd
  · exact e.1

theorem lance_table (c : Contact p k f t .lance pro) : (lanceCheckTable p.turn k).isSet f = true := by
  have h2 := lance_edge c.att
  have e1 : ¬ f = k := by
    rintro rfl
    have := h.kingAt.at
    rw [c.stands] at this
    simp only [Option.some.injEq, Prod.mk.injEq] at this
    exact ne_opp _ this.1
  have e2 : (pawnAttack p.turn.opp k).isSet f = false := by
    rw [Bool.eq_false_iff]
    intro e
    have := (back_pawn p.turn k f (fun _ => true)).mp e
    exact h.unattacked c.stands ((full_attack (full_lance p.turn this)).1 _)
  unfold lanceCheckTable
  rw [isSet_andNot, isSet_or, isSet_or (setMask k), isSet_setMask, e2]
  simp only [Bool.and_eq_true, Bool.or_eq_true, isSet_unionOver]
  refine ⟨?_, by simp [e1]⟩
  cases pro with
  | true =>
    right
    have h1 := (back_gold p.turn .proLance rfl k t (fun _ => true)).mpr c.hits
    refine ⟨t, (wf_goldAttack _ _).and_left.mem_toList t |>.mpr ?_, h2⟩
    rw [isSet_and, h1, (isSet_tRank123 _ _).mpr (c.zone (by simp))]; rfl
  | false =>
    left
    rw [isSet_lanceEdge]
    have h3 := (isSet_lanceEdge _ _ _).mp h2
    have h4 : SlideLine p.turn.opp .lance k t := by
      rcases (attacks_iff ..).mp ((attacks_symm p.turn .lance (fun _ => true) k t).mpr c.hits) with ⟨d, hd, -⟩ | e
      · cases hd
      · exact e.1
    obtain ⟨d, hd, h3⟩ := h3
    obtain ⟨d', hd', h4⟩ := h4
    have : d = d' := by
      simp [Kind.slides] at hd hd'; rw [hd, hd']
    subst this
    exact ⟨d, hd, line_trans h4 h3⟩

theorem mateLance_hit (c : Contact p k f t .lance pro) : Hit (p.mateLance k) := by
  have hb := (isSet_bbOf h .lance p.turn f).mpr c.stands
  have hadj := contact_adj p.turn.opp (by cases pro <;> decide) c.hits
  have htgt := c.target h hadj
  have hfr : (lanceAttack p.turn f p.occupied).isSet t = true := c.from_ h rfl
  have wt : (p.moveTarget k &&& lanceAttack p.turn f p.occupied).WF := (wf_moveTarget p k).and_left
  unfold mateLance
  simp only
  refine hit_find (a := f) ?_ ?_
  · rw [(wf_bbOf h _ _).and_left.mem_toList, isSet_and, Bool.and_eq_true]
    exact ⟨hb, lance_table h c⟩
  · cases pro with
    | true =>
      have h1 := (back_gold p.turn .proLance rfl k t (fun _ => true)).mpr c.hits
      refine hit_left (hit_find (a := t) ?_ ?_)
      · rw [wt.and_left.mem_toList, isSet_and, isSet_and, isSet_and, htgt, hfr, h1, (isSet_tRank123 _ _).mpr (c.zone (by simp))]; rfl
      · exact Contact.tryHit (kd := .lance) (pro' := true) (support := true) (knight := false) h c (by decide) (fun e => by cases e)
          (within_gold rfl) (fun _ => hadj)
    | false =>
      have hpa : Attacks p.turn .pawn (fun _ => true) t k := contact_lance c.hits
      have hpc := (pawn_attack_iff ..).mp hpa
      have hbd := farRank_bounds p.turn t
      have hbk : backSq p.turn k = t := (backSq_iff _ _ _ (by omega)).mpr hpc
      by_cases hr : 1 < farRank p.turn t
      · refine hit_right ?_
        rw [if_pos, hbk]
        · exact Contact.tryHit (kd := .lance) (pro' := false) (support := true) (knight := false) h c (by decide) (fun e => by cases e)
            within_lance (fun _ => hadj)
        · refine wt.and_left.isAny_iff.mpr ⟨t, ?_⟩
          rw [isSet_and, isSet_and, htgt, hfr, isSet_and, (back_pawn p.turn k t (fun _ => true)).mpr hpa, Bool.true_and, Bool.true_and, Bool.true_and]
          rw [isSet_inFront _ _ (by cases p.turn <;> decide)]
          have h1 := rank_eq_Y t
          have h4 : rank t < 9 := rank_lt t
          unfold farRank at hr
          revert hr
          cases p.turn <;> simp only [Color.opp] <;> omega
      · have hz : Spec.zone p.turn t := by unfold Spec.zone; omega
        refine hit_left (hit_find (a := t) ?_ ?_)
        · rw [wt.and_left.mem_toList, isSet_and, isSet_and, isSet_and, htgt, hfr, pawn_gold_front hpa, (isSet_tRank123 _ _).mpr hz]; rfl
        · refine Contact.tryHit (kd := .lance) (pro' := true) (support := true) (knight := false) h c (by decide) (fun e => by cases e)
            (fun u hst hu => ?_) (fun _ => hadj)
          exfalso
          have h1 := forward p.turn (.inr (.inl rfl)) (show Attacks p.turn .lance _ t u from hu)
          have h2 : X u = X t := by
            rcases (attacks_iff ..).mp hu with ⟨d, hd, -⟩ | ⟨⟨d, hd, n, hn, h3, h4⟩, -⟩
            · cases hd
            · simp [Pos.arriving, Kind.slides] at hd
              subst hd
              revert h3
              cases p.turn <;> simp [orient]
          have h3 := farRank_bounds p.turn u
          have h4 := farRank_bounds p.turn k
          refine king_step_ne hst (sq_ext (by omega) ?_)
          have : farRank p.turn u = farRank p.turn k := by omega
          unfold farRank at this
          revert this
          cases p.turn <;> simp only <;> omega

theorem pawn_pro {t f : Square} (hf : (absPos p).board f = some (p.turn, .pawn)) (ha : Attacks p.turn .pawn (absPos p).occ f t)
    (htgt : (p.moveTarget k).isSet t = true) (hg : (goldAttack p.turn.opp k).isSet t = true) (hz : Spec.zone p.turn t)
    (htry : Hit (p.tryMove k PT.Pawn f t true false true false (goldAttack p.turn t))) : Hit (p.matePawn k) := by
  have hpc := (pawn_attack_iff ..).mp ha
  have hfk : f ≠ k := by
    rintro rfl
    have := h.kingAt.at
    rw [hf] at this
    simp only [Option.some.injEq, Prod.mk.injEq] at this
    exact ne_opp _ this.1
  have hk3 : farRank p.turn k < 3 := by
    by_contra hc
    have h1 := hg
    rw [isSet_goldAttack, step_iff] at h1
    unfold Spec.zone at hz
    apply hfk
    refine sq_ext ?_ ?_
    · unfold farRank at *
      revert h1 hpc hz hc
      cases p.turn <;> simp [Kind.goldSteps, Color.opp] <;> omega
    · unfold farRank at *
      revert h1 hpc hz hc
      cases p.turn <;> simp [Kind.goldSteps, Color.opp] <;> omega
  have wt : (p.moveTarget k &&& goldAttack p.turn.opp k &&& tRank123 p.turn).WF := (wf_moveTarget p k).and_left.and_left
  have hset : ∀ s, (p.moveTarget k &&& goldAttack p.turn.opp k &&& tRank123 p.turn).isSet s = true → Spec.zone p.turn s := by
    intro s hs
    rw [isSet_and, isSet_and] at hs
    simp only [Bool.and_eq_true] at hs
    exact (isSet_tRank123 _ _).mp hs.2
  have hfl : Attacks p.turn.opp .pawn (absPos p).occ t f := by
    rw [attacks_symm]; exact ha
  unfold matePawn
  simp only
  rw [if_pos ((isInFrontOf_iff _ 7 (by decide) k).mpr (by omega)), if_pos ((isInFrontOf_iff _ 3 (by decide) k).mpr (by omega))]
  refine hit_left (hit_find (a := f) ?_ ?_)
  · rw [(wf_bbOf h _ _).and_left.mem_toList, isSet_and, Bool.and_eq_true]
    refine ⟨(isSet_bbOf h .pawn p.turn f).mpr hf, ?_⟩
    rw [(C13_pawn_board p.turn.opp _ wt (fun s hs => ?_) f).1]
    · refine ⟨t, ?_, ?_⟩
      rotate_left
      · rw [pawn_attack_iff] at hfl ⊢; exact hfl
      rw [isSet_and, isSet_and, htgt, hg, (isSet_tRank123 _ _).mpr hz]; rfl
    · have := hset s hs
      unfold Spec.zone farRank at this
      revert this
      cases p.turn <;> simp only [Color.opp] <;> omega
  · rw [frontSq_eq hfl]; exact htry

theorem matePawn_hit (c : Contact p k f t .pawn pro) : Hit (p.matePawn k) := by
  have hadj := contact_adj p.turn.opp (by cases pro <;> decide) c.hits
  have htgt := c.target h hadj
  cases pro with
  | true =>
    exact pawn_pro h c.stands c.att htgt ((back_gold p.turn .proPawn rfl k t (fun _ => true)).mpr c.hits) (c.zone (by simp))
      (Contact.tryHit (kd := .pawn) (pro' := true) (support := true) (knight := false) h c (by decide) (fun e => by cases e)
          (within_gold rfl) (fun _ => hadj))
  | false =>
    have hpa : Attacks p.turn .pawn (fun _ => true) t k := c.hits
    have hpc := (pawn_attack_iff ..).mp hpa
    have hpf := (pawn_attack_iff ..).mp c.att
    have hbf := farRank_bounds p.turn f
    by_cases hr : 1 < farRank p.turn k
    · have hb1 : backSq p.turn k = t := (backSq_iff _ _ _ (by omega)).mpr hpc
      have hb2 : backSq p.turn t = f := (backSq_iff _ _ _ (by omega)).mpr hpf
      unfold matePawn
      simp only
      rw [if_pos ((isInFrontOf_iff _ 7 (by decide) k).mpr (by omega)), hb1, hb2]
      refine hit_right ?_
      rw [if_pos]
      · exact Contact.tryHit (kd := .pawn) (pro' := false) (support := true) (knight := false) h c (by decide) (fun e => by cases e)
          (within_pawn hpa _) (fun _ => hadj)
      · rw [show (p.bbOf PT.Pawn p.turn).isSet f = true from (isSet_bbOf h .pawn p.turn f).mpr c.stands, (not_own_iff h.cons t).mpr c.free]
        rw [show isBehind p.turn 1 7 (rank k) = true from (isBehind_iff p.turn 1 k).mpr (by omega)]; rfl
    · refine pawn_pro h c.stands c.att htgt (pawn_gold_front hpa) (by unfold Spec.zone; omega) ?_
      exact Contact.tryHit (kd := .pawn) (pro' := true) (support := true) (knight := false) h c (by decide) (fun e => by cases e)
        (within_pawn hpa _) (fun _ => hadj)

/-- Every mate by a move next to the king, or by a knight, is found. -/
theorem move_near (c : Contact p k f t kd pro) : AnyNear p k := by
  cases kd with
  | pawn => exact anyNear (matePawn_hit h c) (by simp [nearGroups])
  | lance => exact anyNear (mateLance_hit h c) (by simp [nearGroups])
  | knight => exact anyNear (mateKnight_hit h c) (by simp [nearGroups])
  | silver => exact anyNear (mateSilver_hit h c) (by simp [nearGroups])
  | bishop => exact anyNear (mateBishop_hit h c) (by simp [nearGroups])
  | rook => exact anyNear (mateRook_hit h c) (by simp [nearGroups])
  | horse => exact anyNear (mateHorse_hit h c) (by simp [nearGroups])
  | dragon => exact anyNear (mateDragon_hit h c) (by simp [nearGroups])
  | king =>
    exfalso
    have := c.hits
    rw [arriving_of_king] at this
    have hK : KingAt (absPos p) p.turn f := fun s => ⟨fun e => h.cons.king_unique e c.stands, by rintro rfl; exact c.stands⟩
    exact king_not_attacking h.kingAt c.stands (attacks_ne this).symm hK c.safe.2 _ this
  | gold => exact anyNear (mateGold_hit h rfl c) (by simp [nearGroups])
  | proPawn => exact anyNear (mateGold_hit h rfl c) (by simp [nearGroups])
  | proLance => exact anyNear (mateGold_hit h rfl c) (by simp [nearGroups])
  | proKnight => exact anyNear (mateGold_hit h rfl c) (by simp [nearGroups])
  | proSilver => exact anyNear (mateGold_hit h rfl c) (by simp [nearGroups])

end

end Verif
