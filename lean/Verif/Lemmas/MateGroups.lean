import Verif.Lemmas.MateFound

/-!
Every mate by a piece next to the king, or by a knight, is met by one of the first fourteen groups of `mateMoveIn1Ply`.
-/

namespace Verif
open Spec Bitboard Position

/-- The groups for drops and moves next to the king (src/position.cpp:1309-2017), the first of `mateGroups`. -/
def nearGroups (p : Position) (k : Square) : List (Option Move) :=
  [p.mateRookDrop k, p.mateBishopDrop k, p.mateGoldDrop k, p.mateSilverDrop k, p.mateKnightDrop k, p.mateDragon k, p.mateRook k,
   p.mateHorse k, p.mateBishop k, p.mateGold k, p.mateSilver k, p.mateKnight k, p.mateLance k, p.matePawn k]

theorem mateGroups_near (p : Position) (k : Square) : p.mateGroups k = nearGroups p k ++ [p.mateFar k, p.mateDouble k, p.mateDisc k] := rfl

/-- One of the groups returns a move. -/
def AnyNear (p : Position) (k : Square) : Prop := ∃ o ∈ nearGroups p k, Hit o

theorem anyNear {p : Position} {k : Square} {o : Option Move} (h : Hit o) (hm : o ∈ nearGroups p k) : AnyNear p k := ⟨o, hm, h⟩

section
variable {p : Position} {k : Square} (h : Ready p k)
include h

/-! ### Drops -/

section
variable {hp : HKind} {t : Square} (ht : (absPos p).board t = none) (hm : ((absPos p).play (.drop hp t)).Mated)
include ht hm

theorem rookDrop_hit (hin : (p.hand p.turn).has 6 = true) (hs : (rookStepAttacks k).isSet t = true) (hadj : StepAt p.turn.opp .king k t)
    (hbb : Within ((absPos p).play (.drop hp t)) p.turn hp.kind t k (rookAttackToEdge t)) : Hit (p.mateRookDrop k) := by
  unfold mateRookDrop
  simp only
  rw [if_pos hin]
  have hw : (~~~p.occupied &&& rookStepAttacks k).WF := WF.and_right (WF.and_left (wf_goldAttack .black k))
  refine hit_find (a := t) ?_ (tryDrop_complete (hp' := .rook) h ht (king_step_ne hadj) hm hbb (fun _ => hadj))
  rw [hw.mem_toList, isSet_and, Bool.and_eq_true, empty_iff h.cons]
  exact ⟨ht, hs⟩

theorem bishopDrop_hit (hin : (p.hand p.turn).has 5 = true) (hs : (bishopStepAttacks k).isSet t = true) (hadj : StepAt p.turn.opp .king k t)
    (hbb : Within ((absPos p).play (.drop hp t)) p.turn hp.kind t k (bishopAttackToEdge t)) : Hit (p.mateBishopDrop k) := by
  unfold mateBishopDrop
  rw [if_pos hin]
  have hw : (~~~p.occupied &&& bishopStepAttacks k).WF := WF.and_right (WF.and_left (wf_silverAttack .black k))
  refine hit_find (a := t) ?_ (tryDrop_complete (hp' := .bishop) h ht (king_step_ne hadj) hm hbb (fun _ => hadj))
  rw [hw.mem_toList, isSet_and, Bool.and_eq_true, empty_iff h.cons]
  exact ⟨ht, hs⟩

theorem goldDrop_hit (hin : (p.hand p.turn).has 4 = true) (hs : (goldAttack p.turn.opp k).isSet t = true)
    (hr : (p.hand p.turn).has 6 = true → (pawnAttack p.turn k).isSet t = false) (hadj : StepAt p.turn.opp .king k t)
    (hbb : Within ((absPos p).play (.drop hp t)) p.turn hp.kind t k (goldAttack p.turn t)) : Hit (p.mateGoldDrop k) := by
  unfold mateGoldDrop
  simp only
  rw [if_pos hin]
  have hw' : (if (p.hand p.turn).has 6 = true then goldAttack p.turn.opp k ^^^ pawnAttack p.turn k else goldAttack p.turn.opp k).WF := by
    split
    · exact (wf_goldAttack _ _).xor (wf_pawnAttack _ _)
    · exact wf_goldAttack _ _
  refine hit_find (a := t) ?_ (tryDrop_complete (hp' := .gold) h ht (king_step_ne hadj) hm hbb (fun _ => hadj))
  rw [(hw'.and_right).mem_toList, isSet_and, Bool.and_eq_true, empty_iff h.cons]
  refine ⟨ht, ?_⟩
  split
  · rename_i e
    rw [isSet_xor, hs, hr e]; rfl
  · exact hs

end

omit h in
theorem inFront_iff (c : Color) (s t : Square) : (inFrontMask c (rank s)).isSet t = true ↔ farRank c t < farRank c s := by
  have h1 := rank_eq_Y s
  have h2 := rank_eq_Y t
  have h3 : rank s < 9 := rank_lt s
  have h4 : rank t < 9 := rank_lt t
  rw [isSet_inFront c _ h3]
  unfold farRank
  cases c <;> simp only <;> omega

omit h in
/-- Where a silver next to the king stands. -/
theorem silver_where {c : Color} {t k : Square} (hat : Attacks c .silver (fun _ => true) t k) :
    (farRank c k < farRank c t → (goldAndSilverAttacks c.opp k).isSet t = true) ∧ (¬ farRank c k < farRank c t → farRank c t < farRank c k) := by
  have h1 := (C13_steps c t k (fun _ => true)).2.2.1.mpr hat
  rw [isSet_silverAttack, step_iff] at h1
  rw [isSet_goldAndSilver, step_iff]
  unfold farRank
  cases c <;> simp [Kind.steps, Color.opp] at h1 ⊢ <;> omega

theorem silverDrop_own {t : Square} (ht : (absPos p).board t = none) (hm : ((absPos p).play (.drop .silver t)).Mated)
    (hin : (p.hand p.turn).has 3 = true) (hat : Attacks p.turn .silver (fun _ => true) t k)
    (h1 : farRank p.turn k < farRank p.turn t → (p.hand p.turn).has 4 = false)
    (h2 : ¬ farRank p.turn k < farRank p.turn t → (p.hand p.turn).has 5 = false) : Hit (p.mateSilverDrop k) := by
  have hadj := contact_adj p.turn.opp (by decide) hat
  obtain ⟨g1, g2⟩ := silver_where hat
  have hs := (back_silver p.turn k t (fun _ => true)).mpr hat
  have ws := wf_silverAttack p.turn.opp k
  unfold mateSilverDrop
  simp only
  rw [if_pos hin, if_neg]
  · refine hit_find (a := t) ?_ (tryDrop_complete (hp' := .silver) h ht (king_step_ne hadj) hm within_silver (fun _ => hadj))
    split
    · rename_i e
      have hf : ¬ farRank p.turn k < farRank p.turn t := fun hf => by rw [h1 hf] at e; cases e
      have hw : (~~~p.occupied &&& (silverAttack p.turn.opp k &&& inFrontMask p.turn (rank k))).WF := ws.and_left.and_right
      rw [hw.mem_toList, isSet_and, Bool.and_eq_true, empty_iff h.cons, isSet_and, Bool.and_eq_true, inFront_iff]
      exact ⟨ht, hs, g2 hf⟩
    · split
      · rename_i e
        have hf : farRank p.turn k < farRank p.turn t := by
          by_contra hf
          rw [h2 hf] at e; cases e
        have hw : (~~~p.occupied &&& goldAndSilverAttacks p.turn.opp k).WF := by
          refine WF.and_right ?_
          unfold goldAndSilverAttacks
          exact (wf_goldAttack _ _).and_left
        rw [hw.mem_toList, isSet_and, Bool.and_eq_true, empty_iff h.cons]
        exact ⟨ht, g1 hf⟩
      · have hw : (~~~p.occupied &&& silverAttack p.turn.opp k).WF := ws.and_right
        rw [hw.mem_toList, isSet_and, Bool.and_eq_true, empty_iff h.cons]
        exact ⟨ht, hs⟩
  · rw [Bool.and_eq_true]
    rintro ⟨e1, e2⟩
    by_cases hf : farRank p.turn k < farRank p.turn t
    · rw [h1 hf] at e1; cases e1
    · rw [h2 hf] at e2; cases e2

theorem silverDrop_hit {t : Square} (ht : (absPos p).board t = none) (hm : ((absPos p).play (.drop .silver t)).Mated)
    (hin : (p.hand p.turn).has 3 = true) (hat : Attacks p.turn .silver (fun _ => true) t k) : AnyNear p k := by
  have hadj := contact_adj p.turn.opp (by decide) hat
  by_cases hf : farRank p.turn k < farRank p.turn t
  · by_cases hg : (p.hand p.turn).has 4 = true
    · obtain ⟨h1, h2⟩ := within_silver_gold (q' := (absPos p).play (.drop .silver t)) hat hf
      refine anyNear (goldDrop_hit h ht hm hg h1 (fun _ => ?_) hadj h2) (by simp [nearGroups])
      rw [Bool.eq_false_iff]
      intro e
      rw [isSet_pawnAttack, step_iff] at e
      unfold farRank at hf
      revert e hf
      cases p.turn <;> simp [Kind.steps] <;> omega
    · exact anyNear (silverDrop_own h ht hm hin hat (fun _ => Bool.eq_false_iff.mpr hg) (fun e => absurd hf e)) (by simp [nearGroups])
  · by_cases hb : (p.hand p.turn).has 5 = true
    · obtain ⟨h1, h2⟩ := within_silver_bishop (q' := (absPos p).play (.drop .silver t)) hat hf (bishopAttackToEdge t)
      exact anyNear (bishopDrop_hit h ht hm hb h1 hadj h2) (by simp [nearGroups])
    · exact anyNear (silverDrop_own h ht hm hin hat (fun e => absurd e hf) (fun _ => Bool.eq_false_iff.mpr hb)) (by simp [nearGroups])

theorem knightDrop_hit {t : Square} (ht : (absPos p).board t = none) (hm : ((absPos p).play (.drop .knight t)).Mated)
    (hin : (p.hand p.turn).has 2 = true) (hat : Attacks p.turn .knight (fun _ => true) t k) : Hit (p.mateKnightDrop k) := by
  unfold mateKnightDrop
  rw [if_pos hin]
  have hw : (~~~p.occupied &&& knightAttack p.turn.opp k).WF := (wf_knightAttack _ _).and_right
  refine hit_find (a := t) ?_ (tryDrop_complete (hp' := .knight) h ht (attacks_ne hat) hm (within_knight hat) (fun e => by cases e))
  rw [hw.mem_toList, isSet_and, Bool.and_eq_true, empty_iff h.cons]
  exact ⟨ht, (back_knight p.turn k t (fun _ => true)).mpr hat⟩

theorem lanceDrop_hit {t : Square} (ht : (absPos p).board t = none) (hm : ((absPos p).play (.drop .lance t)).Mated)
    (hin : (p.hand p.turn).has 1 = true) (hat : Attacks p.turn .lance (fun _ => true) t k) : Hit (p.mateRookDrop k) := by
  have hadj := contact_adj p.turn.opp (by decide) hat
  by_cases hr : (p.hand p.turn).has 6 = true
  · exact rookDrop_hit h ht hm hr (contact_rook (line_attack p.turn (by decide) rfl hat)) hadj within_lance_rook
  · have hpa := contact_lance hat
    have hpc := (pawn_attack_iff ..).mp hpa
    have hft : farRank p.turn t ≤ 8 := by unfold farRank Y; cases p.turn <;> simp only <;> omega
    have hbk : backSq p.turn k = t := (backSq_iff _ _ _ (by omega)).mpr hpc
    unfold mateRookDrop
    simp only
    rw [if_neg hr, if_pos, hbk, if_pos]
    · exact tryDrop_complete (hp' := .lance) h ht (king_step_ne hadj) hm within_lance (fun _ => hadj)
    · rw [beq_iff_eq, piece_zero_iff h.cons]; exact ht
    · rw [Bool.and_eq_true, isInFrontOf_iff _ 8 (by decide)]
      exact ⟨hin, by omega⟩

/-- Every mate by a drop next to the king, or by dropping a knight, is found or replaced. -/
theorem drop_near {hp : HKind} {t : Square} (hl : (absPos p).Legal (.drop hp t)) (hm : ((absPos p).play (.drop hp t)).Mated)
    (hat : Attacks p.turn hp.kind (fun _ => true) t k) : AnyNear p k := by
  obtain ⟨⟨⟨hin, ht, -⟩, -⟩, hpm⟩ := hl
  have hin := (has_iff h.cons p.turn hp).mpr hin
  cases hp with
  | pawn => exact absurd ⟨t, rfl, hm⟩ hpm
  | lance => exact anyNear (lanceDrop_hit h ht hm hin hat) (by simp [nearGroups])
  | knight => exact anyNear (knightDrop_hit h ht hm hin hat) (by simp [nearGroups])
  | silver => exact silverDrop_hit h ht hm hin hat
  | bishop =>
    exact anyNear (bishopDrop_hit h ht hm hin (contact_bishop hat) (contact_adj _ (by decide) hat) within_bishop) (by simp [nearGroups])
  | rook =>
    exact anyNear (rookDrop_hit h ht hm hin (contact_rook hat) (contact_adj _ (by decide) hat) within_rook) (by simp [nearGroups])
  | gold =>
    have hadj := contact_adj p.turn.opp (kt := .gold) (by decide) hat
    by_cases hr : (p.hand p.turn).has 6 = true ∧ (pawnAttack p.turn k).isSet t = true
    · obtain ⟨h1, h2⟩ := within_gold_rook (q' := (absPos p).play (.drop .gold t)) hr.2
      exact anyNear (rookDrop_hit h ht hm hr.1 h1 hadj h2) (by simp [nearGroups])
    · refine anyNear (goldDrop_hit h ht hm hin ((back_gold p.turn .gold rfl k t (fun _ => true)).mpr hat) (fun e => ?_) hadj (within_gold rfl))
        (by simp [nearGroups])
      rw [Bool.eq_false_iff]
      exact fun e' => hr ⟨e, e'⟩

end

end Verif
