import Verif.Lemmas.MateGroups

/-!
Mates by moves: the groups of `mateMoveIn1Ply` for moves next to the king find every mate of their kind.
-/

namespace Verif
open Spec Bitboard Position

/-- A mating move of the piece on `f` that gives check from the next square, or as a knight. -/
structure Contact (p : Position) (k f t : Square) (kd : Kind) (pro : Bool) : Prop where
  stands : (absPos p).board f = some (p.turn, kd)
  safe : (absPos p).Safe (.move f t pro)
  mate : ((absPos p).play (.move f t pro)).Mated
  hits : Attacks p.turn (Pos.arriving kd pro) (fun _ => true) t k

section
variable {p : Position} {k f t : Square} {kd : Kind} {pro : Bool}

theorem Contact.att (c : Contact p k f t kd pro) : Attacks p.turn kd (absPos p).occ f t := by
  obtain ⟨⟨kd', h1, h2, -⟩, -⟩ := c.safe
  have := c.stands
  rw [show (absPos p).turn = p.turn from rfl, this] at h1; cases h1; exact h2

theorem Contact.free (c : Contact p k f t kd pro) : ∀ kd', (absPos p).board t ≠ some (p.turn, kd') := by
  obtain ⟨⟨kd', -, -, h, -⟩, -⟩ := c.safe; exact h

theorem Contact.proOk (c : Contact p k f t kd true) : kd.promoted.isSome = true ∧ (zone p.turn f ∨ zone p.turn t) := by
  obtain ⟨⟨kd', h1, -, -, h, -⟩, -⟩ := c.safe
  have := c.stands
  rw [show (absPos p).turn = p.turn from rfl, this] at h1; cases h1; exact h rfl

theorem Contact.ne (c : Contact p k f t kd pro) : t ≠ k := attacks_ne c.hits

variable (h : Ready p k)
include h

/-- The test of the code on such a move, with the board `bb` and the promotion `pro'` it looks at. -/
theorem Contact.tryHit (c : Contact p k f t kd pro) (hkd : kd ≠ .king) {pro' support knight : Bool} {bb : Bitboard}
    (hkn : knight = true → kd = .knight) (hbb : Within ((absPos p).play (.move f t pro)) p.turn (Pos.arriving kd pro) t k bb)
    (hsup : support = true → StepAt p.turn.opp .king k t) : Hit (p.tryMove k kd.code f t pro' (goldLike kd) support knight bb) :=
  tryMove_complete h hkn c.stands hkd c.safe c.ne c.mate hbb hsup

theorem Contact.target (c : Contact p k f t kd pro) (hadj : StepAt p.turn.opp .king k t) : (p.moveTarget k).isSet t = true :=
  (isSet_moveTarget h t).mpr ⟨c.free, (isSet_king_step _ k t).mpr hadj⟩

theorem Contact.from_ (c : Contact p k f t kd pro) {bb : Bitboard} (e : attacksFrom kd.code p.turn f p.occupied = bb) : bb.isSet t = true := by
  rw [← e, isSet_attacksFrom, h.cons.occ_fun]; exact c.att

/-- The opponent's king is not attacked yet. -/
theorem Ready.unattacked (hf : (absPos p).board f = some (p.turn, kd)) (ha : Attacks p.turn kd (absPos p).occ f k) : False :=
  h.reg.waiting (h.kingAt.inCheck.mpr ⟨f, kd, by rw [opp_opp]; exact ⟨hf, ha⟩⟩)

theorem within_dragonBB {kt : Kind} (hkt : kt = .dragon ∨ kt = .rook) (hf : (absPos p).board f = some (p.turn, kd)) :
    Within ((absPos p).play (.move f t pro)) p.turn kt t k (p.dragonBB k kd.code f t) := by
  refine within_dragon hkt fun u w hw ho => ?_
  have hocc : (p.lift kd.code f false).occupied = p.occupied.xorBit f := by
    show upd (upd p.byType PT.Occupied _) kd.code _ PT.Occupied = _
    unfold upd
    rw [if_neg (code_ne_zero kd).symm, if_pos rfl]; rfl
  rw [hocc, isSet_xor, isSet_xorBit, isSet_setMask, h.cons.occ] at ho
  unfold occWithout
  split
  · rename_i e
    subst e
    rw [h.kingAt.occ] at ho
    by_cases e : w = f
    · subst e
      have := h.kingAt.at
      rw [hf] at this
      simp only [Option.some.injEq, Prod.mk.injEq] at this
      exact absurd this.1 (ne_opp _)
    · simp [e] at ho
  · rename_i hwk
    rw [play_move_occ (q := absPos p) hf]
    unfold occMove
    rw [if_neg (between_ne_left hw)]
    by_cases e : w = f
    · subst e
      have : (absPos p).occ w = true := occ_of_board hf
      rw [this] at ho
      simp [hwk] at ho
    · rw [if_neg e]
      simpa [e, hwk] using ho

theorem mateDragon_hit (c : Contact p k f t .dragon pro) : Hit (p.mateDragon k) := by
  have hpro : pro = false := by
    cases pro
    · rfl
    · exact absurd c.proOk.1 (by decide)
  subst hpro
  have hadj := contact_adj p.turn.opp (by decide) c.hits
  unfold mateDragon
  refine hit_find ((mem_bbOf h.cons .dragon p.turn f).mpr c.stands) (hit_find (a := t) ?_ ?_)
  · rw [(wf_moveTarget p k).and_left.mem_toList, isSet_and, Bool.and_eq_true]
    exact ⟨c.target h hadj, c.from_ h rfl⟩
  · have hw := within_dragonBB (t := t) (pro := false) (kt := .dragon) h (.inl rfl) c.stands
    exact Contact.tryHit (kd := .dragon) (pro' := false) (support := true) (knight := false) h c (by decide) (fun e => by cases e) hw (fun _ => hadj)

theorem mateHorse_hit (c : Contact p k f t .horse pro) : Hit (p.mateHorse k) := by
  have hpro : pro = false := by
    cases pro
    · rfl
    · exact absurd c.proOk.1 (by decide)
  subst hpro
  have hadj := contact_adj p.turn.opp (by decide) c.hits
  unfold mateHorse
  refine hit_find ((mem_bbOf h.cons .horse p.turn f).mpr c.stands) (hit_find (a := t) ?_ ?_)
  · rw [(wf_moveTarget p k).and_left.mem_toList, isSet_and, Bool.and_eq_true]
    exact ⟨c.target h hadj, c.from_ h rfl⟩
  · exact c.tryHit h (by decide) (fun e => by cases e) (within_horse (.inl rfl)) (fun _ => hadj)

theorem rook_try (c : Contact p k f t .rook pro) (hadj : StepAt p.turn.opp .king k t) :
    Hit (p.tryMove k PT.Rook f t true false true false (p.dragonBB k PT.Rook f t)) := by
  have hkt : Pos.arriving .rook pro = .dragon ∨ Pos.arriving .rook pro = .rook := by cases pro <;> decide
  have hw := within_dragonBB (t := t) (pro := pro) h hkt c.stands
  exact Contact.tryHit (kd := .rook) (pro' := true) (support := true) (knight := false) h c (by decide) (fun e => by cases e) hw (fun _ => hadj)

theorem mateRook_hit (c : Contact p k f t .rook pro) : Hit (p.mateRook k) := by
  have hadj := contact_adj p.turn.opp (by cases pro <;> decide) c.hits
  have wb := wf_bbOf h PT.Rook p.turn
  have hb := (isSet_bbOf h .rook p.turn f).mpr c.stands
  have hgo := rook_try h c hadj
  unfold mateRook
  simp only
  by_cases hzf : zone p.turn f
  · refine hit_left (hit_find (a := f) ?_ (hit_find (a := t) ?_ hgo))
    · rw [wb.and_left.mem_toList, isSet_and, Bool.and_eq_true, isSet_tRank123]; exact ⟨hb, hzf⟩
    · rw [(wf_moveTarget p k).and_left.mem_toList, isSet_and, Bool.and_eq_true]
      exact ⟨c.target h hadj, c.from_ h rfl⟩
  · have hnz : (tRank123 p.turn).isSet f = false := by rw [Bool.eq_false_iff, ne_eq, isSet_tRank123]; exact hzf
    refine hit_right (hit_find (a := f) ?_ ?_)
    · rw [wb.andNot.mem_toList, isSet_andNot, Bool.and_eq_true]; exact ⟨hb, by rw [hnz]; rfl⟩
    · have wt : (p.moveTarget k &&& rookAttack f p.occupied &&& (rookStepAttacks k ||| tRank123 p.turn)).WF :=
        (wf_moveTarget p k).and_left.and_left
      by_cases hzt : zone p.turn t
      · have hz := (isSet_tRank123 p.turn t).mpr hzt
        refine hit_left (hit_find (a := t) ?_ hgo)
        rw [wt.and_left.mem_toList, isSet_and, isSet_and, isSet_and, isSet_or, hz, c.target h hadj]
        rw [show (rookAttack f p.occupied).isSet t = true from c.from_ h rfl]; simp
      · have hz : (tRank123 p.turn).isSet t = false := by rw [Bool.eq_false_iff, ne_eq, isSet_tRank123]; exact hzt
        have hpro : pro = false := by
          cases pro
          · rfl
          · exact absurd c.proOk.2 (by simp [hzf, hzt])
        subst hpro
        refine hit_right (hit_find (a := t) ?_ (c.tryHit h (by decide) (fun e => by cases e) within_rook (fun _ => hadj)))
        rw [wt.andNot.mem_toList, isSet_andNot, isSet_and, isSet_and, isSet_or, hz, c.target h hadj, contact_rook c.hits]
        rw [show (rookAttack f p.occupied).isSet t = true from c.from_ h rfl]; simp

theorem mateBishop_hit (c : Contact p k f t .bishop pro) : Hit (p.mateBishop k) := by
  have hkt : Pos.arriving .bishop pro = .horse ∨ Pos.arriving .bishop pro = .bishop := by cases pro <;> decide
  have hadj := contact_adj p.turn.opp (by cases pro <;> decide) c.hits
  have wb := wf_bbOf h PT.Bishop p.turn
  have hb := (isSet_bbOf h .bishop p.turn f).mpr c.stands
  have hgo : Hit (p.tryMove k PT.Bishop f t true false true false (bishopAttackToEdge t ||| kingAttack t)) :=
    c.tryHit h (by decide) (fun e => by cases e) (within_horse hkt) (fun _ => hadj)
  unfold mateBishop
  simp only
  by_cases hzf : zone p.turn f
  · refine hit_left (hit_find (a := f) ?_ (hit_find (a := t) ?_ hgo))
    · rw [wb.and_left.mem_toList, isSet_and, Bool.and_eq_true, isSet_tRank123]; exact ⟨hb, hzf⟩
    · rw [(wf_moveTarget p k).and_left.mem_toList, isSet_and, Bool.and_eq_true]
      exact ⟨c.target h hadj, c.from_ h rfl⟩
  · have hnz : (tRank123 p.turn).isSet f = false := by rw [Bool.eq_false_iff, ne_eq, isSet_tRank123]; exact hzf
    refine hit_right (hit_find (a := f) ?_ ?_)
    · rw [wb.andNot.mem_toList, isSet_andNot, Bool.and_eq_true]; exact ⟨hb, by rw [hnz]; rfl⟩
    · have wt : (p.moveTarget k &&& bishopAttack f p.occupied &&& (bishopStepAttacks k ||| tRank123 p.turn)).WF :=
        (wf_moveTarget p k).and_left.and_left
      by_cases hzt : zone p.turn t
      · have hz := (isSet_tRank123 p.turn t).mpr hzt
        refine hit_left (hit_find (a := t) ?_ hgo)
        rw [wt.and_left.mem_toList, isSet_and, isSet_and, isSet_and, isSet_or, hz, c.target h hadj]
        rw [show (bishopAttack f p.occupied).isSet t = true from c.from_ h rfl]; simp
      · have hz : (tRank123 p.turn).isSet t = false := by rw [Bool.eq_false_iff, ne_eq, isSet_tRank123]; exact hzt
        have hpro : pro = false := by
          cases pro
          · rfl
          · exact absurd c.proOk.2 (by simp [hzf, hzt])
        subst hpro
        refine hit_right (hit_find (a := t) ?_ (c.tryHit h (by decide) (fun e => by cases e) within_bishop (fun _ => hadj)))
        rw [wt.andNot.mem_toList, isSet_andNot, isSet_and, isSet_and, isSet_or, hz, c.target h hadj, contact_bishop c.hits]
        rw [show (bishopAttack f p.occupied).isSet t = true from c.from_ h rfl]; simp

theorem mateGold_hit (hg : goldLike kd = true) (c : Contact p k f t kd pro) : Hit (p.mateGold k) := by
  have hkd : kd ≠ .king := by rintro rfl; revert hg; decide
  have har : Pos.arriving kd pro = kd := by
    cases pro
    · cases kd <;> rfl
    · have := c.proOk.1
      exfalso; revert this hg; cases kd <;> decide
  have hits := c.hits
  rw [har] at hits
  have hadj := contact_adj p.turn.opp (by rintro rfl; revert hg; decide) hits
  have h1 := (back_gold p.turn kd hg k t (fun _ => true)).mpr hits
  have h2 : (goldAttack p.turn.opp t).isSet f = true := (back_gold p.turn kd hg t f (absPos p).occ).mpr c.att
  have h3 : (goldAttack p.turn f).isSet t = true := by
    refine ((C13_steps p.turn f t (absPos p).occ).2.2.2.1 kd ?_).mpr c.att
    cases kd <;> simp [goldLike] at hg ⊢
  have hw : (p.goldsC p.turn &&& goldCheckTable p.turn k).WF := WF.and_left (WF.and_left h.cons.wfGolds)
  unfold mateGold
  simp only
  refine hit_find (a := f) ?_ (hit_find (a := t) ?_ ?_)
  · rw [hw.mem_toList, isSet_and, Bool.and_eq_true, isSet_goldsC h]
    refine ⟨⟨kd, c.stands, hg⟩, ?_⟩
    unfold goldCheckTable
    rw [isSet_andNot, Bool.and_eq_true, isSet_unionOver, isSet_or, isSet_setMask]
    refine ⟨⟨t, (wf_goldAttack _ _).mem_toList t |>.mpr h1, h2⟩, ?_⟩
    have e1 : ¬ f = k := by
      rintro rfl
      have := h.kingAt.at
      rw [c.stands] at this
      simp only [Option.some.injEq, Prod.mk.injEq] at this
      exact ne_opp _ this.1
    have e2 : (goldAttack p.turn.opp k).isSet f = false := by
      rw [Bool.eq_false_iff]
      intro e
      exact h.unattacked c.stands ((back_gold p.turn kd hg k f (absPos p).occ).mp e)
    rw [e2]; simp [e1]
  · rw [(wf_moveTarget p k).and_left.and_left.mem_toList, isSet_and, isSet_and, c.target h hadj, h1, h3]; rfl
  · rw [pieceType_at h.cons c.stands]
    have := c.tryHit h hkd (pro' := false) (support := true) (knight := false) (bb := goldAttack p.turn t) (fun e => by cases e)
      (by rw [har]; exact within_gold hg) (fun _ => hadj)
    rw [hg] at this; exact this

omit h in
theorem rank4_iff (c : Color) (s : Square) : (rankMask (match c with | .black => 3 | .white => 5)).isSet s = true ↔ farRank c s = 3 := by
  have h1 := rank_eq_Y s
  have h4 : rank s < 9 := rank_lt s
  unfold farRank
  cases c
  · show (rankMask 3).isSet s = true ↔ _
    rw [isSet_rankMask ⟨3, by decide⟩ s, decide_eq_true_eq]; simp only; omega
  · show (rankMask 5).isSet s = true ↔ _
    rw [isSet_rankMask ⟨5, by decide⟩ s, decide_eq_true_eq]; simp only; omega

omit h in
theorem home_iff (c : Color) (s : Square) : (inFrontMask c.opp (match c with | .black => 3 | .white => 5)).isSet s = true ↔ 3 < farRank c s := by
  have h1 := rank_eq_Y s
  have h4 : rank s < 9 := rank_lt s
  rw [isSet_inFront c.opp _ (by cases c <;> decide)]
  unfold farRank
  cases c <;> simp only [Color.opp] <;> omega

omit h in
theorem farRank_flip (c : Color) (s : Square) : farRank c.opp s = 8 - farRank c s := by
  unfold farRank; cases c <;> simp [Color.opp]

omit h in
theorem silver_near {c : Color} {occ : Square → Bool} {f t : Square} (ha : Attacks c .silver occ f t) :
    farRank c f ≤ farRank c t + 1 ∧ farRank c t ≤ farRank c f + 1 := by
  have h1 := (C13_steps c f t occ).2.2.1.mpr ha
  rw [isSet_silverAttack, step_iff] at h1
  unfold farRank
  cases c <;> simp [Kind.steps] at h1 ⊢ <;> omega

/-- Silvers that give check by moving are in the table of the code. -/
theorem silver_table (c : Contact p k f t .silver pro) : (silverCheckTable p.turn k).isSet f = true := by
  have h2 : (silverAttack p.turn.opp t).isSet f = true := (back_silver p.turn t f (absPos p).occ).mpr c.att
  have e1 : ¬ f = k := by
    rintro rfl
    have := h.kingAt.at
    rw [c.stands] at this
    simp only [Option.some.injEq, Prod.mk.injEq] at this
    exact ne_opp _ this.1
  have e2 : (silverAttack p.turn.opp k).isSet f = false := by
    rw [Bool.eq_false_iff]
    intro e
    exact h.unattacked c.stands ((back_silver p.turn k f (absPos p).occ).mp e)
  unfold silverCheckTable
  rw [isSet_andNot, isSet_or, isSet_or, isSet_or (setMask k), isSet_setMask, e2]
  simp only [Bool.and_eq_true, Bool.or_eq_true, isSet_unionOver]
  refine ⟨?_, by simp [e1]⟩
  cases pro with
  | false => exact .inl (.inl ⟨t, (wf_silverAttack _ _).mem_toList t |>.mpr ((back_silver p.turn k t (fun _ => true)).mpr c.hits), h2⟩)
  | true =>
    have h1 := (back_gold p.turn .proSilver rfl k t (fun _ => true)).mpr c.hits
    by_cases hzf : zone p.turn f
    · refine .inl (.inr ⟨t, (wf_goldAttack _ _).mem_toList t |>.mpr h1, ?_⟩)
      rw [isSet_and, h2, (isSet_tRank123 _ _).mpr hzf]; rfl
    · have hzt := c.proOk.2.resolve_left hzf
      refine .inr ⟨t, ((wf_goldAttack _ _).and_left).mem_toList t |>.mpr ?_, ?_⟩
      · rw [isSet_and, h1, (isSet_tRank123 _ _).mpr hzt]; rfl
      · rw [isSet_and, h2, Bool.true_and]
        refine rank4_iff _ _ |>.mpr ?_
        have := silver_near c.att
        unfold zone at hzf hzt
        omega

theorem mateSilver_hit (c : Contact p k f t .silver pro) : Hit (p.mateSilver k) := by
  have hadj := contact_adj p.turn.opp (by cases pro <;> decide) c.hits
  have hb := (isSet_bbOf h .silver p.turn f).mpr c.stands
  have htab := silver_table h c
  have wc : (p.bbOf PT.Silver p.turn &&& silverCheckTable p.turn k).WF := (wf_bbOf h _ _).and_left
  have wt := (wf_moveTarget p k).and_left (b := silverAttack p.turn f)
  have htgt := c.target h hadj
  have hfr : (silverAttack p.turn f).isSet t = true := (C13_steps p.turn f t (absPos p).occ).2.2.1.mpr c.att
  have hnear := silver_near c.att
  have hcand : (p.bbOf PT.Silver p.turn &&& silverCheckTable p.turn k).isSet f = true := by
    rw [isSet_and, htab, show (p.bbOf PT.Silver p.turn).isSet f = true from hb]; rfl
  -- the two tests
  have hpro : pro = true ∨ farRank p.turn k < farRank p.turn t → (goldAttack p.turn.opp k).isSet t = true ∧
      Hit (p.tryMove k PT.Silver f t true false true false (goldAttack p.turn t)) := by
    intro e
    cases pro with
    | true =>
      exact ⟨(back_gold p.turn .proSilver rfl k t (fun _ => true)).mpr c.hits,
        Contact.tryHit (kd := .silver) (pro' := true) (support := true) (knight := false) h c (by decide) (fun e => by cases e)
          (within_gold rfl) (fun _ => hadj)⟩
    | false =>
      obtain ⟨g1, g2⟩ := within_silver_gold (q' := (absPos p).play (.move f t false)) c.hits (e.resolve_left (by decide))
      exact ⟨g1, Contact.tryHit (kd := .silver) (pro' := true) (support := true) (knight := false) h c (by decide) (fun e => by cases e)
        g2 (fun _ => hadj)⟩
  have hnon : pro = false → (silverAttack p.turn.opp k).isSet t = true ∧
      Hit (p.tryMove k PT.Silver f t false false true false (silverAttack p.turn t)) := by
    rintro rfl
    exact ⟨(back_silver p.turn k t (fun _ => true)).mpr c.hits,
      Contact.tryHit (kd := .silver) (pro' := false) (support := true) (knight := false) h c (by decide) (fun e => by cases e)
        within_silver (fun _ => hadj)⟩
  unfold mateSilver
  simp only
  by_cases hzf : zone p.turn f
  · refine hit_left (hit_find (a := f) ?_ ?_)
    · rw [wc.and_left.mem_toList, isSet_and, hcand, (isSet_tRank123 _ _).mpr hzf]; rfl
    · by_cases e : pro = true ∨ farRank p.turn k < farRank p.turn t
      · obtain ⟨g1, g2⟩ := hpro e
        refine hit_left (hit_find (a := t) ?_ g2)
        rw [wt.and_left.mem_toList, isSet_and, isSet_and, htgt, hfr, g1]; rfl
      · rw [not_or, Bool.not_eq_true] at e
        obtain ⟨g1, g2⟩ := hnon e.1
        refine hit_right (hit_find (a := t) ?_ g2)
        rw [wt.and_left.andNot.mem_toList, isSet_andNot, isSet_and, isSet_and, htgt, hfr, g1]
        have : (inFrontMask p.turn.opp (rank k)).isSet t = false := by
          rw [Bool.eq_false_iff, ne_eq, inFront_iff, farRank_flip, farRank_flip]; omega
        rw [this]; rfl
  · have hnz : (tRank123 p.turn).isSet f = false := by rw [Bool.eq_false_iff, ne_eq, isSet_tRank123]; exact hzf
    refine hit_right ?_
    by_cases hh : 3 < farRank p.turn f
    · have hp : pro = false := by
        cases pro
        · rfl
        · have := c.proOk.2.resolve_left hzf
          unfold zone at this; omega
      obtain ⟨g1, g2⟩ := hnon hp
      refine hit_left (hit_find (a := f) ?_ (hit_find (a := t) ?_ g2))
      · rw [wc.andNot.and_left.mem_toList, isSet_and, isSet_andNot, hcand, hnz]
        exact (Bool.and_eq_true _ _).mpr ⟨rfl, (home_iff _ _).mpr hh⟩
      · rw [wt.and_left.mem_toList, isSet_and, isSet_and, htgt, hfr, g1]; rfl
    · refine hit_right (hit_find (a := f) ?_ ?_)
      · have : (inFrontMask p.turn.opp (match p.turn with | .black => 3 | .white => 5)).isSet f = false := by
          rw [Bool.eq_false_iff, ne_eq, home_iff]; exact hh
        rw [wc.andNot.andNot.mem_toList, isSet_andNot, isSet_andNot, hcand, hnz]
        exact (Bool.and_eq_true _ _).mpr ⟨rfl, by rw [Bool.not_eq_true']; exact this⟩
      · by_cases e : pro = true
        · obtain ⟨g1, g2⟩ := hpro (.inl e)
          subst e
          refine hit_left (hit_find (a := t) ?_ g2)
          rw [wt.and_left.and_left.mem_toList, isSet_and, isSet_and, isSet_and, htgt, hfr, g1,
            (isSet_tRank123 _ _).mpr (c.proOk.2.resolve_left hzf)]; rfl
        · obtain ⟨g1, g2⟩ := hnon (Bool.eq_false_iff.mpr e)
          refine hit_right (hit_find (a := t) ?_ g2)
          rw [wt.and_left.mem_toList, isSet_and, isSet_and, htgt, hfr, g1]; rfl

end

end Verif
