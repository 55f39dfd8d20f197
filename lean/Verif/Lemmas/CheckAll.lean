import Verif.Lemmas.Through

/-!
The generator of all checking moves leaves out no move that gives check itself.
-/

namespace Verif
open Spec Bitboard Position

theorem attacks_zero {c : Color} {kd : Kind} {occ : Square → Bool} {s t : Square} (h : Attacks c kd occ s t) : Attacks c kd zero.isSet s t := by
  rw [attacks_iff] at h ⊢
  rcases h with h | ⟨h, -⟩
  · exact .inl h
  · exact .inr ⟨h, fun u _ => isSet_zero u⟩

/-- A board move by which the moving piece itself attacks the opposing king. -/
structure Direct (p : Position) (k f t : Square) (pro : Bool) (kd : Kind) : Prop where
  stands : (absPos p).board f = some (p.turn, kd)
  moves : Attacks p.turn kd (absPos p).occ f t
  free : ∀ kd', (absPos p).board t ≠ some (p.turn, kd')
  rules : ProOK p.turn kd f t pro
  hits : Attacks p.turn (Pos.arriving kd pro) (absPos p).occ t k
  not : ¬ Attacks p.turn kd (absPos p).occ f k
  king : (absPos p).occ k = true
  ne : f ≠ k

namespace Direct
variable {p : Position} {k f t : Square} {pro : Bool} {kd : Kind}

theorem occ (d : Direct p k f t pro kd) : (absPos p).occ f = true := by unfold Pos.occ; rw [d.stands]; rfl

theorem own (d : Direct p k f t pro kd) (h : Consistent p) : (~~~p.byColor p.turn).isSet t = true := by
  rw [isSet_not, (not_own_iff h t).mpr d.free]; rfl

theorem code (d : Direct p k f t pro kd) (h : Consistent p) : pieceType (p.piece f) = kd.code := pieceType_at h d.stands

theorem enc (d : Direct p k f t pro kd) (h : Consistent p) :
    encode p (.move f t pro) = if pro = true then genPro p kd.code f t else genMove p kd.code f t := by
  cases pro
  · rw [if_neg (by decide), genMove_eq (d.code h)]; rfl
  · rw [if_pos rfl, genPro_eq (d.code h)]; rfl

theorem reach (d : Direct p k f t pro kd) (h : Consistent p) : (attacksFrom kd.code p.turn f p.occupied).isSet t = true := by
  rw [isSet_attacksFrom, h.occ_fun]; exact d.moves

theorem color (d : Direct p k f t pro kd) (h : Consistent p) : (p.byColor p.turn).isSet f = true := (h.color _ _).mpr ⟨kd, d.stands⟩

theorem zoneT (d : Direct p k f t true kd) (hk : kd = .pawn ∨ kd = .lance ∨ kd = .knight) : zone p.turn t :=
  (zone_forward p.turn hk d.moves).mp (d.rules.1 rfl).2

theorem can (d : Direct p k f t true kd) : (canPromote p.turn t || canPromote p.turn f) = true := by
  rw [canPromote2_iff]; exact (d.rules.1 rfl).2.symm

theorem hits_pro {kd2 : Kind} (d : Direct p k f t true kd) (hk : kd.promoted = some kd2) : Attacks p.turn kd2 (absPos p).occ t k := by
  have := d.hits
  unfold Pos.arriving at this
  rw [if_pos rfl, hk] at this
  exact this

theorem hits_non (d : Direct p k f t false kd) : Attacks p.turn kd (absPos p).occ t k := d.hits

end Direct

section
variable {p : Position} {k f t : Square} {pro : Bool} (h : Consistent p)
include h

theorem back_of (kd : Kind) (t : Square) : (attacksFrom kd.code p.turn.opp k p.occupied).isSet t = true ↔ Attacks p.turn kd (absPos p).occ t k := by
  rw [isSet_attacksFrom, attacks_symm, h.occ_fun]

omit h in
theorem back_zero (c : Color) (kd : Kind) (s t : Square) : (attacksFrom kd.code c s zero).isSet t = true ↔ Attacks c.opp kd zero.isSet t s := by
  rw [isSet_attacksFrom]
  conv_lhs => rw [show c = c.opp.opp from (opp_opp c).symm]
  rw [attacks_symm]

/-- What is in the set of possible checkers. -/
theorem movers_iff {kd : Kind} (hf : (absPos p).board f = some (p.turn, kd)) : (p.checkMovers k).isSet f = true ↔
    (kd = .pawn ∧ (pawnCheckTable p.turn k).isSet f = true) ∨ (kd = .lance ∧ (lanceCheckTable p.turn k).isSet f = true) ∨
    (kd = .knight ∧ (knightCheckTable p.turn k).isSet f = true) ∨ (kd = .silver ∧ (silverCheckTable p.turn k).isSet f = true) ∨
    (goldLike kd = true ∧ (goldCheckTable p.turn k).isSet f = true) ∨ (kd = .bishop ∧ (bishopCheckTable p.turn k).isSet f = true) ∨
    kd = .rook ∨ kd = .dragon ∨ (kd = .horse ∧ (horseCheckTable k).isSet f = true) := by
  obtain ⟨t1, t2, t3, t4, t5, t6, t7, t8, t13, t14⟩ := h.types hf
  have hg : p.golds.isSet f = goldLike kd := by
    rw [Bool.eq_iff_iff, h.golds, hf]
    constructor
    · rintro ⟨c, k', e, hg⟩
      simp only [Option.some.injEq, Prod.mk.injEq] at e
      rw [e.2]; exact hg
    · intro hg; exact ⟨_, _, rfl, hg⟩
  have hc : (p.byColor p.turn).isSet f = true := (h.color _ _).mpr ⟨kd, hf⟩
  unfold checkMovers bbOf2
  simp only [isSet_and, isSet_or, t1, t2, t3, t4, t5, t6, t13, t14, hg, hc, Bool.and_true, Bool.or_eq_true, Bool.and_eq_true, decide_eq_true_eq]
  constructor
  · rintro (((((((a | a) | a) | a) | a) | a) | a) | a)
    · exact .inl ⟨a.1.symm, a.2⟩
    · exact .inr (.inl ⟨a.1.symm, a.2⟩)
    · exact .inr (.inr (.inl ⟨a.1.symm, a.2⟩))
    · exact .inr (.inr (.inr (.inl ⟨a.1.symm, a.2⟩)))
    · exact .inr (.inr (.inr (.inr (.inl a))))
    · exact .inr (.inr (.inr (.inr (.inr (.inl ⟨a.1.symm, a.2⟩)))))
    · rcases a with a | a
      · exact .inr (.inr (.inr (.inr (.inr (.inr (.inl a.symm))))))
      · exact .inr (.inr (.inr (.inr (.inr (.inr (.inr (.inl a.symm)))))))
    · exact .inr (.inr (.inr (.inr (.inr (.inr (.inr (.inr ⟨a.1.symm, a.2⟩)))))))
  · rintro (a | a | a | a | a | a | a | a | a)
    · exact .inl (.inl (.inl (.inl (.inl (.inl (.inl ⟨a.1.symm, a.2⟩))))))
    · exact .inl (.inl (.inl (.inl (.inl (.inl (.inr ⟨a.1.symm, a.2⟩))))))
    · exact .inl (.inl (.inl (.inl (.inl (.inr ⟨a.1.symm, a.2⟩)))))
    · exact .inl (.inl (.inl (.inl (.inr ⟨a.1.symm, a.2⟩))))
    · exact .inl (.inl (.inl (.inr a)))
    · exact .inl (.inl (.inr ⟨a.1.symm, a.2⟩))
    · exact .inl (.inr (.inl a.symm))
    · exact .inl (.inr (.inr a.symm))
    · exact .inr ⟨a.1.symm, a.2⟩

/-! ### Pawns -/

theorem pawn_direct (d : Direct p k f t pro .pawn) : (pawnCheckTable p.turn k).isSet f = true ∧ encode p (.move f t pro) ∈ pawnChecks p true k f := by
  have hm : Attacks p.turn .pawn (absPos p).occ f t := d.moves
  constructor
  · unfold pawnCheckTable
    rw [isSet_andNot, Bool.and_eq_true, isSet_or, Bool.or_eq_true, Bool.not_eq_true', isSet_setMask]
    refine ⟨?_, by simpa using d.ne⟩
    cases pro with
    | false =>
      exact .inl ((isSet_unionOver _ _ _).mpr ⟨t, ((wf_pawnAttack _ _).mem_toList _).mpr ((back_pawn _ _ _ _).mpr d.hits_non),
        (back_pawn _ _ _ _).mpr hm⟩)
    | true =>
      refine .inr ((isSet_unionOver _ _ _).mpr ⟨t, ?_, (back_pawn _ _ _ _).mpr hm⟩)
      rw [((wf_goldAttack _ _).and_left).mem_toList, isSet_and, Bool.and_eq_true, isSet_tRank123]
      exact ⟨(back_gold p.turn .proPawn rfl _ _ _).mpr (d.hits_pro rfl), d.zoneT (.inl rfl)⟩
  · unfold pawnChecks
    refine List.mem_flatMap.mpr ⟨t, ?_, ?_⟩
    · rw [((wf_pawnAttack _ _).and_left).mem_toList, isSet_and, Bool.and_eq_true]
      exact ⟨d.reach h, d.own h⟩
    · cases pro with
      | false =>
        rw [show encode p (.move f t false) = genMove p PT.Pawn f t from d.enc h]
        by_cases hz : canPromote p.turn t = true
        · rw [if_pos hz, if_pos rfl, if_pos ((back_pawn _ _ _ _).mpr d.hits_non)]
          exact List.mem_cons_of_mem _ (List.mem_singleton.mpr rfl)
        · rw [if_neg hz]; exact List.mem_singleton.mpr rfl
      | true =>
        rw [show encode p (.move f t true) = genPro p PT.Pawn f t from d.enc h, if_pos ((canPromote_iff _ _).mpr (d.zoneT (.inl rfl)))]
        exact List.mem_cons_self

/-! ### Knights, silvers, golds -/

theorem knight_direct (d : Direct p k f t pro .knight) :
    (knightCheckTable p.turn k).isSet f = true ∧ encode p (.move f t pro) ∈ knightChecks p k f := by
  have hm := d.moves
  have hr := d.reach h
  have ho := d.own h
  cases pro with
  | false =>
    have hb : (knightAttack p.turn.opp k).isSet t = true := (back_knight _ _ _ _).mpr d.hits_non
    constructor
    · unfold knightCheckTable
      rw [isSet_or, Bool.or_eq_true]
      exact .inl ((isSet_unionOver _ _ _).mpr ⟨t, ((wf_knightAttack _ _).mem_toList _).mpr hb, (back_knight _ _ _ _).mpr hm⟩)
    · unfold knightChecks
      simp only [List.mem_append]
      refine .inl (List.mem_map.mpr ⟨t, ?_, ?_⟩)
      · rw [((wf_knightAttack _ _).and_left.and_left).mem_toList, isSet_and, isSet_and, Bool.and_eq_true, Bool.and_eq_true]
        exact ⟨⟨hb, hr⟩, ho⟩
      · rw [d.enc h]; rfl
  | true =>
    have hb : (goldAttack p.turn.opp k).isSet t = true := (back_gold p.turn .proKnight rfl _ _ _).mpr (d.hits_pro rfl)
    have hz := d.zoneT (.inr (.inr rfl))
    constructor
    · unfold knightCheckTable
      rw [isSet_or, Bool.or_eq_true]
      refine .inr ((isSet_unionOver _ _ _).mpr ⟨t, ?_, (back_knight _ _ _ _).mpr hm⟩)
      rw [((wf_goldAttack _ _).and_left).mem_toList, isSet_and, Bool.and_eq_true, isSet_tRank123]
      exact ⟨hb, hz⟩
    · unfold knightChecks
      simp only [List.mem_append]
      refine .inr (List.mem_flatMap.mpr ⟨t, ?_, ?_⟩)
      · rw [((wf_goldAttack _ _).and_left.and_left).mem_toList, isSet_and, isSet_and, Bool.and_eq_true, Bool.and_eq_true]
        exact ⟨⟨hb, hr⟩, ho⟩
      · rw [if_pos ((canPromote_iff _ _).mpr hz), d.enc h]; exact List.mem_singleton.mpr rfl

omit h in
theorem silver_rank {c : Color} {occ : Square → Bool} {s u : Square} (ha : Attacks c .silver occ s u) : farRank c s ≤ farRank c u + 1 := by
  rcases ha with ⟨d, hd, h1, h2⟩ | ⟨d, hd, -⟩
  · simp only [Kind.steps, List.mem_cons, List.not_mem_nil, or_false] at hd
    unfold farRank
    rcases hd with rfl | rfl | rfl | rfl | rfl <;> cases c <;> simp only [orient] at h1 h2 ⊢ <;> omega
  · simp [Kind.slides] at hd

omit h in
theorem isSet_rank4 (c : Color) (s : Square) : (rankMask (match c with | .black => 3 | .white => 5)).isSet s = true ↔ farRank c s = 3 := by
  have hr := rank_eq_Y s
  cases c
  · have := isSet_rankMask ⟨3, by decide⟩ s
    simp only at this ⊢
    rw [this, decide_eq_true_eq]
    unfold farRank; simp only; omega
  · have := isSet_rankMask ⟨5, by decide⟩ s
    simp only at this ⊢
    rw [this, decide_eq_true_eq]
    unfold farRank; simp only; omega

theorem silver_direct (d : Direct p k f t pro .silver) :
    (silverCheckTable p.turn k).isSet f = true ∧ encode p (.move f t pro) ∈ silverChecks p k f := by
  have hm := d.moves
  have hr := d.reach h
  have ho := d.own h
  have hx : (!(setMask k ||| silverAttack p.turn.opp k).isSet f) = true := by
    rw [Bool.not_eq_true', isSet_or, Bool.or_eq_false_iff]
    refine ⟨by rw [isSet_setMask]; simpa using d.ne, ?_⟩
    rw [Bool.eq_false_iff, ne_eq, back_silver _ _ _ (absPos p).occ]
    exact d.not
  cases pro with
  | false =>
    have hb : (silverAttack p.turn.opp k).isSet t = true := (back_silver _ _ _ _).mpr d.hits_non
    constructor
    · unfold silverCheckTable
      rw [isSet_andNot, hx, Bool.and_true, isSet_or, Bool.or_eq_true, isSet_or, Bool.or_eq_true]
      exact .inl (.inl ((isSet_unionOver _ _ _).mpr ⟨t, ((wf_silverAttack _ _).mem_toList _).mpr hb, (back_silver _ _ _ _).mpr hm⟩))
    · unfold silverChecks
      simp only [List.mem_append]
      refine .inl (List.mem_map.mpr ⟨t, ?_, ?_⟩)
      · rw [((wf_silverAttack _ _).and_left.and_left).mem_toList, isSet_and, isSet_and, Bool.and_eq_true, Bool.and_eq_true]
        exact ⟨⟨hb, hr⟩, ho⟩
      · rw [d.enc h]; rfl
  | true =>
    have hb : (goldAttack p.turn.opp k).isSet t = true := (back_gold p.turn .proSilver rfl _ _ _).mpr (d.hits_pro rfl)
    constructor
    · unfold silverCheckTable
      rw [isSet_andNot, hx, Bool.and_true, isSet_or, Bool.or_eq_true, isSet_or, Bool.or_eq_true]
      by_cases hz : zone p.turn f
      · refine .inl (.inr ((isSet_unionOver _ _ _).mpr ⟨t, ((wf_goldAttack _ _).mem_toList _).mpr hb, ?_⟩))
        rw [isSet_and, Bool.and_eq_true, isSet_tRank123]
        exact ⟨(back_silver _ _ _ _).mpr hm, hz⟩
      · have hzt : zone p.turn t := (d.rules.1 rfl).2.resolve_left hz
        refine .inr ((isSet_unionOver _ _ _).mpr ⟨t, ?_, ?_⟩)
        · rw [((wf_goldAttack _ _).and_left).mem_toList, isSet_and, Bool.and_eq_true, isSet_tRank123]
          exact ⟨hb, hzt⟩
        · rw [isSet_and, Bool.and_eq_true]
          refine ⟨(back_silver _ _ _ _).mpr hm, (isSet_rank4 _ _).mpr ?_⟩
          have := silver_rank hm
          unfold zone at hz hzt
          omega
    · unfold silverChecks
      simp only [List.mem_append]
      refine .inr (List.mem_flatMap.mpr ⟨t, ?_, ?_⟩)
      · rw [((wf_goldAttack _ _).and_left.and_left).mem_toList, isSet_and, isSet_and, Bool.and_eq_true, Bool.and_eq_true]
        exact ⟨⟨hb, hr⟩, ho⟩
      · rw [if_pos d.can, d.enc h]; exact List.mem_singleton.mpr rfl

omit h in
theorem gold_pro {kd : Kind} (hg : goldLike kd = true) : kd.promoted = none := by cases kd <;> first | rfl | exact absurd hg (by decide)

omit h in
theorem Direct.non {kd : Kind} (d : Direct p k f t pro kd) (hk : kd.promoted = none) : pro = false := by
  cases pro
  · rfl
  · have := (d.rules.1 rfl).1
    rw [hk] at this; cases this

omit h in
theorem attack_gold {c : Color} {kd : Kind} (hg : goldLike kd = true) {occ : Square → Bool} {s u : Square} :
    (goldAttack c s).isSet u = true ↔ Attacks c kd occ s u := by
  conv_lhs => rw [show c = c.opp.opp from (opp_opp c).symm]
  rw [back_gold c.opp kd hg s u occ, attacks_symm]

theorem gold_direct {kd : Kind} (hg : goldLike kd = true) (d : Direct p k f t pro kd) :
    (goldCheckTable p.turn k).isSet f = true ∧ encode p (.move f t pro) ∈ goldChecks p k f := by
  obtain rfl := d.non (gold_pro hg)
  have hb : (goldAttack p.turn.opp k).isSet t = true := (back_gold p.turn kd hg _ _ _).mpr d.hits_non
  constructor
  · unfold goldCheckTable
    rw [isSet_andNot, Bool.and_eq_true, Bool.not_eq_true', isSet_or, Bool.or_eq_false_iff]
    refine ⟨(isSet_unionOver _ _ _).mpr ⟨t, ((wf_goldAttack _ _).mem_toList _).mpr hb, (back_gold p.turn kd hg _ _ _).mpr d.moves⟩, ?_, ?_⟩
    · rw [isSet_setMask]; simpa using d.ne
    · rw [Bool.eq_false_iff, ne_eq, back_gold _ kd hg _ _ (absPos p).occ]
      exact d.not
  · unfold goldChecks
    refine List.mem_map.mpr ⟨t, ?_, ?_⟩
    · rw [((wf_goldAttack _ _).and_left.and_left).mem_toList, isSet_and, isSet_and, Bool.and_eq_true, Bool.and_eq_true]
      exact ⟨⟨hb, (attack_gold hg).mpr d.moves⟩, d.own h⟩
    · rw [d.enc h, d.code h]; rfl

end
end Verif
