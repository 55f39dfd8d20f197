import Verif.Lemmas.CheckAll

/-!
The generator of all checking moves and line pieces: nothing is left out.
-/

namespace Verif
open Spec Bitboard Position

theorem orient_diag {c : Color} {d : Dir} (h : d ∈ diag) : orient c d ∈ diag := by
  simp only [diag, List.mem_cons, List.not_mem_nil, or_false] at h
  rcases h with rfl | rfl | rfl | rfl <;> cases c <;> decide

theorem orient_orth {c : Color} {d : Dir} (h : d ∈ orth) : orient c d ∈ orth := by
  simp only [orth, List.mem_cons, List.not_mem_nil, or_false] at h
  rcases h with rfl | rfl | rfl | rfl <;> cases c <;> decide

theorem pawn_lance {c : Color} {occ : Square → Bool} {s t : Square} (ha : Attacks c .pawn occ s t) : Attacks c .lance occ s t := by
  rcases ha with ⟨d, hd, h1⟩ | ⟨d, hd, -⟩
  · exact .inr ⟨d, by simpa [Kind.steps, Kind.slides] using hd, reach_of_at_one h1⟩
  · simp [Kind.slides] at hd

theorem lance_reach {c : Color} {occ : Square → Bool} {s t : Square} (ha : Attacks c .lance occ s t) : Reach occ s (orient c (0, -1)) t := by
  rcases ha with ⟨d, hd, -⟩ | ⟨d, hd, hr⟩
  · simp [Kind.steps] at hd
  · rw [List.mem_singleton.mp hd] at hr; exact hr

section
variable {p : Position} {k f t : Square} {pro : Bool} (h : Consistent p)
include h

theorem soleBlocker_of (hb : Between f t k) (hfree : ∀ u, Between f u k → u ≠ t → (absPos p).occ u = false) (ho : (absPos p).occ t = true)
    (ht : ∀ kd', (absPos p).board t ≠ some (p.turn, kd')) : p.soleBlocker k f = some t := by
  have hw : (betweenBB f k &&& p.occupied).WF := (wf_betweenBB f k).and_left
  have hset : ∀ s, (betweenBB f k &&& p.occupied).isSet s = true ↔ s = t := by
    intro s
    rw [isSet_and, Bool.and_eq_true, isSet_betweenBB, h.occ]
    constructor
    · rintro ⟨h1, h2⟩
      by_contra hne
      rw [hfree s h1 hne] at h2; cases h2
    · rintro rfl; exact ⟨hb, ho⟩
  have hr : Represents (betweenBB f k &&& p.occupied) {t} := (represents_iff _ _).mpr ⟨hw, fun s => by rw [hset]; simp⟩
  have hone : (betweenBB f k &&& p.occupied).isOneBit = true := (C11_isOneBit _ _ hr).1.mpr (by simp)
  have hany : ((betweenBB f k &&& p.occupied) &&& p.byColor p.turn.opp).isAny = true := by
    refine (hw.and_left.isAny_iff).mpr ⟨t, ?_⟩
    rw [isSet_and, Bool.and_eq_true]
    refine ⟨(hset t).mpr rfl, (h.color _ _).mpr ?_⟩
    unfold Pos.occ at ho
    rcases hbt : (absPos p).board t with _ | ⟨c, kd⟩
    · rw [hbt] at ho; cases ho
    · refine ⟨kd, ?_⟩
      have hc : c ≠ p.turn := by rintro rfl; exact ht kd hbt
      rw [show c = p.turn.opp by revert hc; generalize p.turn = x; cases c <;> cases x <;> simp [Color.opp]]
  unfold soleBlocker
  simp only
  rw [if_pos (by rw [hone, hany]; rfl), ← (one_bit hw hone).2 t ((hset t).mpr rfl)]

/-! ### Lances -/

theorem lance_sole (d : Direct p k f t pro .lance) (hr : Reach (absPos p).occ t (orient p.turn (0, -1)) k) : p.soleBlocker k f = some t := by
  obtain ⟨n, hn, h2, p1⟩ := lance_reach d.moves
  obtain ⟨j, hj, h3, p2⟩ := hr
  have hdir : IsDir (orient p.turn (0, -1)) := (isDir_slides .lance (0, -1) (by decide)).orient p.turn
  obtain ⟨a, b, c⟩ := through_free hdir hn hj rfl (at_add h2 h3) h2 p1 p2 (fun e => d.not (.inr ⟨(0, -1), by decide, e⟩))
  exact soleBlocker_of h a b c d.free

theorem lance_direct (d : Direct p k f t pro .lance) :
    (lanceCheckTable p.turn k).isSet f = true ∧ encode p (.move f t pro) ∈ lanceChecks p true k f := by
  have hx : (!(setMask k ||| pawnAttack p.turn.opp k).isSet f) = true := by
    rw [Bool.not_eq_true', isSet_or, Bool.or_eq_false_iff]
    refine ⟨by rw [isSet_setMask]; simpa using d.ne, ?_⟩
    rw [Bool.eq_false_iff, ne_eq, back_pawn _ _ _ (absPos p).occ]
    exact fun e => d.not (pawn_lance e)
  have hline : ∀ {s u : Square}, Attacks p.turn .lance (absPos p).occ s u → X u = X s ∧ farRank p.turn u < farRank p.turn s := by
    intro s u ha
    obtain ⟨n, hn, h1, -⟩ := lance_reach ha
    exact (lance_line_iff _ _ _).mp ⟨(0, -1), by decide, n, hn, h1⟩
  have hft := hline d.moves
  cases pro with
  | false =>
    have htk := hline d.hits_non
    have hs := lance_sole h d (lance_reach d.hits_non)
    constructor
    · unfold lanceCheckTable
      rw [isSet_andNot, hx, Bool.and_true, isSet_or, Bool.or_eq_true]
      refine .inl ?_
      rw [isSet_lanceEdge, lance_line_iff, farRank_opp, farRank_opp]
      omega
    · unfold lanceChecks
      simp only
      rw [if_neg (by rw [not_not]; have e1 := file_eq_X k; have e2 := file_eq_X f; omega), hs, show encode p (.move f t false) = genMove p PT.Lance f t from d.enc h]
      simp only
      by_cases hz : ((pawnAttack p.turn.opp k).isSet t && canPromote p.turn t) = true
      · rw [if_pos hz, if_pos trivial]
        exact List.mem_cons_of_mem _ (List.mem_singleton.mpr rfl)
      · rw [if_neg hz]; exact List.mem_singleton.mpr rfl
  | true =>
    have hg : Attacks p.turn .gold (absPos p).occ t k := (back_gold p.turn .gold rfl _ _ _).mp ((back_gold p.turn .proLance rfl _ _ _).mpr (d.hits_pro rfl))
    have hb : (goldAttack p.turn.opp k).isSet t = true := (back_gold p.turn .gold rfl _ _ _).mpr hg
    have hz := d.zoneT (.inr (.inl rfl))
    constructor
    · unfold lanceCheckTable
      rw [isSet_andNot, hx, Bool.and_true, isSet_or, Bool.or_eq_true]
      refine .inr ((isSet_unionOver _ _ _).mpr ⟨t, ?_, ?_⟩)
      · rw [((wf_goldAttack _ _).and_left).mem_toList, isSet_and, Bool.and_eq_true, isSet_tRank123]
        exact ⟨hb, hz⟩
      · rw [isSet_lanceEdge, lance_line_iff, farRank_opp, farRank_opp]
        omega
    · unfold lanceChecks
      simp only
      rw [show encode p (.move f t true) = genPro p PT.Lance f t from d.enc h]
      by_cases hfile : file k ≠ file f
      · rw [if_pos hfile]
        refine List.mem_flatMap.mpr ⟨t, ?_, ?_⟩
        · rw [((wf_goldAttack _ _).and_left.and_left).mem_toList, isSet_and, isSet_and, Bool.and_eq_true, Bool.and_eq_true]
          exact ⟨⟨hb, d.reach h⟩, d.own h⟩
        · rw [if_pos ((canPromote_iff _ _).mpr hz)]; exact List.mem_singleton.mpr rfl
      · rw [if_neg hfile]
        rw [not_not] at hfile
        have hXk : X k = X f := by rw [← file_eq_X, ← file_eq_X, hfile]
        have hpk : Attacks p.turn .pawn (absPos p).occ t k := by
          rw [pawn_attack_iff]
          rcases gold_file hg (by omega) with e | e
          · exact ⟨by omega, by omega⟩
          · exfalso
            have hne : farRank p.turn f ≠ farRank p.turn k := fun e => d.ne (sq_ext hXk.symm (by
              revert e; unfold farRank; generalize p.turn = c; cases c <;> simp only <;> omega))
            have l1 : SlideLine p.turn .lance f k := (lance_line_iff _ _ _).mpr ⟨hXk, by omega⟩
            have l2 : SlideLine p.turn .lance k t := (lance_line_iff _ _ _).mpr ⟨by omega, by omega⟩
            obtain ⟨d1, hd1, l1⟩ := l1
            obtain ⟨d2, hd2, l2⟩ := l2
            rw [List.mem_singleton.mp hd1] at l1
            rw [List.mem_singleton.mp hd2] at l2
            have := Attacks.path d.moves k (between_iff.mpr ⟨_, (isDir_slides .lance (0, -1) (by decide)).orient p.turn, l1, l2⟩)
            rw [d.king] at this; cases this
        rw [lance_sole h d (lance_reach (pawn_lance hpk))]
        simp only
        rw [if_pos (by rw [Bool.and_eq_true]; exact ⟨(back_pawn _ _ _ _).mpr hpk, (canPromote_iff _ _).mpr hz⟩)]
        exact List.mem_cons_self

/-! ### Bishops and rooks -/

theorem slider_direct {kd kd2 : Kind} {onLine : Bool} {near line reach : Bitboard} (d : Direct p k f t pro kd) (hk : kd.promoted = some kd2) (hwn : near.WF)
    (hne : ∀ t, Attacks p.turn kd2 (absPos p).occ t k → near.isSet t = true)
    (hli : ∀ t, Attacks p.turn kd (absPos p).occ t k → line.isSet t = true) (hre : reach.isSet t = true)
    (hsub : ∀ occ s t, Attacks p.turn kd occ s t → Attacks p.turn kd2 occ s t)
    (hon : onLine = true → p.soleBlocker k f = some t) : encode p (.move f t pro) ∈ sliderChecks p true kd.code onLine near line reach k f := by
  have hn : near.isSet t = true := by
    refine hne t ?_
    cases pro with
    | false => exact hsub _ _ _ d.hits_non
    | true => exact d.hits_pro hk
  unfold sliderChecks
  simp only
  by_cases hl : onLine = true
  · rw [if_neg (by rw [hl]; decide), hon hl]
    simp only
    cases pro with
    | false =>
      rw [show encode p (.move f t false) = genMove p kd.code f t from d.enc h]
      split
      · rw [if_pos trivial]; exact List.mem_cons_of_mem _ (List.mem_singleton.mpr rfl)
      · exact List.mem_singleton.mpr rfl
    | true =>
      rw [show encode p (.move f t true) = genPro p kd.code f t from d.enc h, if_pos d.can]
      exact List.mem_cons_self
  · rw [if_pos (by simpa using hl)]
    refine List.mem_flatMap.mpr ⟨t, ?_, ?_⟩
    · rw [(hwn.and_left.and_left).mem_toList, isSet_and, isSet_and, Bool.and_eq_true, Bool.and_eq_true]
      exact ⟨⟨hn, hre⟩, d.own h⟩
    · cases pro with
      | false =>
        rw [show encode p (.move f t false) = genMove p kd.code f t from d.enc h, if_pos trivial, if_pos (hli t d.hits_non)]
        split
        · exact List.mem_cons_of_mem _ (List.mem_singleton.mpr rfl)
        · exact List.mem_singleton.mpr rfl
      | true =>
        rw [show encode p (.move f t true) = genPro p kd.code f t from d.enc h, if_pos d.can]
        exact List.mem_cons_self

omit h in
theorem diag_dir (hs : sameDiagonal k f = true) (hne : f ≠ k) : ∃ d ∈ diag, ∃ m : Nat, 1 ≤ m ∧ At f d m k := by
  obtain ⟨d, hd, m, hm, ha⟩ := diagonal_line (c := .black) hs hne
  exact ⟨_, orient_diag hd, m, hm, ha⟩

omit h in
theorem cross_dir (hs : sameCross k f = true) (hne : f ≠ k) : ∃ d ∈ orth, ∃ m : Nat, 1 ≤ m ∧ At f d m k := by
  obtain ⟨d, hd, m, hm, ha⟩ := cross_line (c := .black) hs hne
  exact ⟨_, orient_orth hd, m, hm, ha⟩

omit h in
theorem bishop_iff {c : Color} {occ : Square → Bool} {s u : Square} : Attacks c .bishop occ s u ↔ ∃ e ∈ diag, Reach occ s e u := by
  constructor
  · rintro (⟨d, hd, -⟩ | ⟨d, hd, hr⟩)
    · simp [Kind.steps] at hd
    · exact ⟨_, orient_diag hd, hr⟩
  · rintro ⟨e, he, hr⟩
    refine .inr ⟨orient c e, orient_diag he, ?_⟩
    rw [show orient c (orient c e) = e by cases c <;> simp [orient]]
    exact hr

omit h in
theorem rook_iff {c : Color} {occ : Square → Bool} {s u : Square} : Attacks c .rook occ s u ↔ ∃ e ∈ orth, Reach occ s e u := by
  constructor
  · rintro (⟨d, hd, -⟩ | ⟨d, hd, hr⟩)
    · simp [Kind.steps] at hd
    · exact ⟨_, orient_orth hd, hr⟩
  · rintro ⟨e, he, hr⟩
    refine .inr ⟨orient c e, orient_orth he, ?_⟩
    rw [show orient c (orient c e) = e by cases c <;> simp [orient]]
    exact hr

omit h in
theorem horse_iff {c : Color} {occ : Square → Bool} {s u : Square} :
    Attacks c .horse occ s u ↔ (∃ e ∈ orth, At s e 1 u) ∨ ∃ e ∈ diag, Reach occ s e u := by
  constructor
  · rintro (⟨d, hd, hr⟩ | ⟨d, hd, hr⟩)
    · exact .inl ⟨_, orient_orth hd, hr⟩
    · exact .inr ⟨_, orient_diag hd, hr⟩
  · rintro (⟨e, he, hr⟩ | ⟨e, he, hr⟩)
    · refine .inl ⟨orient c e, orient_orth he, ?_⟩
      rw [show orient c (orient c e) = e by cases c <;> simp [orient]]
      exact hr
    · refine .inr ⟨orient c e, orient_diag he, ?_⟩
      rw [show orient c (orient c e) = e by cases c <;> simp [orient]]
      exact hr

omit h in
theorem dragon_iff {c : Color} {occ : Square → Bool} {s u : Square} :
    Attacks c .dragon occ s u ↔ (∃ e ∈ diag, At s e 1 u) ∨ ∃ e ∈ orth, Reach occ s e u := by
  constructor
  · rintro (⟨d, hd, hr⟩ | ⟨d, hd, hr⟩)
    · exact .inl ⟨_, orient_diag hd, hr⟩
    · exact .inr ⟨_, orient_orth hd, hr⟩
  · rintro (⟨e, he, hr⟩ | ⟨e, he, hr⟩)
    · refine .inl ⟨orient c e, orient_diag he, ?_⟩
      rw [show orient c (orient c e) = e by cases c <;> simp [orient]]
      exact hr
    · refine .inr ⟨orient c e, orient_orth he, ?_⟩
      rw [show orient c (orient c e) = e by cases c <;> simp [orient]]
      exact hr

theorem bishop_direct (d : Direct p k f t pro .bishop) : (bishopCheckTable p.turn k).isSet f = true ∧
    encode p (.move f t pro) ∈ sliderChecks p true PT.Bishop (sameDiagonal k f) (horseAttack k p.occupied) (bishopAttack k p.occupied)
      (bishopAttack f p.occupied) k f := by
  have hm := bishop_iff.mp d.moves
  have hh : (∃ e ∈ orth, At t e 1 k) ∨ ∃ e ∈ diag, Reach (absPos p).occ t e k := by
    cases pro with
    | false => exact .inr (bishop_iff.mp d.hits_non)
    | true => exact horse_iff.mp (d.hits_pro rfl)
  have hbt : (bishopAttack t zero).isSet f = true := (back_zero p.turn.opp .bishop t f).mpr (by rw [opp_opp]; exact attacks_zero d.moves)
  constructor
  · unfold bishopCheckTable
    rw [isSet_andNot, Bool.and_eq_true, Bool.not_eq_true', isSet_setMask]
    refine ⟨?_, by simpa using d.ne⟩
    rw [isSet_or, Bool.or_eq_true, isSet_or, Bool.or_eq_true]
    rcases hh with ⟨e, he, ha⟩ | hh
    · have hpro : pro = true := by
        by_contra hp
        obtain rfl : pro = false := by simpa using hp
        obtain ⟨g, hg, j, hj, h3, -⟩ := bishop_iff.mp d.hits_non
        have := line_dir_unique (isDir_orth he) (isDir_mem.mp (List.mem_append_right _ hg)) ⟨1, le_rfl, ha⟩ ⟨j, hj, h3⟩
        subst this
        simp only [orth, List.mem_cons, List.not_mem_nil, or_false] at he
        rcases he with rfl | rfl | rfl | rfl <;> exact absurd hg (by decide)
      subst hpro
      have hkt : (kingAttack k).isSet t = true := by
        rw [isSet_kingAttack]
        simp only [orth, List.mem_cons, List.not_mem_nil, or_false] at he
        obtain ⟨a1, a2⟩ := ha
        rcases he with rfl | rfl | rfl | rfl
        · exact ⟨(0, 1), by decide, by simp only at a1 a2 ⊢; omega, by simp only at a1 a2 ⊢; omega⟩
        · exact ⟨(0, -1), by decide, by simp only at a1 a2 ⊢; omega, by simp only at a1 a2 ⊢; omega⟩
        · exact ⟨(1, 0), by decide, by simp only at a1 a2 ⊢; omega, by simp only at a1 a2 ⊢; omega⟩
        · exact ⟨(-1, 0), by decide, by simp only at a1 a2 ⊢; omega, by simp only at a1 a2 ⊢; omega⟩
      rcases (d.rules.1 rfl).2 with hz | hz
      · refine .inr ((isSet_unionOver _ _ _).mpr ⟨t, ((wf_kingAttack _).mem_toList _).mpr hkt, ?_⟩)
        rw [isSet_and, Bool.and_eq_true, isSet_tRank123]
        exact ⟨hbt, hz⟩
      · refine .inl (.inr ((isSet_unionOver _ _ _).mpr ⟨t, ?_, hbt⟩))
        rw [((wf_kingAttack _).and_left).mem_toList, isSet_and, Bool.and_eq_true, isSet_tRank123]
        exact ⟨hkt, hz⟩
    · refine .inl (.inl ((isSet_unionOver _ _ _).mpr ⟨t, ((wf_bishopAttack _ _).mem_toList _).mpr ?_, hbt⟩))
      exact (back_zero p.turn.opp .bishop k t).mpr (by rw [opp_opp]; exact attacks_zero (bishop_iff.mpr hh))
  · refine slider_direct (kd := .bishop) (kd2 := .horse) h d rfl (wf_horseAttack _ _) (fun t ht => (back_of h .horse t).mpr ht)
      (fun t ht => (back_of h .bishop t).mpr ht) (d.reach h) (fun occ s t ha => ?_) (fun hd => ?_)
    · exact horse_iff.mpr (.inr (bishop_iff.mp ha))
    · obtain ⟨e, he, m, hm', hek⟩ := diag_dir hd d.ne
      obtain ⟨a, b, c⟩ := diag_through d.occ d.king he hm' hek (.inr hm) hh (fun e => d.not (bishop_iff.mpr e))
      exact soleBlocker_of h a b c d.free

theorem rook_direct (d : Direct p k f t pro .rook) :
    encode p (.move f t pro) ∈ sliderChecks p true PT.Rook (sameCross k f) (dragonAttack k p.occupied) (rookAttack k p.occupied)
      (rookAttack f p.occupied) k f := by
  have hm := rook_iff.mp d.moves
  have hh : (∃ e ∈ diag, At t e 1 k) ∨ ∃ e ∈ orth, Reach (absPos p).occ t e k := by
    cases pro with
    | false => exact .inr (rook_iff.mp d.hits_non)
    | true => exact dragon_iff.mp (d.hits_pro rfl)
  refine slider_direct (kd := .rook) (kd2 := .dragon) h d rfl (wf_dragonAttack _ _) (fun t ht => (back_of h .dragon t).mpr ht)
    (fun t ht => (back_of h .rook t).mpr ht) (d.reach h) (fun occ s t ha => ?_) (fun hd => ?_)
  · exact dragon_iff.mpr (.inr (rook_iff.mp ha))
  · obtain ⟨e, he, m, hm', hek⟩ := cross_dir hd d.ne
    rcases orth_through d.occ d.king he hm' hek (.inr hm) hh (fun e => d.not (rook_iff.mpr e)) with ⟨a, b, c⟩ | ⟨⟨g, hg, hgt⟩, -⟩
    · exact soleBlocker_of h a b c d.free
    · exfalso
      obtain ⟨g', hg', j, hj, h3, -⟩ := hm
      have := line_dir_unique (isDir_orth hg') (isDir_mem.mp (List.mem_append_right _ hg)) ⟨j, hj, h3⟩ ⟨1, le_rfl, hgt⟩
      subst this
      simp only [orth, List.mem_cons, List.not_mem_nil, or_false] at hg'
      rcases hg' with rfl | rfl | rfl | rfl <;> exact absurd hg (by decide)

/-! ### Horses and dragons -/

theorem horse_direct (d : Direct p k f t pro .horse) : (horseCheckTable k).isSet f = true ∧ encode p (.move f t pro) ∈ horseChecks p k f := by
  obtain rfl := d.non rfl
  constructor
  · unfold horseCheckTable
    rw [isSet_andNot, Bool.and_eq_true, Bool.not_eq_true', isSet_setMask]
    refine ⟨(isSet_unionOver _ _ _).mpr ⟨t, ((wf_horseAttack _ _).mem_toList _).mpr ?_, ?_⟩, by simpa using d.ne⟩
    · exact (back_zero p.turn.opp .horse k t).mpr (by rw [opp_opp]; exact attacks_zero d.hits_non)
    · exact (back_zero p.turn.opp .horse t f).mpr (by rw [opp_opp]; exact attacks_zero d.moves)
  · unfold horseChecks
    rw [show encode p (.move f t false) = genMove p PT.Horse f t from d.enc h]
    by_cases hd : sameDiagonal k f = true
    · rw [if_neg (by rw [hd]; decide)]
      obtain ⟨e, he, m, hm', hek⟩ := diag_dir hd d.ne
      obtain ⟨a, b, c⟩ := diag_through d.occ d.king he hm' hek (horse_iff.mp d.moves) (horse_iff.mp d.hits_non)
        (fun e => d.not (horse_iff.mpr (.inr e)))
      rw [soleBlocker_of h a b c d.free]
      exact List.mem_singleton.mpr rfl
    · rw [if_pos (by simpa using hd)]
      refine List.mem_map.mpr ⟨t, ?_, rfl⟩
      rw [((wf_horseAttack _ _).and_left.and_left).mem_toList, isSet_and, isSet_and, Bool.and_eq_true, Bool.and_eq_true]
      exact ⟨⟨(back_of h .horse t).mpr d.hits_non, d.reach h⟩, d.own h⟩

omit h in
theorem king_near {s u : Square} (hs : ∃ e ∈ diag, At s e 1 u) : (kingAttack s).isSet u = true ∧ (kingAttack u).isSet s = true := by
  obtain ⟨e, he, a1, a2⟩ := hs
  rw [isSet_kingAttack, isSet_kingAttack]
  simp only [diag, List.mem_cons, List.not_mem_nil, or_false] at he
  refine ⟨⟨e, ?_, a1, a2⟩, neg e, ?_, ?_⟩
  · rcases he with rfl | rfl | rfl | rfl <;> decide
  · rcases he with rfl | rfl | rfl | rfl <;> decide
  · rcases he with rfl | rfl | rfl | rfl <;> simp only [neg, At] at a1 a2 ⊢ <;> omega

theorem dragon_direct (d : Direct p k f t pro .dragon) : encode p (.move f t pro) ∈ dragonChecks p k f := by
  obtain rfl := d.non rfl
  unfold dragonChecks
  rw [show encode p (.move f t false) = genMove p PT.Dragon f t from d.enc h]
  by_cases hd : sameCross k f = true
  · rw [if_neg (by rw [hd]; decide)]
    refine List.mem_map.mpr ⟨t, ?_, rfl⟩
    have hbw : (p.blockerBB k f).WF := by
      unfold blockerBB
      simp only
      split
      · exact (wf_betweenBB f k).and_left
      · exact WF.zero
    rw [((wf_kingAttack _).and_left.and_left.or hbw).mem_toList, isSet_or, Bool.or_eq_true, isSet_and, isSet_and, Bool.and_eq_true, Bool.and_eq_true]
    obtain ⟨e, he, m, hm', hek⟩ := cross_dir hd d.ne
    rcases orth_through d.occ d.king he hm' hek (dragon_iff.mp d.moves) (dragon_iff.mp d.hits_non)
      (fun e => d.not (dragon_iff.mpr (.inr e))) with ⟨a, b, c⟩ | ⟨a, b⟩
    · right
      have hs := soleBlocker_of h a b c d.free
      unfold soleBlocker at hs
      unfold blockerBB
      simp only at hs ⊢
      split at hs
      · next hc =>
        rw [if_pos hc]
        rw [Bool.and_eq_true] at hc
        rw [← Option.some.inj hs]
        exact (one_bit (wf_betweenBB f k).and_left hc.1).1
      · cases hs
    · exact .inl ⟨⟨(king_near b).2, (king_near a).1⟩, d.own h⟩
  · rw [if_pos (by simpa using hd)]
    refine List.mem_map.mpr ⟨t, ?_, rfl⟩
    rw [((wf_dragonAttack _ _).and_left.and_left).mem_toList, isSet_and, isSet_and, Bool.and_eq_true, Bool.and_eq_true]
    exact ⟨⟨(back_of h .dragon t).mpr d.hits_non, d.reach h⟩, d.own h⟩

/-- Every move with which a piece other than the king attacks the opposing king itself is found. -/
theorem direct_complete {kd : Kind} (d : Direct p k f t pro kd) (hkd : kd ≠ .king) :
    (p.checkMovers k).isSet f = true ∧ encode p (.move f t pro) ∈ directChecks p true k f := by
  rw [movers_iff h d.stands]
  unfold directChecks
  rw [d.code h]
  cases kd <;> simp only [Kind.code]
  · have := pawn_direct h d; exact ⟨.inl ⟨trivial, this.1⟩, this.2⟩
  · have := lance_direct h d; exact ⟨.inr (.inl ⟨trivial, this.1⟩), this.2⟩
  · have := knight_direct h d; exact ⟨.inr (.inr (.inl ⟨trivial, this.1⟩)), this.2⟩
  · have := silver_direct h d; exact ⟨.inr (.inr (.inr (.inl ⟨trivial, this.1⟩))), this.2⟩
  · have := bishop_direct h d; exact ⟨.inr (.inr (.inr (.inr (.inr (.inl ⟨trivial, this.1⟩))))), this.2⟩
  · have := rook_direct h d; exact ⟨.inr (.inr (.inr (.inr (.inr (.inr (.inl trivial)))))), this⟩
  · have := gold_direct h rfl d; exact ⟨.inr (.inr (.inr (.inr (.inl ⟨rfl, this.1⟩)))), this.2⟩
  · exact absurd rfl hkd
  · have := gold_direct h rfl d; exact ⟨.inr (.inr (.inr (.inr (.inl ⟨rfl, this.1⟩)))), this.2⟩
  · have := gold_direct h rfl d; exact ⟨.inr (.inr (.inr (.inr (.inl ⟨rfl, this.1⟩)))), this.2⟩
  · have := gold_direct h rfl d; exact ⟨.inr (.inr (.inr (.inr (.inl ⟨rfl, this.1⟩)))), this.2⟩
  · have := gold_direct h rfl d; exact ⟨.inr (.inr (.inr (.inr (.inl ⟨rfl, this.1⟩)))), this.2⟩
  · have := horse_direct h d; exact ⟨.inr (.inr (.inr (.inr (.inr (.inr (.inr (.inr ⟨trivial, this.1⟩))))))), this.2⟩
  · have := dragon_direct h d; exact ⟨.inr (.inr (.inr (.inr (.inr (.inr (.inr (.inl trivial))))))), this⟩

end
end Verif
