import Verif.Lemmas.Checks

/-!
`checkersBB` after `doMove` is the set of pieces giving check.
-/

namespace Verif
open Spec Bitboard Position

theorem neg_fst (e : Dir) : (neg e).1 = -e.1 := rfl
theorem neg_snd (e : Dir) : (neg e).2 = -e.2 := rfl

theorem attacks_rook_of_reach {c : Color} {kd : Kind} (hkd : kd = .rook ∨ kd = .dragon) {occ : Square → Bool} {s k : Square} {d : Dir}
    (hd : d ∈ orth) (h : Reach occ k d s) : Attacks c kd occ s k := by
  have hr : Reach occ s (neg d) k := (reach_symm (isDir_orth hd)).mp h
  refine Or.inr ⟨orient c (neg d), ?_, ?_⟩
  · have h1 : ∀ d ∈ orth, orient .black (neg d) ∈ orth ∧ orient .white (neg d) ∈ orth := by decide
    have : orient c (neg d) ∈ orth := by cases c; exacts [(h1 d hd).1, (h1 d hd).2]
    rcases hkd with rfl | rfl <;> exact this
  · rw [show orient c (orient c (neg d)) = neg d by cases c <;> simp [orient, neg]]
    exact hr

theorem attacks_bishop_of_reach {c : Color} {kd : Kind} (hkd : kd = .bishop ∨ kd = .horse) {occ : Square → Bool} {s k : Square} {d : Dir}
    (hd : d ∈ diag) (h : Reach occ k d s) : Attacks c kd occ s k := by
  have hr : Reach occ s (neg d) k := (reach_symm (isDir_diag hd)).mp h
  refine Or.inr ⟨orient c (neg d), ?_, ?_⟩
  · have h1 : ∀ d ∈ diag, orient .black (neg d) ∈ diag ∧ orient .white (neg d) ∈ diag := by decide
    have : orient c (neg d) ∈ diag := by cases c; exacts [(h1 d hd).1, (h1 d hd).2]
    rcases hkd with rfl | rfl <;> exact this
  · rw [show orient c (orient c (neg d)) = neg d by cases c <;> simp [orient, neg]]
    exact hr

theorem isSet_rookAttackFile (s : Square) (occ : Bitboard) (t : Square) :
    (rookAttackFile s occ).isSet t = true ↔ Reach occ.isSet s (0, -1) t ∨ Reach occ.isSet s (0, 1) t := by
  have h1 := isSet_lanceAttack .black s occ t
  have h2 := isSet_lanceAttack .white s occ t
  unfold lanceAttack at h1 h2
  unfold rookAttackFile
  rw [isSet_or, Bool.or_eq_true, h1, h2]
  simp [orient]

theorem wf_rookAttackFile (s : Square) (occ : Bitboard) : (rookAttackFile s occ).WF :=
  (wf_lanceAttack .black s occ).or (wf_lanceAttack .white s occ)

section
variable {p p' : Position} {f t k : Square} {kd : Kind} {pro : Bool}

theorem isSet_bbOf2c {p : Position} (h : Consistent p) {a b : Kind} {c : Color} {s : Square} :
    (p.bbOf2c a.code b.code c).isSet s = true ↔ ∃ kd, (absPos p).board s = some (c, kd) ∧ (kd = a ∨ kd = b) := by
  unfold bbOf2c bbOf2
  rw [isSet_and, isSet_or, Bool.and_eq_true, Bool.or_eq_true, h.type, h.type, h.color]
  constructor
  · rintro ⟨⟨c', h1⟩ | ⟨c', h1⟩, kd, h2⟩ <;> rw [h1] at h2 <;> cases h2
    · exact ⟨_, h1, Or.inl rfl⟩
    · exact ⟨_, h1, Or.inr rfl⟩
  · rintro ⟨kd, h1, rfl | rfl⟩
    · exact ⟨Or.inl ⟨c, h1⟩, _, h1⟩
    · exact ⟨Or.inr ⟨c, h1⟩, _, h1⟩

/-- The checkers computed after a board move that gives check. -/
theorem isSet_checkersAfter (h : Consistent p) (h' : Consistent p') (ha : absPos p' = (absPos p).play (.move f t pro))
    (hk : p.kingSquare p.turn.opp = some k) (hk' : p'.kingSquare p.turn.opp = some k)
    (hnc : ¬ (absPos p).InCheck p.turn.opp)
    (hf : (absPos p).board f = some (p.turn, kd)) (hat : Attacks p.turn kd (absPos p).occ f t)
    (ht : ∀ kd', (absPos p).board t ≠ some (p.turn, kd')) (htk : k ≠ t)
    (hsafe : kd = .king → ¬ ((absPos p).play (.move f t pro)).InCheck p.turn) (u : Square) :
    (checkersAfter p p' f t (Pos.arriving kd pro).code).isSet u = true ↔ (absPos p').AttacksSq p.turn u k := by
  have hK := h.kingAt hk
  have hoccf : p'.occupied.isSet = occMove (absPos p).occ f t := by
    rw [h'.occ_fun, ha]; exact play_move_occ (q := absPos p) hf
  have hT := fun s => move_gives (q := absPos p) (pro := pro) hK hnc hf hat ht s
  rw [show (absPos p).turn = p.turn from rfl] at hT
  rw [ha, hT]
  have hdir : ∀ u, (p.checkBB (Pos.arriving kd pro).code &&& setMask t).isSet u = true ↔
      u = t ∧ Attacks p.turn (Pos.arriving kd pro) (absPos p).occ t k := by
    intro u
    rw [isSet_and, Bool.and_eq_true, isSet_setMask_iff]
    constructor
    · rintro ⟨h1, rfl⟩; exact ⟨rfl, (direct_iff h hk hf htk hsafe).mp h1⟩
    · rintro ⟨rfl, h1⟩; exact ⟨(direct_iff h hk hf htk hsafe).mpr h1, rfl⟩
  have hll : leavesLine f t (some k) (p.discoveredCheckBB true) = true ↔
      ∃ s, PinLine (absPos p) p.turn k f s ∧ s ≠ t ∧ ¬ Between s t k := by
    refine leavesLine_iff (a := p.turn) (b := p.turn) ?_ ⟨kd, hf⟩ hK.occ (fun u hu => Attacks.path hat u hu) htk.symm
      (attacks_ne hat).symm
    rw [isSet_discoveredCheckBB h, hk]
    simp
  have hpin_ne : ∀ s, PinLine (absPos p) p.turn k f s → s ≠ t := by
    rintro s hs rfl
    obtain ⟨kd', e, -⟩ := hs.piece
    exact ht kd' e
  unfold checkersAfter
  simp only [hk']
  by_cases hl : leavesLine f t (some k) (p.discoveredCheckBB true) = true
  · rw [if_pos hl]
    obtain ⟨s, hs, hst, hsb⟩ := hll.mp hl
    obtain ⟨e, he, h1, h2⟩ := between_iff.mp hs.btw
    have hrel := rel_of_line he h2
    -- the uncovered piece attacks the king now
    have hTs : ((absPos p).play (.move f t pro)).AttacksSq p.turn s k := (hT s).mpr (Or.inr ⟨hs, hsb⟩)
    have huniq : ∀ v, PinLine (absPos p) p.turn k f v → v = s := fun v hv => hv.unique hs
    -- what is to be shown about the set OR-ed to the direct checkers
    have main : ∀ D : Bitboard, D.isSet s = true → (∀ v, D.isSet v = true → (absPos p').AttacksSq p.turn v k) →
        ((p.checkBB (Pos.arriving kd pro).code &&& setMask t ||| D).isSet u = true ↔
          u = t ∧ Attacks p.turn (Pos.arriving kd pro) (absPos p).occ t k ∨
            PinLine (absPos p) p.turn k f u ∧ ¬ Between u t k) := by
      intro D hD1 hD2
      rw [isSet_or, Bool.or_eq_true, hdir]
      constructor
      · rintro (h3 | h3)
        · exact Or.inl h3
        · have := hD2 u h3
          rw [ha] at this
          exact (hT u).mp this
      · rintro (h3 | ⟨h3, -⟩)
        · exact Or.inl h3
        · rw [huniq u h3]; exact Or.inr hD1
    obtain ⟨kds, hbs, ds, hds, hls⟩ := hs.piece
    have hde : orient p.turn ds = e :=
      line_dir_unique (isDir_orient (isDir_slides _ _ hds)) he hls (line_trans h1 h2)
    have hsf : s ≠ f := line_ne he h1
    have hbs' : (absPos p').board s = some (p.turn, kds) := by
      rw [ha]; exact (play_move_own (q := absPos p) hf).mpr (Or.inr ⟨hst, hsf, hbs⟩)
    have hdr := discover_reach hs hsb he h1 h2
    have hol : ¬ OnLine f t k := by
      rw [hs.onLine hK.occ (fun u hu => Attacks.path hat u hu) htk.symm (attacks_ne hat).symm]
      rintro (e1 | e1)
      · exact hst e1.symm
      · exact hsb e1
    have hes : e.1 = (orient p.turn ds).1 ∧ e.2 = (orient p.turn ds).2 := by rw [hde]; exact ⟨rfl, rfl⟩
    have hz1 : e.1 = 0 ↔ ds.1 = 0 := by rw [hes.1]; cases p.turn <;> simp [orient]
    have hz2 : e.2 = 0 ↔ ds.2 = 0 := by rw [hes.2]; cases p.turn <;> simp [orient]
    have hcases : (e.1 = 0 ∧ e.2 ≠ 0 ∧ squareRelation f k = 2) ∨ (e.1 ≠ 0 ∧ e.2 = 0 ∧ squareRelation f k = 3) ∨
        (e.1 ≠ 0 ∧ e.2 ≠ 0 ∧ (squareRelation f k = 4 ∨ squareRelation f k = 5)) := by
      rw [hrel]
      unfold dirRel
      have := he.2.2
      by_cases a1 : e.1 = 0
      · rw [if_pos a1]; exact Or.inl ⟨a1, fun a2 => this ⟨a1, a2⟩, rfl⟩
      · by_cases a2 : e.2 = 0
        · rw [if_neg a1, if_pos a2]; exact Or.inr (Or.inl ⟨a1, a2, rfl⟩)
        · rw [if_neg a1, if_neg a2]; refine Or.inr (Or.inr ⟨a1, a2, ?_⟩)
          split
          · exact Or.inl rfl
          · exact Or.inr rfl
    rcases hcases with ⟨a1, a2, hr⟩ | ⟨a1, a2, hr⟩ | ⟨a1, a2, hr⟩
    · -- along the file, from the square left
      rw [hr]
      refine main _ ?_ ?_
      · rw [isSet_and, Bool.and_eq_true, isSet_rookAttackFile, hoccf, h'.color]
        refine ⟨?_, kds, hbs'⟩
        have := discover_from hs hsb he h1 h2
        rcases he.2.1 with e2 | e2 | e2
        · exact absurd e2 a2
        · left; rwa [show neg e = (0, -1) by ext <;> simp [neg, a1, e2]] at this
        · right; rwa [show neg e = (0, 1) by ext <;> simp [neg, a1, e2]] at this
      · intro v hv
        rw [isSet_and, Bool.and_eq_true, isSet_rookAttackFile, hoccf, h'.color] at hv
        obtain ⟨hv1, kdv, hv2⟩ := hv
        have hvt : v ≠ t := by
          rintro rfl
          apply hol
          have hv3 : Reach (occMove (absPos p).occ f v) f e v ∨ Reach (occMove (absPos p).occ f v) f (neg e) v := by
            rcases he.2.1 with e2 | e2 | e2
            · exact absurd e2 a2
            · rw [show e = (0, 1) by ext <;> simp [a1, e2]]; exact hv1.symm
            · rw [show e = (0, -1) by ext <;> simp [a1, e2]]; exact hv1
          exact ⟨e, he, h2, hv3.imp Reach.line Reach.line⟩
        rw [ha] at hv2
        rcases (play_move_own (q := absPos p) hf).mp hv2 with ⟨e1, -⟩ | ⟨-, -, hv4⟩
        · exact absurd e1 hvt
        · have hvk : v ≠ k := by
            rintro rfl
            rw [hK.at] at hv4
            simp only [Option.some.injEq, Prod.mk.injEq] at hv4
            exact opp_ne _ hv4.1
          have hv3 : Reach (occMove (absPos p).occ f t) f e v ∨ Reach (occMove (absPos p).occ f t) f (neg e) v := by
            rcases he.2.1 with e2 | e2 | e2
            · exact absurd e2 a2
            · rw [show e = (0, 1) by ext <;> simp [a1, e2]]; exact hv1.symm
            · rw [show e = (0, -1) by ext <;> simp [a1, e2]]; exact hv1
          have := discover_only hs hK.at hf hol htk hst he h1 h2 (occ_of_board hv4) hvk hv3
          subst this
          rw [ha]; exact hTs
    · -- along the rank, from the king
      rw [hr]
      have hkds : kds = .rook ∨ kds = .dragon := slide_orth kds hds (hz2.mp a2)
      refine main _ ?_ ?_
      · rw [isSet_and, Bool.and_eq_true, isSet_rookAttackRank, hoccf,
          show PT.Rook = Kind.code .rook from rfl, show PT.Dragon = Kind.code .dragon from rfl, isSet_bbOf2c h']
        refine ⟨?_, kds, hbs', hkds⟩
        rcases he.1 with e1 | e1 | e1
        · exact absurd e1 a1
        · left; rwa [show neg e = (-1, 0) by ext <;> simp [neg, a2, e1]] at hdr
        · right; rwa [show neg e = (1, 0) by ext <;> simp [neg, a2, e1]] at hdr
      · intro v hv
        rw [isSet_and, Bool.and_eq_true, isSet_rookAttackRank,
          show PT.Rook = Kind.code .rook from rfl, show PT.Dragon = Kind.code .dragon from rfl, isSet_bbOf2c h', h'.occ_fun] at hv
        obtain ⟨hv1, kdv, hv2, hv3⟩ := hv
        refine ⟨kdv, hv2, ?_⟩
        rcases hv1 with hv1 | hv1
        · exact attacks_rook_of_reach hv3 (by simp [orth]) hv1
        · exact attacks_rook_of_reach hv3 (by simp [orth]) hv1
    · -- along a diagonal, from the king
      have hkds : kds = .bishop ∨ kds = .horse := slide_diag kds hds (fun x => a1 (hz1.mpr x)) (fun x => a2 (hz2.mpr x))
      have hmem : neg e ∈ diag := by
        rcases he.1 with e1 | e1 | e1
        · exact absurd e1 a1
        all_goals
          rcases he.2.1 with e2 | e2 | e2
          · exact absurd e2 a2
          all_goals simp [neg, diag, e1, e2]
      have hD : (bishopAttack k p'.occupied &&& p'.bbOf2c PT.Bishop PT.Horse p.turn).isSet s = true ∧
          ∀ v, (bishopAttack k p'.occupied &&& p'.bbOf2c PT.Bishop PT.Horse p.turn).isSet v = true →
            (absPos p').AttacksSq p.turn v k := by
        constructor
        · rw [isSet_and, Bool.and_eq_true, isSet_bishopAttack, hoccf,
            show PT.Bishop = Kind.code .bishop from rfl, show PT.Horse = Kind.code .horse from rfl, isSet_bbOf2c h']
          exact ⟨⟨neg e, hmem, hdr⟩, kds, hbs', hkds⟩
        · intro v hv
          rw [isSet_and, Bool.and_eq_true, isSet_bishopAttack,
            show PT.Bishop = Kind.code .bishop from rfl, show PT.Horse = Kind.code .horse from rfl, isSet_bbOf2c h', h'.occ_fun] at hv
          obtain ⟨⟨d, hd, hv1⟩, kdv, hv2, hv3⟩ := hv
          exact ⟨kdv, hv2, attacks_bishop_of_reach hv3 hd hv1⟩
      rcases hr with hr | hr <;> rw [hr] <;> exact main _ hD.1 hD.2
  · rw [if_neg hl, hdir]
    constructor
    · exact Or.inl
    · rintro (h1 | ⟨h1, h2⟩)
      · exact h1
      · exact absurd (hll.mpr ⟨u, h1, hpin_ne u h1, h2⟩) hl

end

/-! ### Moves keep the checkers exact -/

theorem wf_checkersAfter {p p' : Position} (h' : Consistent p') (f t : Square) (kd : Kind) :
    (checkersAfter p p' f t kd.code).WF := by
  have hd : (p.checkBB kd.code &&& setMask t).WF := (WF.setMask t).and_right
  unfold checkersAfter
  simp only []
  split
  · exact hd
  · split
    · split
      · exact hd.or (h'.wfColor _).and_right
      · exact hd.or (wf_rookAttackRank _ _).and_left
      · exact hd.or (wf_bishopAttack _ _).and_left
      · exact hd.or (wf_bishopAttack _ _).and_left
      · exact hd
    · exact hd

theorem king_after {q : Pos} {m : Mv} (hm : q.Playable m) (s : Square) :
    (q.play m).board s = some (q.turn.opp, .king) ↔ q.board s = some (q.turn.opp, .king) := by
  cases m with
  | move f t pro =>
    obtain ⟨-, ⟨kd, hf, -⟩, -, htk⟩ := hm
    rw [play_move_enemy hf]
    constructor
    · exact And.right
    · intro h; exact ⟨by rintro rfl; exact htk h, h⟩
  | drop hk t => exact play_drop_enemy hm.2

theorem checkOK_doMove (Z : Zobrist) {p p' : Position} (h : Inv Z p) {m : Mv} (hm : (absPos p).Safe m)
    (hnc : ¬ (absPos p).InCheck p.turn.opp) (he : doMove Z p (encode p m) = some p') (h' : Consistent p')
    (ha : absPos p' = (absPos p).play m) : CheckOK p' := by
  obtain ⟨hps, hsafe⟩ := hm
  have hpl := pseudo_playable hps hnc
  have hturn : p'.turn = p.turn.opp := by
    have : (absPos p').turn = p.turn.opp := by rw [ha]; exact play_turn m
    exact this
  have hking : ∀ s, (absPos p').board s = some (p.turn.opp, .king) ↔ (absPos p).board s = some (p.turn.opp, .king) := by
    intro s; rw [ha]; exact king_after hpl s
  cases m with
  | move f t pro =>
    obtain ⟨kd, hf, hat, ht, hpro, -⟩ := hps
    have hpt : pieceType (p.piece f) = kd.code := by rw [h.views.code, hf]; exact pieceType_mkPiece _ _
    obtain ⟨hd, hsrc, -, -, hnd, hptf, hptt, -, -⟩ := board_fields p f t pro kd hpt (fun e => (hpro e).1)
    have hst : p'.st.checkersBB = if p.moveGivesCheck (boardMove p.piece f t pro) then
        checkersAfter p p' f t (Pos.arriving kd pro).code else zero := by
      replace he : doMove Z p (boardMove p.piece f t pro) = some p' := he
      unfold doMove at he
      split at he
      · rw [if_neg (by rw [hnd]; exact Bool.false_ne_true), Option.some.injEq] at he
        rw [← he]
        conv_lhs => unfold doBoard
        simp only [hd, hsrc, hptf, hptt]
        unfold checkersAfter doBoard
        simp only [hd, hsrc, hptf, hptt]
        rfl
      · cases he
    constructor
    · rw [hst]
      split
      · exact wf_checkersAfter h' _ _ _
      · exact WF.zero
    · intro s
      rw [hst, hturn, opp_opp]
      rcases hk : p.kingSquare p.turn.opp with _ | k
      · rw [moveGivesCheck_noKing hk]
        simp only [Bool.false_eq_true, if_false, isSet_zero, false_iff]
        rintro ⟨k, e, -⟩
        exact h.views.king_none hk k ((hking k).mp e)
      · have hK := h.views.kingAt hk
        have hkt : k ≠ t := by rintro rfl; exact hpl.2.2.2 hK.at
        have hk' : p'.kingSquare p.turn.opp = some k := (h'.king _ _).mpr ((hking k).mpr hK.at)
        have hex : (∃ k, (absPos p').board k = some (p.turn.opp, Kind.king) ∧ (absPos p').AttacksSq p.turn s k) ↔
            (absPos p').AttacksSq p.turn s k := by
          constructor
          · rintro ⟨k', e, h1⟩
            rw [(hK k').mp ((hking k').mp e)] at h1; exact h1
          · intro h1; exact ⟨k, (hking k).mpr hK.at, h1⟩
        rw [hex, ← isSet_checkersAfter h.views h' ha hk hk' hnc hf hat ht hkt (fun _ => hsafe) s]
        by_cases hc : p.moveGivesCheck (boardMove p.piece f t pro) = true
        · rw [if_pos hc]
        · rw [if_neg hc, isSet_zero, isSet_checkersAfter h.views h' ha hk hk' hnc hf hat ht hkt (fun _ => hsafe) s, ha]
          rw [moveGivesCheck_move h.views hk hf (fun e => (hpro e).1) hat ht hkt (fun _ => hsafe)] at hc
          refine iff_of_false Bool.false_ne_true fun hA => hc ?_
          rcases (move_gives (q := absPos p) hK hnc hf hat ht s).mp hA with ⟨-, h1⟩ | ⟨h1, h2⟩
          · exact Or.inl h1
          · refine Or.inr ⟨s, h1, ?_, h2⟩
            rintro rfl
            obtain ⟨kd', e, -⟩ := h1.piece
            exact ht kd' e
  | drop hkd t =>
    obtain ⟨hd, -, hdr, hpt, hdef⟩ := drop_fields hkd t
    have hst : p'.st.checkersBB = if p.moveGivesCheck (makeDropMove hkd.kind.code t.val) then setMask t else zero := by
      replace he : doMove Z p (makeDropMove hkd.kind.code t.val) = some p' := he
      unfold doMove at he
      rw [if_pos hdef, if_pos hdr, Option.some.injEq] at he
      rw [← he]
      unfold doDrop
      simp only [hd]
    constructor
    · rw [hst]
      split
      · exact WF.setMask t
      · exact WF.zero
    · intro s
      rw [hst, hturn, opp_opp]
      rcases hk : p.kingSquare p.turn.opp with _ | k
      · rw [moveGivesCheck_noKing hk]
        simp only [Bool.false_eq_true, if_false, isSet_zero, false_iff]
        rintro ⟨k, e, -⟩
        exact h.views.king_none hk k ((hking k).mp e)
      · have hK := h.views.kingAt hk
        have hex : (∃ k, (absPos p').board k = some (p.turn.opp, Kind.king) ∧ (absPos p').AttacksSq p.turn s k) ↔
            (absPos p').AttacksSq p.turn s k := by
          constructor
          · rintro ⟨k', e, h1⟩
            rw [(hK k').mp ((hking k').mp e)] at h1; exact h1
          · intro h1; exact ⟨k, (hking k).mpr hK.at, h1⟩
        have hg : (absPos p').AttacksSq p.turn s k ↔ s = t ∧ Attacks p.turn hkd.kind (absPos p).occ t k := by
          rw [ha]; exact drop_gives (q := absPos p) hK hnc hpl.2 s
        rw [hex, hg, ← moveGivesCheck_drop h.views hk hkd t]
        by_cases hc : p.moveGivesCheck (makeDropMove hkd.kind.code t.val) = true
        · rw [if_pos hc, isSet_setMask_iff]; simp [hc]
        · rw [if_neg hc, isSet_zero]; simp [hc]

end Verif
