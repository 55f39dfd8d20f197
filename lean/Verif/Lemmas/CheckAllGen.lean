import Verif.Lemmas.CheckAllLines

/-!
The generator of all checking moves leaves out no legal move that gives check.
-/

namespace Verif
open Spec Bitboard Position

section
variable {p : Position} {k f t : Square} {pro : Bool} {kd : Kind} (h : Consistent p)
include h

theorem pieceMoves_complete (hf : (absPos p).board f = some (p.turn, kd)) (hat : Attacks p.turn kd (absPos p).occ f t)
    (hpro : ProOK p.turn kd f t pro) : encode p (.move f t pro) ∈ pieceMoves p p.turn true kd.code f t := by
  have hpt := pieceType_at h hf
  have b0 := isBehind_iff p.turn 0 t
  have b1 := isBehind_iff p.turn 1 t
  have hzt : (kd = .pawn ∨ kd = .lance ∨ kd = .knight) → pro = true → canPromote p.turn t = true := fun hk e =>
    (canPromote_iff _ _).mpr ((zone_forward p.turn hk hat).mp (hpro.1 e).2)
  have hz2 : pro = true → (canPromote p.turn t || canPromote p.turn f) = true := fun e =>
    (canPromote2_iff _ _ _).mpr (hpro.1 e).2.symm
  have hn : kd.promoted = none → pro = false := fun e => by
    cases pro
    · rfl
    · have := (hpro.1 rfl).1; rw [e] at this; cases this
  have e1 : pro = false → encode p (.move f t pro) = genMove p kd.code f t := fun e => by rw [e, genMove_eq hpt]; rfl
  have e2 : pro = true → encode p (.move f t pro) = genPro p kd.code f t := fun e => by rw [e, genPro_eq hpt]; rfl
  have hfar : 0 ≤ farRank p.turn t := by
    have := Y_bounds t; unfold farRank; generalize p.turn = c; cases c <;> simp only <;> omega
  have hcase : pro = true ∨ pro = false := by cases pro <;> simp
  have hdead := hpro.2
  clear hpro
  obtain ⟨m, hm⟩ : ∃ m, m = encode p (.move f t pro) := ⟨_, rfl⟩
  rw [← hm] at e1 e2 ⊢
  clear hm hat hf hpt
  cases kd <;> simp only [pieceMoves, Kind.code] at e1 e2 ⊢
  · rcases hcase with e | e
    · rw [if_pos (hzt (.inl rfl) e), e2 e]; exact List.mem_cons_self
    · rw [e1 e]
      have hd : 0 < farRank p.turn t := by have := hdead e; unfold Dead at this; simp only at this; omega
      split
      · rw [if_pos trivial, if_pos (b0.mpr hd)]; exact List.mem_cons_of_mem _ (List.mem_singleton.mpr rfl)
      · exact List.mem_singleton.mpr rfl
  · rcases hcase with e | e
    · rw [if_pos (hzt (.inr (.inl rfl)) e), e2 e]; exact List.mem_cons_self
    · rw [e1 e]
      have hd : 0 < farRank p.turn t := by have := hdead e; unfold Dead at this; simp only at this; omega
      split
      · rw [if_pos trivial, if_pos (b0.mpr hd)]; exact List.mem_cons_of_mem _ (List.mem_singleton.mpr rfl)
      · exact List.mem_singleton.mpr rfl
  · rcases hcase with e | e
    · rw [if_pos (hzt (.inr (.inr rfl)) e), e2 e]; exact List.mem_cons_self
    · rw [e1 e]
      have hd : 1 < farRank p.turn t := by have := hdead e; unfold Dead at this; simp only at this; omega
      split
      · rw [if_pos (b1.mpr hd)]; exact List.mem_cons_of_mem _ (List.mem_singleton.mpr rfl)
      · exact List.mem_singleton.mpr rfl
  · rw [List.mem_append]
    rcases hcase with e | e
    · rw [if_pos (hz2 e), e2 e]; exact .inl (List.mem_singleton.mpr rfl)
    · rw [e1 e]; exact .inr (List.mem_singleton.mpr rfl)
  · rcases hcase with e | e
    · rw [if_pos (hz2 e), e2 e]; exact List.mem_cons_self
    · rw [e1 e]
      split
      · rw [if_pos trivial]; exact List.mem_cons_of_mem _ (List.mem_singleton.mpr rfl)
      · exact List.mem_singleton.mpr rfl
  · rcases hcase with e | e
    · rw [if_pos (hz2 e), e2 e]; exact List.mem_cons_self
    · rw [e1 e]
      split
      · rw [if_pos trivial]; exact List.mem_cons_of_mem _ (List.mem_singleton.mpr rfl)
      · exact List.mem_singleton.mpr rfl
  all_goals rw [e1 (hn rfl)]; exact List.mem_singleton.mpr rfl

omit h in
/-- A piece with nothing between it and the king, moving on that line, does not move along it as a line piece. -/
theorem aligned_line (d : Direct p k f t pro kd) (hclear : ∀ u, Between f u k → (absPos p).occ u = false) (hl : OnLine f t k) :
    ¬ SlideLine p.turn kd f k ∧ ∃ e, IsDir e ∧ Line f e k ∧ (Line f e t ∨ Line f (neg e) t) :=
  ⟨fun hs => d.not ((attacks_iff _ _ _ _ _).mpr (.inr ⟨hs, hclear⟩)), hl⟩

omit h in
theorem aligned_lance (d : Direct p k f t pro .lance) (hclear : ∀ u, Between f u k → (absPos p).occ u = false) (hl : OnLine f t k) : False := by
  obtain ⟨hn, e, he, h1, h2⟩ := aligned_line d hclear hl
  obtain ⟨n, hnn, hat, -⟩ := lance_reach d.moves
  have hdir : IsDir (orient p.turn (0, -1)) := (isDir_slides .lance (0, -1) (by decide)).orient p.turn
  have hft := (lance_line_iff p.turn f t).mp ⟨(0, -1), by decide, n, hnn, hat⟩
  rcases h2 with h2 | h2
  · have := line_dir_unique he hdir h2 ⟨n, hnn, hat⟩
    subst this
    exact hn ⟨(0, -1), by decide, h1⟩
  · have hne : IsDir (neg e) := by
      obtain ⟨a, b, c⟩ := he
      unfold neg IsDir
      simp only
      omega
    have := line_dir_unique hne hdir h2 ⟨n, hnn, hat⟩
    obtain ⟨m, hm, x1, x2⟩ := h1
    have hk : X k = X f ∧ farRank p.turn f < farRank p.turn k := by
      obtain ⟨ex, ey⟩ := e
      unfold neg at this
      revert this
      unfold farRank
      generalize p.turn = c
      cases c <;> simp only [orient, Prod.mk.injEq] at x1 x2 ⊢ <;> rintro ⟨q1, q2⟩
      · obtain rfl : ex = 0 := by omega
        obtain rfl : ey = 1 := by omega
        omega
      · obtain rfl : ex = 0 := by omega
        obtain rfl : ey = -1 := by omega
        omega
    cases pro with
    | false =>
      obtain ⟨j, hj, hh, -⟩ := lance_reach d.hits_non
      have := (lance_line_iff p.turn t k).mp ⟨(0, -1), by decide, j, hj, hh⟩
      omega
    | true =>
      have hg : Attacks p.turn .gold (absPos p).occ t k := (back_gold p.turn .gold rfl _ _ _).mp ((back_gold p.turn .proLance rfl _ _ _).mpr (d.hits_pro rfl))
      have := gold_file hg (by omega)
      omega

omit h in
theorem neg_diag {e : Dir} (he : neg e ∈ diag) : e ∈ diag := by
  obtain ⟨x, y⟩ := e
  simp only [neg, diag, List.mem_cons, List.not_mem_nil, or_false, Prod.mk.injEq] at he ⊢
  omega

omit h in
theorem neg_orth {e : Dir} (he : neg e ∈ orth) : e ∈ orth := by
  obtain ⟨x, y⟩ := e
  simp only [neg, orth, List.mem_cons, List.not_mem_nil, or_false, Prod.mk.injEq] at he ⊢
  omega

omit h in
theorem isDir_negated {e : Dir} (he : IsDir e) : IsDir (neg e) := by
  obtain ⟨a, b, c⟩ := he
  unfold neg IsDir
  simp only
  omega

omit h in
theorem aligned_bishop (d : Direct p k f t pro .bishop) (hclear : ∀ u, Between f u k → (absPos p).occ u = false) (hl : OnLine f t k) : False := by
  obtain ⟨hn, e, he, h1, h2⟩ := aligned_line d hclear hl
  obtain ⟨g, hg, n, hnn, hat, -⟩ := bishop_iff.mp d.moves
  have hgd : IsDir g := isDir_mem.mp (List.mem_append_right _ hg)
  have hed : e ∈ diag := by
    rcases h2 with h2 | h2
    · rw [line_dir_unique he hgd h2 ⟨n, hnn, hat⟩]; exact hg
    · exact neg_diag (by rw [line_dir_unique (isDir_negated he) hgd h2 ⟨n, hnn, hat⟩]; exact hg)
  refine hn ⟨orient p.turn e, orient_diag hed, ?_⟩
  rw [show orient p.turn (orient p.turn e) = e by cases p.turn <;> simp [orient]]
  exact h1

omit h in
theorem aligned_rook (d : Direct p k f t pro .rook) (hclear : ∀ u, Between f u k → (absPos p).occ u = false) (hl : OnLine f t k) : False := by
  obtain ⟨hn, e, he, h1, h2⟩ := aligned_line d hclear hl
  obtain ⟨g, hg, n, hnn, hat, -⟩ := rook_iff.mp d.moves
  have hgd : IsDir g := isDir_mem.mp (List.mem_append_left _ hg)
  have hed : e ∈ orth := by
    rcases h2 with h2 | h2
    · rw [line_dir_unique he hgd h2 ⟨n, hnn, hat⟩]; exact hg
    · exact neg_orth (by rw [line_dir_unique (isDir_negated he) hgd h2 ⟨n, hnn, hat⟩]; exact hg)
  refine hn ⟨orient p.turn e, orient_orth hed, ?_⟩
  rw [show orient p.turn (orient p.turn e) = e by cases p.turn <;> simp [orient]]
  exact h1

theorem aligned_complete (d : Direct p k f t pro kd) (hkd : kd ≠ .king) (hclear : ∀ u, Between f u k → (absPos p).occ u = false) (hl : OnLine f t k) :
    encode p (.move f t pro) ∈ alignedChecks p true k f t := by
  unfold alignedChecks
  simp only [d.code h]
  have gold : goldLike kd = true → encode p (.move f t pro) ∈
      (if (goldAttack p.turn.opp k &&& goldAttack p.turn f).isSet t = true then [genMove p kd.code f t] else []) := by
    intro hg
    obtain rfl := d.non (gold_pro hg)
    rw [if_pos (by rw [isSet_and, Bool.and_eq_true]; exact ⟨(back_gold p.turn kd hg _ _ _).mpr d.hits_non, (attack_gold hg).mpr d.moves⟩)]
    exact List.mem_singleton.mpr (d.enc h)
  have hr := d.reach h
  cases kd <;> simp only [Kind.code]
  · rw [if_pos (show (pawnAttack p.turn f).isSet t = true from hr)]
    cases pro with
    | false =>
      rw [show encode p (.move f t false) = genMove p 1 f t from d.enc h]
      split
      · rw [if_pos trivial]; exact List.mem_cons_of_mem _ (List.mem_singleton.mpr rfl)
      · exact List.mem_singleton.mpr rfl
    | true =>
      rw [show encode p (.move f t true) = genPro p 1 f t from d.enc h, if_pos ((canPromote_iff _ _).mpr (d.zoneT (.inl rfl)))]
      exact List.mem_cons_self
  · exact absurd (aligned_lance d hclear hl) id
  · exact absurd hl (knight_offline d.moves)
  · rw [List.mem_append]
    cases pro with
    | false =>
      left
      rw [if_pos (by rw [isSet_and, Bool.and_eq_true]; exact ⟨(back_silver _ _ _ _).mpr d.hits_non, hr⟩)]
      exact List.mem_singleton.mpr (d.enc h)
    | true =>
      right
      rw [if_pos (by rw [isSet_and, Bool.and_eq_true]; exact ⟨(back_gold p.turn .proSilver rfl _ _ _).mpr (d.hits_pro rfl), hr⟩), if_pos d.can]
      exact List.mem_singleton.mpr (d.enc h)
  · exact absurd (aligned_bishop d hclear hl) id
  · exact absurd (aligned_rook d hclear hl) id
  · exact gold rfl
  · exact absurd rfl hkd
  · exact gold rfl
  · exact gold rfl
  · exact gold rfl
  · exact gold rfl
  · obtain rfl := d.non rfl
    rw [if_pos (by rw [isSet_and, Bool.and_eq_true]; exact ⟨(back_of h .horse t).mpr d.hits_non, hr⟩)]
    exact List.mem_singleton.mpr (d.enc h)
  · obtain rfl := d.non rfl
    rw [if_pos (by rw [isSet_and, Bool.and_eq_true]; exact ⟨(back_of h .dragon t).mpr d.hits_non, hr⟩)]
    exact List.mem_singleton.mpr (d.enc h)

variable (hk : p.kingSquare p.turn.opp = some k) (hw : ¬ (absPos p).InCheck p.turn.opp)
include hk hw

theorem boardChecks_complete (hf : (absPos p).board f = some (p.turn, kd)) (hat : Attacks p.turn kd (absPos p).occ f t)
    (ho : ∀ kd', (absPos p).board t ≠ some (p.turn, kd')) (hpro : ProOK p.turn kd f t pro)
    (hc : (kd ≠ .king ∧ Attacks p.turn (Pos.arriving kd pro) (absPos p).occ t k) ∨ ∃ s, PinLine (absPos p) p.turn k f s ∧ s ≠ t ∧ ¬ Between s t k) :
    encode p (.move f t pro) ∈ boardChecks p true k := by
  have hK := h.kingAt hk
  have hnot : ∀ {s : Square} {kd' : Kind}, (absPos p).board s = some (p.turn, kd') → ¬ Attacks p.turn kd' (absPos p).occ s k := by
    intro s kd' hb ha
    exact hw (hK.inCheck.mpr ⟨s, kd', by rw [show p.turn.opp.opp = p.turn by cases p.turn <;> rfl]; exact hb,
      by rw [show p.turn.opp.opp = p.turn by cases p.turn <;> rfl]; exact ha⟩)
  have hfk : f ≠ k := by
    rintro rfl
    rw [hK.at] at hf
    simp only [Option.some.injEq, Prod.mk.injEq] at hf
    exact opp_ne p.turn hf.1
  have hdir : kd ≠ .king ∧ Attacks p.turn (Pos.arriving kd pro) (absPos p).occ t k → kd ≠ .king ∧ Direct p k f t pro kd :=
    fun hd => ⟨hd.1, hf, hat, ho, hpro, hd.2, hnot hf, hK.occ, hfk⟩
  unfold boardChecks
  simp only [List.mem_append]
  have wy : (p.discoveredCheckBB true).WF := wf_hiddenCheckers h _ _
  have wx : (p.checkMovers k).WF := (h.wfColor _).and_right
  by_cases hy : (p.discoveredCheckBB true).isSet f = true
  · left
    refine List.mem_flatMap.mpr ⟨f, (wy.mem_toList _).mpr hy, ?_⟩
    rw [isSet_discoveredCheckBB h] at hy
    obtain ⟨k', hk', s, hp, -⟩ := hy
    rw [hk] at hk'; cases hk'
    unfold uncoverChecks
    rw [pieceType_at h hf]
    refine List.mem_flatMap.mpr ⟨t, ?_, ?_⟩
    · rw [((wf_attacksFrom _ _ _ _).and_left).mem_toList, isSet_and, Bool.and_eq_true, isSet_attacksFrom, h.occ_fun, isSet_not,
        (not_own_iff h t).mpr ho]
      exact ⟨hat, rfl⟩
    · have htk : t ≠ k := by rintro rfl; exact hnot hf hat
      have hon := hp.onLine (t := t) hK.occ (fun u hu => Attacks.path hat u hu) htk (attacks_ne hat).symm
      have hal := isAlignedT_iff (b := t) hp.aligned
      by_cases ha : isAlignedT f t k = true
      · rw [if_neg (by rw [ha]; decide)]
        obtain ⟨hkd, d⟩ := hdir (by
          rcases hc with hc | ⟨s', hs', h1, h2⟩
          · exact hc
          · exfalso
            rw [hs'.unique hp] at h1 h2
            rcases hon.mp (hal.mp ha) with e | e
            · exact h1 e.symm
            · exact h2 e)
        rw [if_pos (direct_complete h d hkd).1]
        refine aligned_complete h d hkd (fun u hu => ?_) (hal.mp ha)
        by_contra hou
        rw [Bool.not_eq_false] at hou
        have := hp.only u (between_trans_right hp.btw hu) hou
        exact between_ne_left hu this
      · rw [if_pos (by simpa using ha)]
        exact pieceMoves_complete h hf hat hpro
  · right
    have hyf : (p.discoveredCheckBB true).isSet f = false := by simpa using hy
    obtain ⟨hkd, d⟩ := hdir (by
      rcases hc with hc | ⟨s', hs', -⟩
      · exact hc
      · exact absurd ((isSet_discoveredCheckBB h true f).mpr ⟨k, hk, s', hs', kd, hf⟩) hy)
    obtain ⟨d1, d2⟩ := direct_complete h d hkd
    refine List.mem_flatMap.mpr ⟨f, ?_, d2⟩
    rw [((wx.or wy).xor wy).mem_toList, isSet_xor, isSet_or, d1, hyf]
    rfl

/-! ### Drops -/

theorem pawnDrops_complete (ht : (absPos p).board t = none) (ha : Attacks p.turn .pawn (absPos p).occ t k)
    (hn : ∀ u, X u = X t → (absPos p).board u ≠ some (p.turn, .pawn)) (hmate : p.isPawnDropCheckMate p.turn t = some false) {l : List Move}
    (hl : pawnDropChecks p k = some l) : encode p (.drop .pawn t) ∈ l := by
  obtain ⟨bb, hbb⟩ : ∃ bb, bb = (p.bbOf PT.Pawn p.turn).toList.foldl clearFile (~~~p.occupied &&& pawnAttack p.turn.opp k) := ⟨_, rfl⟩
  have hwb : bb.WF := by rw [hbb]; exact wf_foldl_clearFile _ (wf_pawnAttack _ _).and_right
  have hset : bb.isSet t = true := by
    rw [hbb, isSet_foldl_clearFile, isSet_and, Bool.and_eq_true, empty_iff h, back_pawn _ _ _ (absPos p).occ]
    exact ⟨⟨ht, ha⟩, fun u hu hx => hn u hx.symm ((mem_bbOf h .pawn p.turn u).mp hu)⟩
  unfold pawnDropChecks at hl
  simp only [← hbb] at hl
  have hr : farRank p.turn k < 8 := by
    have h1 := (pawn_attack_iff _ _ _ _).mp ha
    have := Y_bounds t
    unfold farRank at h1 ⊢
    generalize p.turn = c at h1 ⊢
    cases c <;> simp only at h1 ⊢ <;> omega
  have h1 := (pawn_attack_iff _ _ _ _).mp ha
  have hback : t = backSq p.turn k := ((backSq_iff p.turn t k hr).mpr ⟨h1.1, by omega⟩).symm
  rw [if_pos ((tRank9_iff p.turn k).mpr hr), ← hback, if_pos (by rw [hset, Bool.true_and, beq_iff_eq, piece_zero_iff h]; exact ht), hmate,
    Option.map_some] at hl
  rw [← Option.some.inj hl, List.mem_append]
  exact .inl (List.mem_singleton.mpr rfl)

omit hk hw in
theorem dropChecks_complete {hp : HKind} {bb : Bitboard} (hwb : bb.WF) (hin : (p.hand p.turn).has hp.code = true) (ht : (absPos p).board t = none)
    (hset : bb.isSet t = true) : encode p (.drop hp t) ∈ dropChecks p hp.code hp.kind.code bb := by
  unfold dropChecks
  rw [if_pos hin]
  refine List.mem_map.mpr ⟨t, ?_, rfl⟩
  rw [hwb.and_right.mem_toList, isSet_and, Bool.and_eq_true, empty_iff h]
  exact ⟨ht, hset⟩

theorem dropsCheck_complete {hp : HKind} {l : List Move} (hps : (absPos p).Pseudo (.drop hp t)) (ha : Attacks p.turn hp.kind (absPos p).occ t k)
    (hm : ¬ (absPos p).PawnDropMate (.drop hp t)) (hl : dropsCheck p k = some l) : encode p (.drop hp t) ∈ l := by
  obtain ⟨h1, h2, -, h4⟩ := hps
  have hin : (p.hand p.turn).has hp.code = true := (has_iff h _ _).mpr h1
  have hmate := (pawnDrop_iff h hk hw hp h2).mpr hm
  unfold dropsCheck at hl
  simp only at hl
  obtain ⟨lp, hlp, hl⟩ := Option.map_eq_some_iff.mp hl
  rw [← hl]
  simp only [List.mem_append]
  have hocc : ∀ kd : Kind, Attacks p.turn kd (absPos p).occ t k → Attacks p.turn kd p.occupied.isSet t k := fun _ e => by rw [h.occ_fun]; exact e
  cases hp
  · rw [if_pos (show (p.hand p.turn).has 0 = true from hin)] at hlp
    exact .inl (.inl (.inl (.inl (.inl (.inl (pawnDrops_complete h hk hw h2 ha (h4 rfl) (hmate rfl ha) hlp))))))
  · exact .inl (.inl (.inl (.inl (.inl (.inr (dropChecks_complete h (hp := .lance) (wf_lanceAttack _ _ _) hin h2 ((back_lance _ _ _ _).mpr (hocc _ ha))))))))
  · exact .inl (.inl (.inl (.inl (.inr (dropChecks_complete h (hp := .knight) (wf_knightAttack _ _) hin h2 ((back_knight _ _ _ _).mpr ha))))))
  · exact .inl (.inl (.inl (.inr (dropChecks_complete h (hp := .silver) (wf_silverAttack _ _) hin h2 ((back_silver _ _ _ _).mpr ha)))))
  all_goals first
    | exact .inl (.inl (.inr (dropChecks_complete h (hp := .gold) (wf_goldAttack _ _) hin h2 ((back_gold _ .gold rfl _ _ _).mpr ha))))
    | exact .inl (.inr (dropChecks_complete h (hp := .bishop) (wf_bishopAttack _ _) hin h2 ((back_of h .bishop t).mpr ha)))
    | exact .inr (dropChecks_complete h (hp := .rook) (wf_rookAttack _ _) hin h2 ((back_of h .rook t).mpr ha))

/-- Every legal move that gives check is in the list. -/
theorem genCheck_complete {mv : Mv} {l : List Move} (hq : (absPos p).Regular) (hl : genCheck p true = some l) (hleg : (absPos p).Legal mv)
    (hc : ((absPos p).play mv).InCheck p.turn.opp) : encode p mv ∈ l := by
  have hK := h.kingAt hk
  obtain ⟨⟨hps, hsafe⟩, hmate⟩ := hleg
  obtain ⟨k', hk', s, hs⟩ := hc
  have hk'' : k' = k := (hK k').mp ((king_after (pseudo_playable hps hw) k').mp hk')
  subst hk''
  rw [show p.turn.opp.opp = p.turn by cases p.turn <;> rfl] at hs
  unfold genCheck at hl
  simp only [hk] at hl
  obtain ⟨ld, hld, hl⟩ := Option.map_eq_some_iff.mp hl
  rw [← hl, List.mem_append]
  cases mv with
  | drop hp t =>
    right
    exact dropsCheck_complete h hk hw hps ((drop_gives (q := absPos p) hK hw hps.2.1 s).mp hs).2 hmate hld
  | move f t pro =>
    left
    refine (filterSwap_perm _ _ _ le_rfl).mem_iff.mpr ?_
    rw [List.mem_filter]
    obtain ⟨kd, hf, hat, ho, hp1, hp2⟩ := hps
    obtain ⟨k0, hk0⟩ := kings_of h hq p.turn
    have hK0 := h.kingAt hk0
    have hsafe' : ¬ ((absPos p).play (.move f t pro)).InCheck p.turn := hsafe
    have hg := (move_gives (q := absPos p) (pro := pro) hK hw hf hat ho s).mp hs
    constructor
    · refine boardChecks_complete h hk hw hf hat ho ⟨hp1, hp2⟩ ?_
      rcases hg with ⟨rfl, hd⟩ | ⟨hp, hb⟩
      · left
        refine ⟨?_, hd⟩
        rintro rfl
        obtain rfl := (hK0 f).mp hf
        have hki := king_inCheck (q := absPos p) hK0 (pro := pro) (attacks_ne hat).symm
        rw [show (absPos p).turn = p.turn from rfl] at hki
        rw [hki] at hsafe'
        refine hsafe' ⟨k', .king, hK.at, ?_⟩
        rw [attacks_symm]
        have : Pos.arriving .king pro = .king := by cases pro <;> rfl
        rw [show (absPos p).turn = p.turn from rfl, this] at hd
        rcases hd with hd | ⟨d, hd, -⟩
        · exact .inl hd
        · simp [Kind.slides] at hd
      · right
        refine ⟨s, hp, ?_, hb⟩
        rintro rfl
        obtain ⟨kd', hb', -⟩ := hp.piece
        exact ho kd' hb'
    · by_cases hkd : kd = .king
      · subst hkd
        obtain rfl := (hK0 f).mp hf
        rw [isLegal_king h hf]
        have hki := king_inCheck (q := absPos p) hK0 (pro := pro) (attacks_ne hat).symm
        rw [show (absPos p).turn = p.turn from rfl] at hki
        rw [hki] at hsafe'
        rintro ⟨u, kd', hu, hau⟩
        refine hsafe' ⟨u, kd', hu, ?_⟩
        refine attacks_mono (fun v hv => ?_) hau
        unfold occWithout at hv
        split at hv
        · cases hv
        · exact hv
      · rw [isLegal_other h hf hkd hk0 hat ho]
        have hmi := move_inCheck (q := absPos p) hK0 (pro := pro) hf hkd ho
        rw [show (absPos p).turn = p.turn from rfl] at hmi
        rw [hmi] at hsafe'
        rintro ⟨u, h1, h2, h3⟩
        exact hsafe' ⟨u, .inr h1, h2, h3⟩

end
end Verif
