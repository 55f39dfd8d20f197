import Verif.Lemmas.MateLines

/-!
The group of `mateMoveIn1Ply` that gives check from two or three squares away.
-/

namespace Verif
open Spec Bitboard Position

/-! ### Directions -/

theorem two_away {k one t : Square} {c : Color} (hs : StepAt c .king k one) (hn : nextSquare k one = some t) :
    ∃ d, IsDir d ∧ At k d 1 one ∧ At k d 2 t := by
  obtain ⟨e, he, h1⟩ := king_step_dir hs
  obtain ⟨d, hd, h2, h3⟩ := nextSquare_some hn
  obtain rfl := line_dir_unique he hd ⟨1, le_refl _, h1⟩ h2
  exact ⟨e, he, h1, at_add h1 h3⟩

theorem three_away {k one t far : Square} {d : Dir} (hd : IsDir d) (h1 : At k d 1 one) (h2 : At k d 2 t) (hn : nextSquare one t = some far) :
    At k d 3 far := by
  obtain ⟨e, he, h3, h4⟩ := nextSquare_some hn
  have h5 : At one d 1 t := at_sub (by omega) h1 h2
  obtain rfl := line_dir_unique hd he ⟨1, le_refl _, h5⟩ h3
  exact at_add h2 h4

theorem directions_at {k one : Square} {d : Dir} (hd : IsDir d) (h : At k d 1 one) :
    directionsOf k one = if d.1 = 0 then (if d.2 < 0 then 8 else 16) else if d.2 = 0 then (if d.1 < 0 then 2 else 64)
      else if d.1 = d.2 then (if d.1 < 0 then 1 else 128) else (if d.1 < 0 then 4 else 32) := by
  obtain ⟨h1, h2⟩ := h
  obtain ⟨a, b⟩ := d
  obtain ⟨ha, hb, hc⟩ := hd
  have hne : k ≠ one := by rintro rfl; simp only at *; omega
  rw [← file_eq_X, ← file_eq_X] at h1
  rw [← rank_eq_Y, ← rank_eq_Y] at h2
  unfold directionsOf
  rw [if_neg hne]
  have e1 : ((file k : Int) = file one ↔ file k = file one) := by omega
  have e2 : ((rank k : Int) = rank one ↔ rank k = rank one) := by omega
  have e3 : ((file one : Int) < file k ↔ file one < file k) := by omega
  have e4 : ((rank one : Int) < rank k ↔ rank one < rank k) := by omega
  simp only [← e1, ← e2, ← e3, ← e4, h1, h2]
  rcases ha with ha | ha | ha <;> rcases hb with hb | hb | hb <;> simp only at ha hb <;> subst ha hb <;> simp at hc ⊢ <;> omega

theorem diag_iff {k one : Square} {d : Dir} (hd : IsDir d) (h : At k d 1 one) :
    isDiagDir (directionsOf k one) = true ↔ d.1 ≠ 0 ∧ d.2 ≠ 0 := by
  rw [directions_at hd h]
  obtain ⟨a, b⟩ := d
  obtain ⟨ha, hb, hc⟩ := hd
  simp only at *
  rcases ha with rfl | rfl | rfl <;> rcases hb with rfl | rfl | rfl <;> first | omega | decide

theorem forward_dir {us : Color} {k one : Square} {d : Dir} (hd : IsDir d) (h : At k d 1 one)
    (he : (directionsOf k one == match us with | .black => 16 | .white => 8) = true) : neg d = orient us (0, -1) := by
  rw [directions_at hd h] at he
  obtain ⟨a, b⟩ := d
  obtain ⟨ha, hb, hc⟩ := hd
  simp only at *
  cases us <;> rcases ha with rfl | rfl | rfl <;> rcases hb with rfl | rfl | rfl <;> first | omega | rfl | (exfalso; revert he; decide)

/-- `kt` slides in the direction opposite to `d`. -/
theorem slides_orth {us : Color} {kt : Kind} (hk : kt = .rook ∨ kt = .dragon) {d : Dir} (hd : IsDir d) (ho : ¬ (d.1 ≠ 0 ∧ d.2 ≠ 0)) :
    ∃ g ∈ kt.slides, orient us g = neg d := by
  obtain ⟨a, b⟩ := d
  obtain ⟨ha, hb, hc⟩ := hd
  simp only at *
  rcases hk with rfl | rfl <;> cases us <;> rcases ha with rfl | rfl | rfl <;> rcases hb with rfl | rfl | rfl <;>
    first | omega | simp [Kind.slides, orth, orient, neg]
theorem slides_diag {us : Color} {kt : Kind} (hk : kt = .bishop ∨ kt = .horse) {d : Dir} (hd : IsDir d) (ho : d.1 ≠ 0 ∧ d.2 ≠ 0) :
    ∃ g ∈ kt.slides, orient us g = neg d := by
  obtain ⟨a, b⟩ := d
  obtain ⟨ha, hb, hc⟩ := hd
  simp only at *
  rcases hk with rfl | rfl <;> cases us <;> rcases ha with rfl | rfl | rfl <;> rcases hb with rfl | rfl | rfl <;>
    first | omega | simp [Kind.slides, diag, orient, neg]

theorem slideLine_at {us : Color} {kt : Kind} {k t : Square} {d : Dir} {n : Nat} (hn : 1 ≤ n) (ht : At k d n t)
    (hg : ∃ g ∈ kt.slides, orient us g = neg d) : SlideLine us kt t k := by
  obtain ⟨g, hg, e⟩ := hg
  exact ⟨g, hg, by rw [e]; exact line_of_at hn (at_symm.mp ht)⟩

theorem rookEdge_dir {s u : Square} (h : (rookAttackToEdge s).isSet u = true) : ∃ g, IsDir g ∧ ¬ (g.1 ≠ 0 ∧ g.2 ≠ 0) ∧ Line s g u := by
  obtain ⟨g, hg, hl⟩ := (isSet_rookEdge .black s u).mp h
  refine ⟨_, isDir_orient (isDir_slides .rook g hg), ?_, hl⟩
  simp only [Kind.slides, orth, List.mem_cons, List.not_mem_nil, or_false] at hg
  rcases hg with rfl | rfl | rfl | rfl <;> decide

theorem bishopEdge_dir {s u : Square} (h : (bishopAttackToEdge s).isSet u = true) : ∃ g, IsDir g ∧ (g.1 ≠ 0 ∧ g.2 ≠ 0) ∧ Line s g u := by
  obtain ⟨g, hg, hl⟩ := (isSet_bishopEdge .black s u).mp h
  refine ⟨_, isDir_orient (isDir_slides .bishop g hg), ?_, hl⟩
  simp only [Kind.slides, diag, List.mem_cons, List.not_mem_nil, or_false] at hg
  rcases hg with rfl | rfl | rfl | rfl <;> decide

/-- Squares between the king and a square in a row. -/
theorem between_at {k t w : Square} {d : Dir} {n : Nat} (hd : IsDir d) (hn : 1 ≤ n) (ht : At k d n t) (hb : Between t w k) :
    ∃ j, 1 ≤ j ∧ j < n ∧ At k d j w := by
  obtain ⟨⟨j, hj, h1⟩, ⟨i, hi, h2⟩⟩ := (between_on hd (line_of_at hn ht)).mp (between_symm.mp hb)
  have := isDir_inj hd (at_add h1 h2) ht
  exact ⟨j, hj, by omega, h1⟩

theorem between_two {k one t w : Square} {d : Dir} (hd : IsDir d) (h1 : At k d 1 one) (h2 : At k d 2 t) (hb : Between t w k) : w = one := by
  obtain ⟨j, hj, hjn, h⟩ := between_at hd (by omega) h2 hb
  obtain rfl : j = 1 := by omega
  exact at_unique h h1

theorem Guarded.mono {p : Position} {avoid : Option Square} {occ occ' : Square → Bool} {u : Square} (h : Guarded p avoid occ u)
    (ho : ∀ w, occ' w = true → occ w = true) : Guarded p avoid occ' u := by
  obtain ⟨s, kd, h1, h2, h3⟩ := h
  exact ⟨s, kd, h1, h2, attacks_mono ho h3⟩

/-! ### Drops -/

section
variable {p : Position} {k : Square} (h : Ready p k)
include h

theorem farCovered_true {dr : Nat} {t : Square} (hc : p.farCovered k dr t = true) {u : Square} (hu : StepAt p.turn.opp .king k u)
    (hne : ∀ kd, (absPos p).board u ≠ some (p.turn.opp, kd)) :
    Guarded p none (p.occupied ||| setMask t).isSet u ∨ (farEdge dr t).isSet u = true := by
  unfold farCovered at hc
  simp only [Bool.not_eq_true'] at hc
  by_contra hcon
  rw [not_or] at hcon
  have hw : (~~~farEdge dr t &&& (~~~p.byColor p.turn.opp &&& kingAttack k &&&
      ~~~(p.aroundNonSlider p.turn k ||| p.attacksSlider p.turn (p.occupied ||| setMask t)))).WF :=
    ((wf_kingAttack k).and_right.and_left).and_right
  rw [Bool.eq_false_iff, ne_eq, hw.isAny_iff] at hc
  apply hc
  refine ⟨u, ?_⟩
  have e1 : (p.byColor p.turn.opp).isSet u = false := by
    rw [Bool.eq_false_iff, ne_eq, h.cons.color]; rintro ⟨kd, e⟩; exact hne kd e
  have e2 : (kingAttack k).isSet u = true := (isSet_king_step _ k u).mpr hu
  have e3 : (p.aroundNonSlider p.turn k).isSet u = false := by
    rw [Bool.eq_false_iff]; exact fun e => hcon.1 (aroundNonSlider_sound h _ e)
  have e4 : (p.attacksSlider p.turn (p.occupied ||| setMask t)).isSet u = false := by
    rw [Bool.eq_false_iff]; exact fun e => hcon.1 (attacksSlider_sound h e)
  simp only [isSet_and, isSet_not, isSet_or, e1, e2, e3, e4, Bool.eq_false_iff.mpr hcon.2]; decide

theorem farDrop_sound {hp : HKind} {t : Square} {dr : Nat} {d : Dir} {n : Nat} (hne : hp ≠ .pawn) (hin : (p.hand p.turn).has hp.code = true)
    (hex : (p.hand p.turn.opp).exceptPawnExists = false)
    (hd : IsDir d) (hn : 2 ≤ n) (ht : At k d n t) (hs : SlideLine p.turn hp.kind t k) (hdead : ¬ Dead p.turn hp.kind t)
    (hempty : (absPos p).board t = none)
    (hbtw : ∀ w, Between t w k → (absPos p).board w = none ∧ p.canPawnDrop p.turn.opp w = false ∧
      p.canCapture p.turn.opp k w (p.discoveredCheckBB false) p.occupied = false)
    (hcap : p.canCapture p.turn.opp k t (p.discoveredCheckBB false) p.occupied = false)
    (hcov : p.farCovered k dr t = true) (hedge : ∀ u, (farEdge dr t).isSet u = true → StepAt p.turn.opp .king k u → Line t (neg d) u) :
    Found p (makeDropMove hp.kind.code t.val) := by
  have hps : (absPos p).Pseudo (.drop hp t) := ⟨(has_iff h.cons p.turn hp).mp hin, hempty, hdead, fun e => absurd e hne⟩
  have ha : After (absPos p) ((absPos p).play (.drop hp t)) none t hp.kind := After.of_drop hp hempty
  have hfree : ∀ w, Between t w k → ((absPos p).play (.drop hp t)).occ w = false := by
    intro w hw
    rw [Bool.eq_false_iff, ne_eq, ha.occ]
    rintro (e | ⟨-, e⟩)
    · exact between_ne_left hw e
    · unfold Pos.occ at e; rw [(hbtw w hw).1] at e; cases e
  have hsub : ∀ w, (p.occupied.isSet w = true ∨ w = t) ↔ ((absPos p).play (.drop hp t)).occ w = true := by
    intro w; rw [ha.occ, h.cons.occ]
    constructor
    · rintro (e | e)
      · exact .inr ⟨by simp, e⟩
      · exact .inl e
    · rintro (e | ⟨-, e⟩)
      · exact .inr e
      · exact .inl e
  refine ⟨.drop hp t, h.legal_drop hne hps, ?_, rfl⟩
  refine far_mate h ha hd hn ht hs hfree ?_ ?_ (by simp) (by simp) ?_
  · intro u hu hnb
    rcases farCovered_true h hcov hu hnb with e | e
    · refine .inl (e.mono fun w hw => ?_)
      rw [isSet_or, isSet_setMask, Bool.or_eq_true, decide_eq_true_eq]
      exact (hsub w).mpr hw
    · exact .inr (far_cover hd hn ht hs hfree hu (hedge u e hu))
  · intro f v kd hf hkd hft hat hv
    have hat' : Attacks p.turn.opp kd p.occupied.isSet f v := attacks_mono (fun w hw => (hsub w).mp (.inl hw)) hat
    rcases hv with rfl | hv
    · exact canCapture_false h hcap hf hkd hat'
    · exact canCapture_false h (hbtw v hv).2.2 hf hkd hat'
  · intro hp' v hv
    exact no_drop h ha hex (hbtw v hv).2.1 (fun e => by rw [hempty] at e; cases e) hp'

theorem farDropType_sound {one t : Square} {d : Dir} {n : Nat} {pt : Nat} (hd : IsDir d) (h1 : At k d 1 one) (hn : 2 ≤ n) (ht : At k d n t)
    (hf : farDropType p.turn (p.hand p.turn) (directionsOf k one) = some pt) :
    ∃ hp : HKind, hp ≠ .pawn ∧ (p.hand p.turn).has hp.code = true ∧ pt = hp.kind.code ∧ SlideLine p.turn hp.kind t k ∧ ¬ Dead p.turn hp.kind t ∧
      ∀ u, (farEdge (directionsOf k one) t).isSet u = true → StepAt p.turn.opp .king k u → Line t (neg d) u := by
  have hedge : ∀ u, (farEdge (directionsOf k one) t).isSet u = true → StepAt p.turn.opp .king k u → Line t (neg d) u := by
    intro u hu hst
    obtain ⟨e, he, hst⟩ := king_step_dir hst
    unfold farEdge at hu
    have hdi := diag_iff hd h1
    split at hu
    · rename_i hdg
      obtain ⟨g, hg, hgd, hl⟩ := bishopEdge_dir hu
      rcases far_line hd hn ht he hst hg hl with rfl | ⟨e1, -⟩
      · exact hl
      · have := hdi.mp hdg; omega
    · rename_i hdg
      obtain ⟨g, hg, hgd, hl⟩ := rookEdge_dir hu
      rcases far_line hd hn ht he hst hg hl with rfl | ⟨-, e1, -⟩
      · exact hl
      · exact absurd e1 hgd
  unfold farDropType at hf
  split at hf
  · rename_i hdg
    split at hf
    · rename_i hh
      cases hf
      exact ⟨.bishop, by decide, hh, rfl, slideLine_at (by omega) ht (slides_diag (.inl rfl) hd ((diag_iff hd h1).mp hdg)), id, hedge⟩
    · cases hf
  · rename_i hdg
    have hno : ¬ (d.1 ≠ 0 ∧ d.2 ≠ 0) := fun e => hdg ((diag_iff hd h1).mpr e)
    by_cases hc : ((directionsOf k one == match p.turn with | .black => 16 | .white => 8) && (p.hand p.turn).has 1) = true
    · have hf := (if_pos hc).symm.trans hf
      rw [Bool.and_eq_true] at hc
      cases hf
      have hfd := forward_dir hd h1 hc.1
      refine ⟨.lance, by decide, hc.2, rfl, slideLine_at (by omega) ht ⟨(0, -1), by decide, hfd.symm⟩, ?_, hedge⟩
      simp only [Dead, HKind.kind]
      obtain ⟨-, e2⟩ := ht
      have hky := Y_bounds k
      have hd2 : -d.2 = (orient p.turn (0, -1)).2 := congrArg Prod.snd hfd
      unfold farRank
      revert hd2
      cases p.turn <;> simp only [orient] <;> intro hd2
      · obtain e : d.2 = 1 := by omega
        rw [e] at e2; omega
      · obtain e : d.2 = -1 := by omega
        rw [e] at e2; omega
    · have hf := (if_neg hc).symm.trans hf
      split at hf
      · rename_i hh
        cases hf
        exact ⟨.rook, by decide, hh, rfl, slideLine_at (by omega) ht (slides_orth (.inl rfl) hd hno), id, hedge⟩
      · cases hf

theorem mateFarDrop_sound {one t : Square} {d : Dir} {esc : Nat} {m : Move} (hex : (p.hand p.turn.opp).exceptPawnExists = false)
    (hd : IsDir d) (h1 : At k d 1 one) (h2 : At k d 2 t) (hone : (absPos p).board one = none)
    (hpw : p.canPawnDrop p.turn.opp one = false) (hm : p.mateFarDrop k one t esc = some m) : Found p m := by
  unfold mateFarDrop at hm
  simp only at hm
  split at hm
  · cases hm
  · rename_i pt hpt
    split at hm
    · cases hm
    · rename_i ht0
      have hte : (absPos p).board t = none := (piece_zero_iff h.cons t).mp (by simpa using ht0)
      split at hm
      · cases hm
      · rename_i hc1
        split at hm
        · cases hm
        · rename_i hc2
          rw [Bool.not_eq_true] at hc1 hc2
          split at hm
          · rename_i hcov
            cases hm
            obtain ⟨hp, e1, e2, rfl, e4, e5, e6⟩ := farDropType_sound h hd h1 (by omega) h2 hpt
            refine farDrop_sound h e1 e2 hex hd (by omega) h2 e4 e5 hte (fun w hw => ?_) hc2 hcov e6
            obtain rfl := between_two hd h1 h2 hw
            exact ⟨hone, hpw, hc1⟩
          · split at hm
            · split at hm
              · cases hm
              · rename_i far hfar
                have h3 := three_away hd h1 h2 hfar
                split at hm
                · cases hm
                · rename_i hf0
                  have hfe : (absPos p).board far = none := (piece_zero_iff h.cons far).mp (by simpa using hf0)
                  split at hm
                  · cases hm
                  · rename_i hpw2
                    split at hm
                    · cases hm
                    · rename_i hc3
                      rw [Bool.not_eq_true] at hpw2 hc3
                      split at hm
                      · rename_i hcov
                        cases hm
                        obtain ⟨hp, e1, e2, rfl, e4, e5, e6⟩ := farDropType_sound h hd h1 (by omega) h3 hpt
                        refine farDrop_sound h e1 e2 hex hd (by omega) h3 e4 e5 hfe (fun w hw => ?_) hc3 hcov e6
                        obtain ⟨j, hj, hjn, hw⟩ := between_at hd (by omega) h3 hw
                        rcases (by omega : j = 1 ∨ j = 2) with rfl | rfl
                        · obtain rfl := at_unique hw h1
                          exact ⟨hone, hpw, hc1⟩
                        · obtain rfl := at_unique hw h2
                          exact ⟨hte, hpw2, hc2⟩
                      · cases hm
            · cases hm

/-! ### Moves -/

theorem farMovers_sound {one t src : Square} {d : Dir} (hd : IsDir d) (h1 : At k d 1 one)
    (hs : src ∈ (p.farMovers (directionsOf k one) t).toList) :
    ∃ kd, (absPos p).board src = some (p.turn, kd) ∧ Attacks p.turn kd (absPos p).occ src t ∧
      (((d.1 ≠ 0 ∧ d.2 ≠ 0) ∧ (kd = .bishop ∨ kd = .horse)) ∨
       (¬ (d.1 ≠ 0 ∧ d.2 ≠ 0) ∧ ((kd = .rook ∨ kd = .dragon) ∨ (kd = .lance ∧ neg d = orient p.turn (0, -1))))) := by
  have hdi := diag_iff hd h1
  unfold farMovers at hs
  simp only at hs
  have wz : ∀ (b : Bool) (x : Bitboard), x.WF → (if b = true then x else zero).WF := by
    intro b x hx; cases b
    · exact WF.zero
    · exact hx
  have sz : ∀ (b : Bool) (x : Bitboard) (s : Square), (if b = true then x else zero).isSet s = true → b = true ∧ x.isSet s = true := by
    intro b x s hx; cases b
    · simp at hx
    · exact ⟨rfl, hx⟩
  split at hs
  · rename_i hdg
    have hno : ¬ (d.1 ≠ 0 ∧ d.2 ≠ 0) := fun e => by rw [hdi.mpr e] at hdg; cases hdg
    rw [(((wz _ _ (wf_bbOf2c h _ _).and_right).or (wz _ _ (wf_bbOf h _ _).and_right)).or (wz _ _ (wf_bbOf h _ _).and_right)).mem_toList,
      isSet_or, isSet_or, Bool.or_eq_true, Bool.or_eq_true] at hs
    rcases hs with (e | e) | e
    · have e := (sz _ _ _ e).2
      rw [isSet_and, Bool.and_eq_true] at e
      obtain ⟨kd, hb, hk⟩ := bbOf2c_kind h (a := .rook) (b := .dragon) e.2
      have ha := (back_rook p.turn t src p.occupied).mp e.1
      rw [h.cons.occ_fun] at ha
      refine ⟨kd, hb, line_attack p.turn ?_ rfl ha, .inr ⟨hno, .inl hk⟩⟩
      rcases hk with rfl | rfl <;> exact fun x hx => hx
    · have e := (sz _ _ _ e).2
      rw [isSet_and, Bool.and_eq_true] at e
      have hst := king_step ((back_king p.turn t src (fun _ => true)).mp e.1)
      exact ⟨.dragon, (isSet_bbOf h .dragon p.turn src).mp e.2, adj_attack (.inr rfl) hst, .inr ⟨hno, .inl (.inr rfl)⟩⟩
    · obtain ⟨e0, e⟩ := sz _ _ _ e
      rw [Bool.and_eq_true] at e0
      rw [isSet_and, Bool.and_eq_true] at e
      have ha := (back_lance p.turn t src p.occupied).mp e.1
      rw [h.cons.occ_fun] at ha
      exact ⟨.lance, (isSet_bbOf h .lance p.turn src).mp e.2, ha, .inr ⟨hno, .inr ⟨rfl, forward_dir hd h1 e0.1⟩⟩⟩
  · rename_i hdg
    have hdd : d.1 ≠ 0 ∧ d.2 ≠ 0 := hdi.mp (by simpa using hdg)
    rw [((wz _ _ (wf_bbOf2c h _ _).and_right).or (wz _ _ (wf_bbOf h _ _).and_right)).mem_toList, isSet_or, Bool.or_eq_true] at hs
    rcases hs with e | e
    · have e := (sz _ _ _ e).2
      rw [isSet_and, Bool.and_eq_true] at e
      obtain ⟨kd, hb, hk⟩ := bbOf2c_kind h (a := .bishop) (b := .horse) e.2
      have ha := (back_bishop p.turn t src p.occupied).mp e.1
      rw [h.cons.occ_fun] at ha
      refine ⟨kd, hb, line_attack p.turn ?_ rfl ha, .inl ⟨hdd, hk⟩⟩
      rcases hk with rfl | rfl <;> exact fun x hx => hx
    · have e := (sz _ _ _ e).2
      rw [isSet_and, Bool.and_eq_true] at e
      have hst := king_step ((back_king p.turn t src (fun _ => true)).mp e.1)
      exact ⟨.horse, (isSet_bbOf h .horse p.turn src).mp e.2, adj_attack (.inl rfl) hst, .inl ⟨hdd, .inr rfl⟩⟩

omit h in
/-- Lines meeting at right angles or not at all. -/
theorem cross_dirs {k t s : Square} {d g e : Dir} {n m : Nat} (hd : IsDir d) (hg : IsDir g) (he : IsDir e) (hn : 1 ≤ n) (hm : 1 ≤ m)
    (ht : At k d 2 t) (hs : At s g n k) (ha : At s e m t) (hc : (d.1 ≠ 0 ∧ d.2 ≠ 0) ↔ (g.1 ≠ 0 ∧ g.2 ≠ 0))
    (hce : ((e.1 ≠ 0 ∧ e.2 ≠ 0) ↔ (g.1 ≠ 0 ∧ g.2 ≠ 0)) ∨ m = 1) : g = d ∨ g = neg d := by
  obtain ⟨h1, h2⟩ := ht
  obtain ⟨h3, h4⟩ := hs
  obtain ⟨h5, h6⟩ := ha
  obtain ⟨ha, hb, hc1⟩ := hd
  obtain ⟨ha', hb', hc2⟩ := hg
  obtain ⟨hea, heb, hc3⟩ := he
  obtain ⟨a, b⟩ := d
  obtain ⟨x, y⟩ := g
  obtain ⟨v, w⟩ := e
  simp only [neg, Prod.mk.injEq] at *
  rcases ha with rfl | rfl | rfl <;> rcases hb with rfl | rfl | rfl <;> first | omega | skip
  all_goals rcases ha' with rfl | rfl | rfl <;> rcases hb' with rfl | rfl | rfl <;> first | omega | skip
  all_goals rcases hea with rfl | rfl | rfl <;> rcases heb with rfl | rfl | rfl <;> omega

omit h in
theorem slide_class {c : Color} {kd : Kind} {g : Dir} (hg : g ∈ kd.slides) :
    ((kd = .bishop ∨ kd = .horse) → (orient c g).1 ≠ 0 ∧ (orient c g).2 ≠ 0) ∧
    ((kd = .rook ∨ kd = .dragon ∨ kd = .lance) → ¬ ((orient c g).1 ≠ 0 ∧ (orient c g).2 ≠ 0)) := by
  constructor
  · rintro (rfl | rfl) <;> simp only [Kind.slides, diag, List.mem_cons, List.not_mem_nil, or_false] at hg <;>
      rcases hg with rfl | rfl | rfl | rfl <;> cases c <;> decide
  · rintro (rfl | rfl | rfl) <;> simp only [Kind.slides, orth, List.mem_cons, List.not_mem_nil, or_false] at hg
    · rcases hg with rfl | rfl | rfl | rfl <;> cases c <;> decide
    · rcases hg with rfl | rfl | rfl | rfl <;> cases c <;> decide
    · subst hg; cases c <;> decide

/-- The moving slider pins nothing (that does not stand on its destination). -/
theorem far_no_pin {one t src f : Square} {d : Dir} {kd : Kind} (hd : IsDir d) (h1 : At k d 1 one) (h2 : At k d 2 t)
    (hone : (absPos p).board one = none) (hb : (absPos p).board src = some (p.turn, kd)) (ha : Attacks p.turn kd (absPos p).occ src t)
    (hkd : ((d.1 ≠ 0 ∧ d.2 ≠ 0) ∧ (kd = .bishop ∨ kd = .horse)) ∨
       (¬ (d.1 ≠ 0 ∧ d.2 ≠ 0) ∧ (kd = .rook ∨ kd = .dragon ∨ kd = .lance)))
    (hp : PinLine (absPos p) p.turn k f src) (hft : f ≠ t) : False := by
  obtain ⟨⟨kd', hb', g, hg, hl⟩, hbt, hof, -⟩ := hp
  rw [hb] at hb'; cases hb'
  obtain ⟨n, hn, hl⟩ := hl
  have hgd := isDir_orient (c := p.turn) (isDir_slides kd g hg)
  have hcl := slide_class (c := p.turn) hg
  have hclass : (d.1 ≠ 0 ∧ d.2 ≠ 0) ↔ ((orient p.turn g).1 ≠ 0 ∧ (orient p.turn g).2 ≠ 0) := by
    rcases hkd with ⟨e, e'⟩ | ⟨e, e'⟩
    · exact ⟨fun _ => hcl.1 e', fun _ => e⟩
    · exact ⟨fun x => absurd x e, fun x => absurd x (hcl.2 e')⟩
  have key : orient p.turn g = d ∨ orient p.turn g = neg d := by
    rcases ha with ⟨e, he, hst⟩ | ⟨e, he, m, hm, hst, -⟩
    · have hed : IsDir e := by
        have he' : e ∈ kd.steps := he
        rcases hkd with ⟨-, rfl | rfl⟩ | ⟨-, rfl | rfl | rfl⟩ <;>
          simp only [Kind.steps, orth, diag, List.mem_cons, List.not_mem_nil, or_false] at he' <;>
          rcases he' with rfl | rfl | rfl | rfl <;> (unfold IsDir; decide)
      exact cross_dirs hd hgd (isDir_orient (c := p.turn) hed) hn (le_refl 1) h2 hl hst hclass (.inr rfl)
    · have hcl' := slide_class (c := p.turn) he
      refine cross_dirs hd hgd (isDir_orient (c := p.turn) (isDir_slides kd e he)) hn hm h2 hl hst hclass (.inl ?_)
      rcases hkd with ⟨-, e'⟩ | ⟨-, e'⟩
      · exact ⟨fun _ => hcl.1 e', fun _ => hcl'.1 e'⟩
      · exact ⟨fun x => absurd x (hcl'.2 e'), fun x => absurd x (hcl.2 e')⟩
  rcases key with e | e <;> rw [e] at hl
  · have := Attacks.path ha k (between_iff.mpr ⟨d, hd, line_of_at hn hl, line_of_at (by omega) h2⟩)
    rw [h.kingAt.occ] at this; cases this
  · have hsn : At k d n src := by have := at_symm.mp hl; rwa [neg_neg'] at this
    obtain ⟨j, hj, hjn, hf⟩ := between_at hd hn hsn hbt
    have hj1 : j ≠ 1 := by
      rintro rfl
      obtain rfl := at_unique hf h1
      unfold Pos.occ at hof; rw [hone] at hof; cases hof
    have hj2 : j ≠ 2 := by rintro rfl; exact hft (at_unique hf h2)
    have hbt' : Between t f src := between_iff.mpr ⟨d, hd, ⟨j - 2, by omega, at_sub (by omega) h2 hf⟩, ⟨n - j, by omega, at_sub (by omega) hf hsn⟩⟩
    have := Attacks.path ha f (between_symm.mp hbt')
    rw [hof] at this; cases this

theorem tryFar_sound {one t src : Square} {d : Dir} {m : Move} (hex : (p.hand p.turn.opp).exceptPawnExists = false)
    (hd : IsDir d) (h1 : At k d 1 one) (h2 : At k d 2 t) (hone : (absPos p).board one = none)
    (ht : ∀ kd, (absPos p).board t ≠ some (p.turn, kd)) (hpw : p.canPawnDrop p.turn.opp one = false)
    (hcapw : (absPos p).board t = some (p.turn.opp, .pawn) → X t = X one → (p.hand p.turn.opp).has 0 = false)
    (hs : src ∈ (p.farMovers (directionsOf k one) t).toList) (hm : p.tryFar k one t (directionsOf k one) src = some m) : Found p m := by
  obtain ⟨kd, hb, hatt, hkd⟩ := farMovers_sound h hd h1 hs
  have hdi := diag_iff hd h1
  have hpt : pieceType (p.piece src) = kd.code := pieceType_at h.cons hb
  unfold tryFar at hm
  simp only at hm
  split at hm
  · cases hm
  rename_i c1
  split at hm
  · cases hm
  rename_i c2
  split at hm
  · cases hm
  rename_i c3
  split at hm
  · cases hm
  rename_i c4
  rw [Bool.not_eq_true] at c1 c2 c3 c4
  obtain ⟨pro, hpro⟩ : ∃ pro : Bool, pro = decide (pieceType (p.piece src) ≠ PT.Lance ∧ canPromote2 p.turn src t = true ∧
    (!(pieceType (p.piece src)).testBit 3) = true) := ⟨_, rfl⟩
  have hking : kd ≠ .king := by rcases hkd with ⟨-, rfl | rfl⟩ | ⟨-, (rfl | rfl) | ⟨rfl, -⟩⟩ <;> decide
  have hzone : canPromote2 p.turn src t = true ↔ zone p.turn src ∨ zone p.turn t := by
    unfold canPromote2; rw [Bool.or_eq_true, canPromote_iff, canPromote_iff]
  have hproOK : ProOK p.turn kd src t pro := by
    rw [hpt] at hpro
    constructor
    · intro e
      rw [e] at hpro
      have hpro := of_decide_eq_true hpro.symm
      refine ⟨?_, hzone.mp hpro.2.1⟩
      rcases hkd with ⟨-, rfl | rfl⟩ | ⟨-, (rfl | rfl) | ⟨rfl, -⟩⟩ <;> first | rfl | (exfalso; revert hpro; simp only [Kind.code, PT.Lance]; intro hpro; simp at hpro; done) | skip
      all_goals (exfalso; have := hpro.2.2; revert this; decide)
    · intro _ hdd
      rcases hkd with ⟨-, rfl | rfl⟩ | ⟨-, (rfl | rfl) | ⟨rfl, hfd⟩⟩ <;> first | exact hdd | skip
      simp only [Dead] at hdd
      obtain ⟨-, e2⟩ := h2
      have hky := Y_bounds k
      have hd2 : -d.2 = (orient p.turn (0, -1)).2 := congrArg Prod.snd hfd
      unfold farRank at hdd
      revert hd2 hdd
      cases p.turn <;> simp only [orient] <;> intro hd2 hdd
      · obtain e : d.2 = 1 := by omega
        rw [e] at e2; omega
      · obtain e : d.2 = -1 := by omega
        rw [e] at e2; omega
  have hps : (absPos p).Pseudo (.move src t pro) := ⟨kd, hb, hatt, ht, hproOK.1, hproOK.2⟩
  have ha : After (absPos p) ((absPos p).play (.move src t pro)) (some src) t (Pos.arriving kd pro) := After.of_move pro hb ht
  have hst : t ≠ src := (attacks_ne hatt).symm
  have hslide : ∀ w, (p.occupied ^^^ setMask src).isSet w = true ↔ w ≠ src ∧ (absPos p).occ w = true := by
    intro w
    rw [isSet_xor, isSet_setMask, h.cons.occ]
    by_cases e : w = src
    · subst e; simp [occ_of_board hb]
    · simp [e]
  have hocc : ∀ w, ((absPos p).play (.move src t pro)).occ w = true ↔ w = t ∨ (p.occupied ^^^ setMask src).isSet w = true := by
    intro w; rw [ha.occ, hslide]; simp
  have hfree : ∀ w, Between t w k → ((absPos p).play (.move src t pro)).occ w = false := by
    intro w hw
    obtain rfl := between_two hd h1 h2 hw
    rw [Bool.eq_false_iff, ne_eq, ha.occ]
    rintro (e | ⟨-, e⟩)
    · exact between_ne_left hw e
    · unfold Pos.occ at e; rw [hone] at e; cases e
  have hkt : ((d.1 ≠ 0 ∧ d.2 ≠ 0) ∧ (Pos.arriving kd pro = .bishop ∨ Pos.arriving kd pro = .horse)) ∨
      (¬ (d.1 ≠ 0 ∧ d.2 ≠ 0) ∧ ((Pos.arriving kd pro = .rook ∨ Pos.arriving kd pro = .dragon) ∨
        (kd = .lance ∧ Pos.arriving kd pro = .lance ∧ neg d = orient p.turn (0, -1)))) := by
    rcases hkd with ⟨e, rfl | rfl⟩ | ⟨e, (rfl | rfl) | ⟨rfl, hfd⟩⟩
    · cases pro <;> simp [Pos.arriving, Kind.promoted, e]
    · cases pro <;> simp [Pos.arriving, Kind.promoted, e]
    · cases pro <;> simp [Pos.arriving, Kind.promoted] <;> omega
    · cases pro <;> simp [Pos.arriving, Kind.promoted] <;> omega
    · have : pro = false := by
        rw [hpro, hpt, decide_eq_false_iff_not]; exact fun e => e.1 rfl
      subst this
      exact .inr ⟨e, .inr ⟨rfl, rfl, hfd⟩⟩
  have hsl : SlideLine p.turn (Pos.arriving kd pro) t k := by
    refine slideLine_at (n := 2) (by omega) h2 ?_
    rcases hkt with ⟨e, e'⟩ | ⟨e, e' | ⟨-, e', hfd⟩⟩
    · exact slides_diag e' hd e
    · exact slides_orth e' hd e
    · rw [e']; exact ⟨(0, -1), by decide, hfd.symm⟩
  refine ⟨.move src t pro, h.legal_move hb hking hps (fun k' hk' => leavesLineN_false (knight := false) h hb hatt ht hk' c1), ?_, ?_⟩
  · refine far_mate h ha hd (le_refl 2) h2 hsl hfree ?_ ?_ ?_ ?_ ?_
    · intro u hu hnb
      by_contra hcon
      rw [not_or] at hcon
      have hw : (kingAttack k &&& ~~~(p.byColor p.turn.opp ||| p.aroundAvoid p.turn k src (p.occupied ^^^ setMask src ||| setMask t) |||
        p.farAttacks (directionsOf k one) src t)).WF := (wf_kingAttack k).and_left
      rw [Bool.eq_false_iff, ne_eq, hw.isAny_iff] at c4
      apply c4
      refine ⟨u, ?_⟩
      have e1 : (p.byColor p.turn.opp).isSet u = false := by
        rw [Bool.eq_false_iff, ne_eq, h.cons.color]; rintro ⟨kd, e⟩; exact hnb kd e
      have e2 : (kingAttack k).isSet u = true := (isSet_king_step _ k u).mpr hu
      have e3 : (p.aroundAvoid p.turn k src (p.occupied ^^^ setMask src ||| setMask t)).isSet u = false := by
        rw [Bool.eq_false_iff]
        refine fun e => hcon.1 ((aroundAvoid_sound h ?_ e).mono fun w hw => ?_)
        · rw [hb]; intro e; cases e
          rcases hkd with ⟨-, e | e⟩ | ⟨-, (e | e) | ⟨e, -⟩⟩ <;> cases e
        · rw [isSet_or, isSet_setMask, Bool.or_eq_true, decide_eq_true_eq]
          exact ((hocc w).mp hw).symm
      have e4 : (p.farAttacks (directionsOf k one) src t).isSet u = false := by
        rw [Bool.eq_false_iff]
        intro e
        apply hcon.2
        obtain ⟨x, hx, hxu⟩ := king_step_dir hu
        have hmain : ∀ g, IsDir g → Line t g u → (g = neg d ∨ ¬ ((d.1 = 0 ∨ d.2 = 0) ∧ (g.1 ≠ 0 ∧ g.2 ≠ 0) ∧ At t g 1 u)) →
            Attacks p.turn (Pos.arriving kd pro) (occWithout ((absPos p).play (.move src t pro)).occ k) t u := by
          intro g hg hl hor
          rcases far_line hd (le_refl 2) h2 hx hxu hg hl with rfl | hc
          · exact far_cover hd (le_refl 2) h2 hsl hfree hu hl
          · rcases hor with rfl | hor
            · exact far_cover hd (le_refl 2) h2 hsl hfree hu hl
            · exact absurd hc hor
        unfold farAttacks at e
        have hrook : (rookAttackToEdge t).isSet u = true → Attacks p.turn (Pos.arriving kd pro) (occWithout ((absPos p).play (.move src t pro)).occ k) t u := by
          intro e
          obtain ⟨g, hg, hgd, hl⟩ := rookEdge_dir e
          exact hmain g hg hl (.inr fun hc => hgd hc.2.1)
        split at e
        · rename_i hdg
          have hdd := hdi.mp hdg
          rw [isSet_or, Bool.or_eq_true] at e
          rcases e with e | e
          · exact hrook e
          · obtain ⟨g, hg, hgd, hl⟩ := bishopEdge_dir e
            exact hmain g hg hl (.inr fun hc => by omega)
        · rename_i hdg
          have hno : ¬ (d.1 ≠ 0 ∧ d.2 ≠ 0) := fun e => hdg (hdi.mpr e)
          split at e
          · exact hrook e
          · rename_i hnl
            split at e
            · rename_i hpd
              rw [isSet_or, Bool.or_eq_true] at e
              rcases e with e | e
              · exact hrook e
              · obtain ⟨g, hg, hgd, hl⟩ := bishopEdge_dir e
                by_cases hadj : At t g 1 u
                · have hdr : Pos.arriving kd pro = .dragon := by
                    rw [hpt] at hpro hpd hnl
                    rcases hkd with ⟨e', -⟩ | ⟨-, (rfl | rfl) | ⟨rfl, -⟩⟩
                    · exact absurd e' hno
                    · have : pro = true := by
                        rw [hpro, decide_eq_true_eq]
                        refine ⟨by decide, ?_, by decide⟩
                        simpa [Kind.code, PT.Dragon] using hpd
                      rw [this]; rfl
                    · cases pro <;> rfl
                    · exact absurd rfl hnl
                  rw [hdr]
                  exact adj_attack (.inr rfl) (king_step_of hg hadj)
                · exact hmain g hg hl (.inr fun hc => hadj hc.2.2)
            · exact hrook e
      simp only [isSet_and, isSet_not, isSet_or, e1, e2, e3, e4]; decide
    · intro f v kd' hf hkd' hft hat hv
      have hat' : Attacks p.turn.opp kd' (p.occupied ^^^ setMask src).isSet f v := attacks_mono (fun w hw => (hocc w).mpr (.inr hw)) hat
      rcases hv with rfl | hv
      · exact canCapture_false h c2 hf hkd' hat'
      · obtain rfl := between_two hd h1 h2 hv
        exact canCaptureAvoid_false h c3 hf hkd' hft hat'
    · rintro S f hp hft e
      cases e
      refine far_no_pin h hd h1 h2 hone hb hatt ?_ hp hft
      rcases hkd with e | ⟨e, (e' | e') | ⟨e', -⟩⟩
      · exact .inl e
      · exact .inr ⟨e, .inl e'⟩
      · exact .inr ⟨e, .inr (.inl e')⟩
      · exact .inr ⟨e, .inr (.inr e')⟩
    · rintro f kd' hf e
      cases e
      rw [hb] at hf
      exact opp_ne p.turn (congrArg Prod.fst (Option.some.inj hf)).symm
    · intro hp v hv
      obtain rfl := between_two hd h1 h2 hv
      exact no_drop h ha hex hpw hcapw hp
  · have hm := (Option.some.inj hm).symm
    rw [hm]
    cases hpr : pro
    · rw [hpr] at hpro
      rw [if_neg (of_decide_eq_false hpro.symm)]
      exact genMove_eq rfl
    · rw [hpr] at hpro
      rw [if_pos (of_decide_eq_true hpro.symm)]
      exact genPro_eq rfl

theorem mateFar_sound {m : Move} (hm : p.mateFar k = some m) : Found p m := by
  unfold mateFar at hm
  simp only at hm
  split at hm
  · cases hm
  rename_i hex
  rw [Bool.not_eq_true] at hex
  split at hm
  · cases hm
  obtain ⟨one, hone, hm⟩ := mem_found hm
  rw [((wf_kingAttack k).and_right).mem_toList, isSet_and, Bool.and_eq_true, empty_iff h.cons, isSet_king_step p.turn] at hone
  unfold mateFarOne at hm
  simp only at hm
  split at hm
  · cases hm
  rename_i t hnx
  obtain ⟨d, hd, h1, h2⟩ := two_away hone.2 hnx
  split at hm
  · cases hm
  rename_i c1
  split at hm
  · cases hm
  rename_i c2
  rw [Bool.not_eq_true] at c2
  split at hm
  · cases hm
  rename_i c3
  rcases orElse_found hm with hm | hm
  · exact mateFarDrop_sound h hex hd h1 h2 hone.1 c2 hm
  · unfold mateFarMove at hm
    obtain ⟨src, hs, hm⟩ := mem_found hm
    refine tryFar_sound h hex hd h1 h2 hone.1 ?_ c2 ?_ hs hm
    · intro kd e
      apply c1
      rw [h.cons.code, e]
      exact ⟨mkPiece_ne_zero _ _, pieceColor_mkPiece _ _⟩
    · intro e hX
      rw [Bool.eq_false_iff]
      intro hh
      refine c3 ⟨pieceType_at h.cons e, ?_, hh⟩
      rw [← file_eq_X, ← file_eq_X] at hX; omega

end

end Verif
