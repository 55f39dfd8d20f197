import Verif.Lemmas.PawnMate

/-!
Getting out of check: the squares the king may not go to, and capturing or blocking.
-/

namespace Verif
open Spec Bitboard Position

theorem king_step {c : Color} {occ : Square → Bool} {k u : Square} (h : Attacks c .king occ k u) : StepAt c .king k u := by
  rcases (attacks_iff ..).mp h with h | ⟨⟨d, hd, -⟩, -⟩
  · exact h
  · cases hd

theorem king_step_coord {c : Color} {k u : Square} (h : StepAt c .king k u) :
    X u - X k ≤ 1 ∧ X k - X u ≤ 1 ∧ Y u - Y k ≤ 1 ∧ Y k - Y u ≤ 1 := by
  obtain ⟨d, hd, h1, h2⟩ := h
  simp [Kind.steps, orth, diag] at hd
  rcases hd with rfl | rfl | rfl | rfl | rfl | rfl | rfl | rfl <;> cases c <;> simp [orient] at h1 h2 <;> omega

/-- On the ray of a checking piece next to the king. -/
theorem edge_attack {q : Pos} {c c' : Color} {kd : Kind} {s k u : Square} (hs : SlideLine c kd s u) (ha : Attacks c kd q.occ s k)
    (hdr : kd = .dragon → SlideLine c kd s k) (hst : StepAt c' .king k u) (huk : u ≠ k) : Attacks c kd (occWithout q.occ k) s u := by
  obtain ⟨x1, x2, y1, y2⟩ := king_step_coord hst
  have hnb := hst.no_between
  obtain ⟨d, hd, hl⟩ := hs
  have hdir := isDir_orient (c := c) (isDir_slides kd d hd)
  -- one step is always possible
  have one : At s (orient c d) 1 u → Attacks c kd (occWithout q.occ k) s u := fun h => .inr ⟨d, hd, reach_of_at_one h⟩
  -- along the line of check
  have same : Line s (orient c d) k → (∀ v, Between s v k → q.occ v = false) → Attacks c kd (occWithout q.occ k) s u := by
    intro hk hfree
    rcases line_total hl hk with e | e | e
    · exact absurd e huk
    · have hb : Between s u k := between_iff.mpr ⟨_, hdir, hl, e⟩
      refine attacks_without.mpr (.inl ((attacks_iff ..).mpr (.inr ⟨⟨d, hd, hl⟩, fun v hv => hfree v (between_trans_left hb hv)⟩)))
    · have hb : Between s k u := between_iff.mpr ⟨_, hdir, hk, e⟩
      exact attacks_without.mpr (.inr ⟨ha, ⟨d, hd, hk⟩, hb, fun v hv => absurd hv (hnb v)⟩)
  -- along another line
  have slide : SlideLine c kd s k → (∀ v, Between s v k → q.occ v = false) → Attacks c kd (occWithout q.occ k) s u := by
    rintro ⟨e, he, hk⟩ hfree
    by_cases hde : d = e
    · subst hde; exact same hk hfree
    · obtain ⟨b, hb, h1, h2⟩ := hl
      obtain ⟨a, ha', h3, h4⟩ := hk
      have : b = 1 := by
        clear one same hnb ha hdr hfree hst hdir
        cases kd <;> simp [Kind.slides, orth, diag] at hd he
        · exact absurd (hd.trans he.symm) hde
        all_goals
          rcases hd with rfl | rfl | rfl | rfl <;> rcases he with rfl | rfl | rfl | rfl <;>
            first | exact absurd rfl hde | (cases c <;> simp [orient] at h1 h2 h3 h4 <;> omega)
      subst this
      exact one ⟨h1, h2⟩
  rcases (attacks_iff ..).mp ha with hstep | ⟨hsl, hfree⟩
  · by_cases hdrag : kd = .dragon
    · exact slide (hdr hdrag) fun v hv => absurd hv (hstep.no_between v)
    · obtain ⟨e, he, h3, h4⟩ := hstep
      obtain ⟨b, hb, h1, h2⟩ := hl
      have : b = 1 := by
        clear one same slide hnb ha hdr hst hdir
        cases kd <;> simp [Kind.slides, Kind.steps, orth, diag] at hd he hdrag
        all_goals
          rcases hd with rfl | rfl | rfl | rfl <;> rcases he with rfl | rfl | rfl | rfl <;>
            (cases c <;> simp [orient] at h1 h2 h3 h4 <;> omega)
      subst this
      exact one ⟨h1, h2⟩
  · exact slide hsl hfree

theorem relation_diag {c : Color} {s k : Square} (h : SlideLine c .dragon s k) : (squareRelation s k).testBit 2 = false := by
  obtain ⟨d, hd, a, ha, h1, h2⟩ := h
  rw [squareRelation_eq]
  have : X s = X k ∨ Y s = Y k := by
    simp [Kind.slides, orth] at hd
    rcases hd with rfl | rfl | rfl | rfl <;> cases c <;> simp [orient] at h1 h2 <;> omega
  rcases this with e | e
  · simp only [e, true_and, if_true]; split <;> decide
  · simp only [e, and_true, if_true]; split <;> first | decide | (split <;> decide)

theorem diag_relation {c : Color} {s k : Square} (h : StepAt c .dragon s k) : (squareRelation s k).testBit 2 = true := by
  obtain ⟨d, hd, h1, h2⟩ := h
  rw [squareRelation_eq]
  have hx : X s ≠ X k ∧ Y s ≠ Y k ∧ (Y s - Y k = X s - X k ∨ Y s - Y k = X k - X s) := by
    simp [Kind.steps, diag] at hd
    rcases hd with rfl | rfl | rfl | rfl <;> cases c <;> simp [orient] at h1 h2 <;> omega
  rw [if_neg (fun e => hx.1 e.1), if_neg hx.1, if_neg hx.2.1]
  split
  · decide
  · rename_i hne
    rw [if_pos (hx.2.2.resolve_left hne)]; decide

section
variable {p : Position} (h : Consistent p)
include h

/-- The squares banned by one checking piece. -/
theorem banned_spec {them c' : Color} {s k : Square} {kd : Kind} (hb : (absPos p).board s = some (them, kd)) (hkd : kd ≠ .king)
    (ha : Attacks them kd (absPos p).occ s k) :
    ∃ b, bannedKingTo p them s k = some b ∧ b.WF ∧ ∀ u, StepAt c' .king k u → u ≠ k →
      (b.isSet u = true → Attacks them kd (occWithout (absPos p).occ k) s u) ∧
      (SlideLine them kd s k → Between s k u → b.isSet u = true) := by
  have hcode := h.code s
  rw [hb] at hcode
  have hcol : p.piece s / 16 = them.idx := by
    rw [hcode]; cases them <;> cases kd <;> rfl
  have hty : pieceType (p.piece s) = kd.code := pieceType_at h hb
  unfold bannedKingTo
  rw [if_neg (not_not.mpr hcol), hty]
  have w := fun kd => wf_attacksFrom kd them s p.occupied
  have w0 := fun kd => wf_attacksFrom kd them s zero
  have direct : ∀ u, Attacks them kd (absPos p).occ s u → Attacks them kd (occWithout (absPos p).occ k) s u :=
    fun u hu => attacks_without.mpr (.inl hu)
  have dir' : ∀ (kd' : Kind) u, (attacksFrom kd'.code them s p.occupied).isSet u = true → Attacks them kd' (absPos p).occ s u := by
    intro kd' u hu; rw [isSet_attacksFrom, h.occ_fun] at hu; exact hu
  have noslide : kd.slides = [] → ∀ u, SlideLine them kd s k → Between s k u → zero.isSet u = true := by
    intro e u hs; exact absurd hs (slideLine_none e)
  have edge : ∀ {u}, SlideLine them kd s u → (kd = .dragon → SlideLine them kd s k) → StepAt c' .king k u → u ≠ k →
      Attacks them kd (occWithout (absPos p).occ k) s u := fun hs hdr hst hne => edge_attack hs ha hdr hst hne
  have tb : ∀ u, (bishopAttackToEdge s).isSet u = true ↔ SlideLine them .bishop s u := by
    intro u
    rw [← attacks_zero_slide rfl, ← isSet_attacksFrom]; rfl
  have tr : ∀ u, (rookAttackToEdge s).isSet u = true ↔ SlideLine them .rook s u := by
    intro u
    rw [← attacks_zero_slide rfl, ← isSet_attacksFrom]; rfl
  have tl : ∀ u, (lanceAttackToEdge them s).isSet u = true ↔ SlideLine them .lance s u := by
    intro u
    rw [← attacks_zero_slide rfl, ← isSet_attacksFrom]; rfl
  cases kd
  case king => exact absurd rfl hkd
  case pawn => exact ⟨_, rfl, WF.zero, fun u _ _ => ⟨fun e => by simp at e, fun hs => absurd hs (slideLine_none rfl)⟩⟩
  case knight => exact ⟨_, rfl, WF.zero, fun u _ _ => ⟨fun e => by simp at e, fun hs => absurd hs (slideLine_none rfl)⟩⟩
  case silver => exact ⟨_, rfl, w .silver, fun u _ _ => ⟨fun e => direct u (dir' .silver u e), fun hs => absurd hs (slideLine_none rfl)⟩⟩
  case gold => exact ⟨_, rfl, w .gold, fun u _ _ => ⟨fun e => direct u (dir' .gold u e), fun hs => absurd hs (slideLine_none rfl)⟩⟩
  case proPawn => exact ⟨_, rfl, w .gold, fun u _ _ => ⟨fun e => direct u (dir' .proPawn u e), fun hs => absurd hs (slideLine_none rfl)⟩⟩
  case proLance => exact ⟨_, rfl, w .gold, fun u _ _ => ⟨fun e => direct u (dir' .proLance u e), fun hs => absurd hs (slideLine_none rfl)⟩⟩
  case proKnight => exact ⟨_, rfl, w .gold, fun u _ _ => ⟨fun e => direct u (dir' .proKnight u e), fun hs => absurd hs (slideLine_none rfl)⟩⟩
  case proSilver => exact ⟨_, rfl, w .gold, fun u _ _ => ⟨fun e => direct u (dir' .proSilver u e), fun hs => absurd hs (slideLine_none rfl)⟩⟩
  case lance =>
    exact ⟨_, rfl, w0 .lance, fun u hst hne => ⟨fun e => edge ((tl u).mp e) (fun e => by cases e) hst hne,
      fun hs hbt => (tl u).mpr (hs.extend hbt)⟩⟩
  case bishop =>
    exact ⟨_, rfl, w0 .bishop, fun u hst hne => ⟨fun e => edge ((tb u).mp e) (fun e => by cases e) hst hne,
      fun hs hbt => (tb u).mpr (hs.extend hbt)⟩⟩
  case rook =>
    exact ⟨_, rfl, w0 .rook, fun u hst hne => ⟨fun e => edge ((tr u).mp e) (fun e => by cases e) hst hne,
      fun hs hbt => (tr u).mpr (hs.extend hbt)⟩⟩
  case horse =>
    refine ⟨_, rfl, (w0 .bishop).or (w .king), fun u hst hne => ⟨fun e => ?_, fun hs hbt => ?_⟩⟩
    · rw [isSet_or, Bool.or_eq_true] at e
      rcases e with e | e
      · exact edge ((tb u).mp e) (fun e => by cases e) hst hne
      · refine direct u (dir' .horse u ?_)
        show (bishopAttack s p.occupied ||| kingAttack s).isSet u = true
        rw [isSet_or, Bool.or_eq_true]; exact .inr e
    · rw [isSet_or, Bool.or_eq_true]
      exact .inl ((tb u).mpr (hs.extend hbt))
  case dragon =>
    by_cases hrel : (squareRelation s k).testBit 2 = true
    · refine ⟨dragonAttack s p.occupied, ?_, w .dragon, fun u hst hne => ⟨fun e => direct u (dir' .dragon u e), fun hs => ?_⟩⟩
      · show (if _ then _ else _) = _
        rw [if_pos hrel]
      · rw [relation_diag hs] at hrel; cases hrel
    · refine ⟨rookAttackToEdge s ||| kingAttack s, ?_, (w0 .rook).or (w .king), fun u hst hne => ⟨fun e => ?_, fun hs hbt => ?_⟩⟩
      · show (if _ then _ else _) = _
        rw [if_neg hrel]
      · rw [isSet_or, Bool.or_eq_true] at e
        rcases e with e | e
        · refine edge ((tr u).mp e) (fun _ => ?_) hst hne
          rcases (attacks_iff ..).mp ha with hstep | ⟨hsl, -⟩
          · exact absurd (diag_relation hstep) hrel
          · exact hsl
        · refine direct u (dir' .dragon u ?_)
          show (rookAttack s p.occupied ||| kingAttack s).isSet u = true
          rw [isSet_or, Bool.or_eq_true]; exact .inr e
      · rw [isSet_or, Bool.or_eq_true]
        exact .inl ((tr u).mpr (hs.extend hbt))

theorem bannedLoop_spec {them c' : Color} {k : Square} (L : List Square) (b0 : Bitboard) (hb0 : b0.WF)
    (hL : ∀ s ∈ L, ∃ kd, (absPos p).board s = some (them, kd) ∧ kd ≠ .king ∧ Attacks them kd (absPos p).occ s k) :
    ∃ b, bannedLoop p them k L b0 = some b ∧ b.WF ∧ ∀ u, StepAt c' .king k u → u ≠ k →
      (b.isSet u = true → b0.isSet u = true ∨ ∃ s kd, (absPos p).board s = some (them, kd) ∧ Attacks them kd (occWithout (absPos p).occ k) s u) ∧
      ((b0.isSet u = true ∨ ∃ s ∈ L, ∃ kd, (absPos p).board s = some (them, kd) ∧ SlideLine them kd s k ∧ Between s k u) → b.isSet u = true) := by
  induction L generalizing b0 with
  | nil =>
    refine ⟨b0, rfl, hb0, fun u _ _ => ⟨.inl, ?_⟩⟩
    rintro (e | ⟨s, hs, -⟩)
    · exact e
    · cases hs
  | cons s L ih =>
    obtain ⟨kd, hb, hkd, ha⟩ := hL s (List.mem_cons_self ..)
    obtain ⟨b1, e1, w1, h1⟩ := banned_spec h (c' := c') hb hkd ha
    obtain ⟨b, e, w, h2⟩ := ih (b0 ||| b1) (hb0.or w1) fun s' hs' => hL s' (List.mem_cons_of_mem _ hs')
    refine ⟨b, ?_, w, fun u hst hne => ⟨fun hu => ?_, fun hu => ?_⟩⟩
    · rw [bannedLoop, e1]; exact e
    · rcases (h2 u hst hne).1 hu with hu | hu
      · rw [isSet_or, Bool.or_eq_true] at hu
        rcases hu with hu | hu
        · exact .inl hu
        · exact .inr ⟨s, kd, hb, (h1 u hst hne).1 hu⟩
      · exact .inr hu
    · refine (h2 u hst hne).2 ?_
      rcases hu with hu | ⟨s', hs', kd', hb', hsl, hbt⟩
      · left; rw [isSet_or, hu]; rfl
      · rcases List.mem_cons.mp hs' with rfl | hs'
        · rw [hb] at hb'; cases hb'
          left; rw [isSet_or, (h1 u hst hne).2 hsl hbt, Bool.or_true]
        · exact .inr ⟨s', hs', kd', hb', hsl, hbt⟩

end

/-- Two different checking pieces cannot both be captured or blocked. -/
theorem two_checkers {q : Pos} {k c1 c2 t : Square} (h1 : Checker q k c1) (h2 : Checker q k c2) (hne : c1 ≠ c2)
    (h3 : c1 = t ∨ Between c1 t k) (h4 : c2 = t ∨ Between c2 t k) : False := by
  obtain ⟨k1, b1, a1⟩ := h1
  obtain ⟨k2, b2, a2⟩ := h2
  have o1 := occ_of_board b1
  have o2 := occ_of_board b2
  rcases h3 with rfl | h3
  · rcases h4 with e | h4
    · exact hne e.symm
    · rw [Attacks.path a2 _ h4] at o1; cases o1
  · rcases h4 with rfl | h4
    · rw [Attacks.path a1 _ h3] at o2; cases o2
    · obtain ⟨d, hd, l1, l2⟩ := between_iff.mp h3
      obtain ⟨e, he, l3, l4⟩ := between_iff.mp h4
      have := line_dir_unique hd he l2 l4
      subst this
      rcases line_total (line_symm.mp l1) (line_symm.mp l3) with e | e | e
      · exact hne e
      · rw [Attacks.path a2 c1 (between_iff.mpr ⟨d, hd, line_symm.mpr e, line_trans l1 l2⟩)] at o1; cases o1
      · rw [Attacks.path a1 c2 (between_iff.mpr ⟨d, hd, line_symm.mpr e, line_trans l3 l4⟩)] at o2; cases o2

end Verif
