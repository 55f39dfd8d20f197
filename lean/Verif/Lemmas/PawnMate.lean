import Verif.Lemmas.GenDrops

/-!
The test for mate by a pawn drop.
-/

namespace Verif
open Spec Bitboard Position

theorem pawn_step {c : Color} {occ : Square → Bool} {t k : Square} (h : Attacks c .pawn occ t k) : StepAt c .pawn t k := by
  rcases (attacks_iff ..).mp h with h | ⟨⟨d, hd, -⟩, -⟩
  · exact h
  · cases hd

/-- The promotion rule never forbids both choices. -/
theorem proOK_exists {c : Color} (kd : Kind) (f t : Square) : ∃ pro, ProOK c kd f t pro := by
  by_cases hd : Dead c kd t
  · refine ⟨true, fun _ => ⟨?_, .inr ?_⟩, fun e => by cases e⟩
    · cases kd <;> first | rfl | exact absurd hd id
    · unfold zone
      cases kd <;> first | exact absurd hd id | skip
      all_goals unfold Dead at hd; simp only at hd; omega
  · exact ⟨false, (fun e => by cases e), fun _ => hd⟩

section
variable {p : Position} {t k : Square}

theorem attackersIsAny_iff (h : Consistent p) (c : Color) (s : Square) (occ : Bitboard) :
    p.attackersToIsAny c s occ = true ↔ ∃ u kd, (absPos p).board u = some (c, kd) ∧ Attacks c kd occ.isSet u s := by
  unfold attackersToIsAny
  rw [(wf_attackersTo h c s occ).isAny_iff]
  simp only [isSet_attackersTo h]

theorem isMate_iff (h : Consistent p) (hk : p.kingSquare p.turn.opp = some k) (hw : ¬ (absPos p).InCheck p.turn.opp)
    (ht : (absPos p).board t = none) (ha : Attacks p.turn .pawn (absPos p).occ t k) :
    p.isPawnDropCheckMate p.turn t = some true ↔ ((absPos p).play (.drop .pawn t)).Mated := by
  obtain ⟨q, hq⟩ : ∃ q, q = absPos p := ⟨_, rfl⟩
  obtain ⟨q', hq'⟩ : ∃ q', q' = q.play (.drop .pawn t) := ⟨_, rfl⟩
  have hturn : q.turn = p.turn := by rw [hq]; rfl
  have hturn' : q'.turn = p.turn.opp := by rw [hq', play_turn, hturn]
  have hK : KingAt (absPos p) p.turn.opp k := h.kingAt hk
  rw [← hq] at ht ha hw hK ⊢
  rw [← hq']
  have htk : t ≠ k := by rintro rfl; rw [hK.at] at ht; cases ht
  -- the board after the drop
  have hown : ∀ s kd, q'.board s = some (p.turn, kd) ↔ (s = t ∧ kd = .pawn) ∨ q.board s = some (p.turn, kd) := by
    intro s kd; have := play_drop_own (q := q) (h := .pawn) ht (s := s) (kd' := kd); rw [hturn, ← hq'] at this; exact this
  have hthem : ∀ s kd, q'.board s = some (p.turn.opp, kd) ↔ q.board s = some (p.turn.opp, kd) := by
    intro s kd; have := play_drop_enemy (q := q) (h := .pawn) ht (s := s) (kd' := kd); rw [hturn, ← hq'] at this; exact this
  have hocc : q'.occ = occDrop q.occ t := by rw [hq']; exact play_drop_occ
  have hK' : KingAt q' q'.turn k := by
    intro s; rw [hturn', hthem]; exact hK s
  -- the only checker
  have hchk : ∀ s, Checker q' k s ↔ s = t := by
    intro s
    unfold Checker
    have := drop_gives (q := q) (k := k) (by rw [hturn]; exact hK) (by rw [hturn]; exact hw) (h := .pawn) ht s
    rw [hturn, ← hq'] at this
    rw [hturn', opp_opp, this]
    exact and_iff_left ha
  have hnb : ∀ u, ¬ Between t u k := (pawn_step ha).no_between
  -- replies by drops
  have hdrops : ∀ hp u, ¬ q'.Safe (.drop hp u) := by
    rintro hp u ⟨⟨-, hu, -⟩, hs⟩
    apply hs
    rw [drop_inCheck hK' hu]
    exact ⟨t, (hchk t).mpr rfl, hnb u⟩
  -- replies by pieces other than the king
  have hpin : ∀ f s, f ≠ t → s ≠ t → ¬ Between s t k → (PinLine q' p.turn k f s ↔ PinLine q p.turn k f s) := by
    intro f s hft hst hb
    have ho : ∀ u, Between s u k → (q'.occ u = true ↔ q.occ u = true) := by
      intro u hu
      rw [hocc]; unfold occDrop
      rw [if_neg (by rintro rfl; exact hb hu)]
    have hpc : (∃ kd, q'.board s = some (p.turn, kd) ∧ SlideLine p.turn kd s k) ↔ ∃ kd, q.board s = some (p.turn, kd) ∧ SlideLine p.turn kd s k := by
      refine exists_congr fun kd => and_congr_left fun _ => ?_
      rw [hown]
      exact ⟨fun e => e.elim (fun e => absurd e.1 hst) id, .inr⟩
    constructor
    · rintro ⟨h1, h2, h3, h4⟩
      exact ⟨hpc.mp h1, h2, (ho f h2).mp h3, fun u hu hou => h4 u hu ((ho u hu).mpr hou)⟩
    · rintro ⟨h1, h2, h3, h4⟩
      exact ⟨hpc.mpr h1, h2, (ho f h2).mpr h3, fun u hu hou => h4 u hu ((ho u hu).mp hou)⟩
  have hpieces : (∃ f u pro kd, q'.board f = some (p.turn.opp, kd) ∧ kd ≠ .king ∧ q'.Safe (.move f u pro)) ↔
      p.canPieceCapture p.turn.opp t = true := by
    unfold canPieceCapture
    rw [List.any_eq_true]
    simp only [(wf_attackersToExceptKing h _ _).mem_toList, isSet_attackersToExceptKing h, ← hq]
    have hline : ∀ f kd, q.board f = some (p.turn.opp, kd) → Attacks p.turn.opp kd q.occ f t →
        ((!leavesLine f t (p.kingSquare p.turn.opp) (p.discoveredCheckBB false)) = true ↔
          ¬ ∃ s, PinLine q p.turn k f s ∧ s ≠ t ∧ ¬ Between s t k) := by
      intro f kd hf hat
      have hft : t ≠ f := (attacks_ne hat).symm
      rw [Bool.not_eq_true', ← Bool.not_eq_true, hk,
        leavesLine_iff (a := p.turn) (b := p.turn.opp) ?_ ⟨kd, by rw [← hq]; exact hf⟩ (by rw [← hq]; exact hK.occ)
          (by rw [← hq]; exact fun u hu => Attacks.path hat u hu) htk hft, ← hq]
      rw [isSet_discoveredCheckBB h, hk]
      simp [← hq]
    have hsafe : ∀ f kd pro, q'.board f = some (p.turn.opp, kd) → kd ≠ .king → f ≠ t →
        (¬ (q'.play (.move f t pro)).InCheck q'.turn ↔ ¬ ∃ s, PinLine q p.turn k f s ∧ s ≠ t ∧ ¬ Between s t k) := by
      intro f kd pro hf hkd hft
      rw [move_inCheck hK' (by rw [hturn']; exact hf) hkd (by
        intro kd' e
        rw [hturn', hthem, ht] at e; cases e)]
      refine not_congr (exists_congr fun s => ?_)
      rw [hturn', opp_opp]
      constructor
      · rintro ⟨h1, h2, h3⟩
        refine ⟨?_, h2, h3⟩
        rcases h1 with h1 | h1
        · exact absurd ((hchk s).mp h1) h2
        · exact (hpin f s hft h2 h3).mp h1
      · rintro ⟨h1, h2, h3⟩
        exact ⟨.inr ((hpin f s hft h2 h3).mpr h1), h2, h3⟩
    constructor
    · rintro ⟨f, u, pro, kd, hf, hkd, ⟨kd', hf', hat, hu, -⟩, hs⟩
      rw [hturn', hf] at hf'; cases hf'
      rw [hturn'] at hat
      have hut : u = t := by
        by_contra hne
        apply hs
        rw [move_inCheck hK' (by rw [hturn']; exact hf) hkd (by rw [hturn'] at hu ⊢; exact hu)]
        exact ⟨t, .inl ((hchk t).mpr rfl), Ne.symm hne, hnb u⟩
      subst hut
      have hfu : f ≠ u := attacks_ne hat
      have hfq := (hthem f kd).mp hf
      have hat' : Attacks p.turn.opp kd q.occ f u := by
        refine (attacks_congr fun v hv => ?_).mp hat
        rw [hocc]; unfold occDrop; rw [if_neg (between_ne_right hv)]
      exact ⟨f, ⟨kd, hkd, hfq, hat'⟩, (hline f kd hfq hat').mpr ((hsafe f kd pro hf hkd hfu).mp hs)⟩
    · rintro ⟨f, ⟨kd, hkd, hfq, hat⟩, hl⟩
      have hf := (hthem f kd).mpr hfq
      obtain ⟨pro, hpro⟩ := proOK_exists (c := p.turn.opp) kd f t
      refine ⟨f, t, pro, kd, hf, hkd, ⟨kd, by rw [hturn']; exact hf, ?_, ?_, ?_⟩, ?_⟩
      · rw [hturn']
        refine (attacks_congr fun v hv => ?_).mp hat
        rw [hocc]; unfold occDrop; rw [if_neg (between_ne_right hv)]
      · intro kd' e
        rw [hturn', hthem, ht] at e; cases e
      · rw [hturn']; exact hpro
      · exact (hsafe f kd pro hf hkd (attacks_ne hat)).mpr ((hline f kd hfq hat).mp hl)
  -- replies by the king
  have hoccbb : (p.occupied ||| setMask t).isSet = q'.occ := by
    funext u
    rw [isSet_or, hocc, isSet_setMask, h.occ, ← hq]
    unfold occDrop
    by_cases hu : u = t
    · subst hu; simp
    · simp [hu]
  have hking : (∃ u pro, q'.Safe (.move k u pro)) ↔
      ∃ u, u ∈ ((p.byColor p.turn.opp).notAnd (kingAttack k)).toList ∧ (!p.attackersToIsAny p.turn u (p.occupied ||| setMask t)) = true := by
    have hwf : ((p.byColor p.turn.opp).notAnd (kingAttack k)).WF := (wf_attacksFrom .king p.turn k p.occupied).notAnd
    have hmem : ∀ u, u ∈ ((p.byColor p.turn.opp).notAnd (kingAttack k)).toList ↔
        (∀ kd, q.board u ≠ some (p.turn.opp, kd)) ∧ Attacks p.turn.opp .king q'.occ k u := by
      intro u
      rw [hwf.mem_toList, isSet_notAnd, Bool.and_eq_true, Bool.not_eq_true', ← Bool.not_eq_true, h.color, ← hq,
        show kingAttack k = attacksFrom Kind.king.code p.turn.opp k (p.occupied ||| setMask t) from rfl, isSet_attacksFrom, hoccbb]
      simp only [not_exists, ne_eq]
    have hatt : ∀ u, u ≠ k → ((∃ s kd, q'.board s = some (p.turn, kd) ∧ Attacks p.turn kd (occWithout q'.occ k) s u) ↔
        ∃ s kd, q.board s = some (p.turn, kd) ∧ Attacks p.turn kd q'.occ s u) := by
      intro u huk
      constructor
      · rintro ⟨s, kd, hs, hat⟩
        rcases attacks_without.mp hat with hat | ⟨hat, ⟨d, hd, -⟩, -, -⟩
        · rcases (hown s kd).mp hs with ⟨rfl, rfl⟩ | hs
          · exfalso
            rw [pawn_attack_iff] at hat ha
            apply huk
            have h1 : X u = X k := by omega
            have h2 : farRank p.turn u = farRank p.turn k := by omega
            unfold farRank Y at h2; unfold X at h1
            rw [Fin.ext_iff]
            revert h2; cases p.turn <;> simp only <;> omega
          · exact ⟨s, kd, hs, hat⟩
        · have : Checker q' k s := ⟨kd, by rw [hturn', opp_opp]; exact hs, by rw [hturn', opp_opp]; exact hat⟩
          rw [hchk] at this
          subst this
          rcases (hown s kd).mp hs with ⟨-, rfl⟩ | hs
          · cases hd
          · rw [ht] at hs; cases hs
      · rintro ⟨s, kd, hs, hat⟩
        exact ⟨s, kd, (hown s kd).mpr (.inr hs), attacks_without.mpr (.inl hat)⟩
    have hsafe : ∀ u pro, u ≠ k → ((q'.play (.move k u pro)).InCheck q'.turn ↔ p.attackersToIsAny p.turn u (p.occupied ||| setMask t) = true) := by
      intro u pro huk
      rw [king_inCheck hK' huk, hturn', opp_opp, hatt u huk, attackersIsAny_iff h, hoccbb, ← hq]
    constructor
    · rintro ⟨u, pro, ⟨kd, hb, hat, hu, -⟩, hs⟩
      rw [hturn'] at hb hat hu
      have := (hK' k).mpr rfl
      rw [hturn', hb] at this; cases this
      have huk : u ≠ k := (attacks_ne hat).symm
      refine ⟨u, (hmem u).mpr ⟨fun kd e => hu kd ((hthem u kd).mpr e), hat⟩, ?_⟩
      rw [Bool.not_eq_true', ← Bool.not_eq_true, ← hsafe u pro huk]; exact hs
    · rintro ⟨u, hu, hs⟩
      obtain ⟨hu, hat⟩ := (hmem u).mp hu
      have huk : u ≠ k := (attacks_ne hat).symm
      rw [Bool.not_eq_true', ← Bool.not_eq_true, ← hsafe u false huk] at hs
      refine ⟨u, false, ⟨.king, (hK' k).mpr rfl, ?_, ?_, (fun e => by cases e), fun _ => id⟩, hs⟩
      · rw [hturn']; exact hat
      · intro kd e; rw [hturn', hthem] at e; exact hu kd e
  -- put together
  have hsome : (∃ m, q'.Safe m) ↔ p.canPieceCapture p.turn.opp t = true ∨
      ∃ u, u ∈ ((p.byColor p.turn.opp).notAnd (kingAttack k)).toList ∧ (!p.attackersToIsAny p.turn u (p.occupied ||| setMask t)) = true := by
    rw [← hpieces, ← hking]
    constructor
    · rintro ⟨m, hm⟩
      cases m with
      | drop hp u => exact absurd hm (hdrops hp u)
      | move f u pro =>
        obtain ⟨kd, hf, -⟩ := hm.1
        by_cases hkd : kd = .king
        · subst hkd
          obtain rfl := (hK' f).mp hf
          exact .inr ⟨u, pro, hm⟩
        · rw [hturn'] at hf
          exact .inl ⟨f, u, pro, kd, hf, hkd, hm⟩
    · rintro (⟨f, u, pro, kd, -, -, hm⟩ | ⟨u, pro, hm⟩) <;> exact ⟨_, hm⟩
  have hchecked : q'.InCheck q'.turn := by
    rw [hK'.inCheck]
    exact ⟨t, (hchk t).mpr rfl⟩
  unfold Pos.Mated
  rw [← not_exists, hsome]
  unfold isPawnDropCheckMate
  simp only [hk]
  by_cases hc : p.canPieceCapture p.turn.opp t = true
  · simp [hc]
  · simp only [hc, Bool.false_eq_true, if_false, false_or, Option.some.injEq, Bool.not_eq_true']
    rw [← Bool.not_eq_true, List.any_eq_true]
    simp only [Bool.not_eq_true']
    exact ⟨fun e => ⟨hchecked, e⟩, fun e => e.2⟩

/-- Dropping a pawn elsewhere does not give mate. -/
theorem not_mate_of_not_attack (h : Consistent p) (hk : p.kingSquare p.turn.opp = some k) (hw : ¬ (absPos p).InCheck p.turn.opp)
    (ht : (absPos p).board t = none) (ha : ¬ Attacks p.turn .pawn (absPos p).occ t k) :
    ¬ ((absPos p).play (.drop .pawn t)).Mated := by
  rintro ⟨⟨k', hk', s, hs⟩, -⟩
  rw [play_turn] at hk' hs
  have hK := h.kingAt hk
  rw [opp_opp] at hs
  have : k' = k := by
    refine (hK k').mp ?_
    exact (play_drop_enemy (q := absPos p) (h := .pawn) ht).mp hk'
  subst this
  exact ha ((drop_gives (q := absPos p) hK hw (h := .pawn) ht s).mp hs).2

theorem isMate_some_false (hk : p.kingSquare p.turn.opp = some k) (t : Square) :
    p.isPawnDropCheckMate p.turn t = some false ↔ ¬ p.isPawnDropCheckMate p.turn t = some true := by
  obtain ⟨b, hb⟩ := isMate_isSome hk t
  rw [hb]
  cases b <;> simp

/-- The pawn-drop condition of the generator is the rule. -/
theorem pawnDrop_iff (h : Consistent p) (hk : p.kingSquare p.turn.opp = some k) (hw : ¬ (absPos p).InCheck p.turn.opp)
    (hp : HKind) (ht : (absPos p).board t = none) :
    (hp = .pawn → Attacks p.turn .pawn (absPos p).occ t k → p.isPawnDropCheckMate p.turn t = some false) ↔
      ¬ (absPos p).PawnDropMate (.drop hp t) := by
  rw [isMate_some_false hk]
  constructor
  · rintro h1 ⟨t', e, hm⟩
    cases e
    by_cases ha : Attacks p.turn .pawn (absPos p).occ t k
    · exact h1 rfl ha ((isMate_iff h hk hw ht ha).mpr hm)
    · exact not_mate_of_not_attack h hk hw ht ha hm
  · rintro h1 rfl ha e
    exact h1 ⟨t, rfl, (isMate_iff h hk hw ht ha).mp e⟩

end

end Verif
