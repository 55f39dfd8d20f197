import Verif.Lemmas.MateSound

/-!
The replies the search looks at are exactly the legal moves that decline no promotion.
-/

namespace Verif
open Spec Bitboard Position

theorem dropLoop_form {pts : List Nat} {b : Bitboard} {m : Move} (hp : ∀ pt ∈ pts, ∃ hd : HKind, pt = hd.kind.code)
    (hm : m ∈ dropLoop pts b) : ∃ (hd : HKind) (t : Square), m = makeDropMove hd.kind.code t.val := by
  unfold dropLoop at hm
  obtain ⟨t, -, hm⟩ := List.mem_flatMap.mp hm
  obtain ⟨pt, h1, rfl⟩ := List.mem_map.mp hm
  obtain ⟨hd, rfl⟩ := hp pt h1
  exact ⟨hd, t, rfl⟩

theorem handRest_form (h : Hand) : ∀ pt ∈ handRest h, ∃ hd : HKind, pt = hd.kind.code := by
  intro pt hm
  unfold handRest at hm
  simp only [List.mem_append, List.mem_ite_nil_right, List.mem_singleton] at hm
  rcases hm with ((⟨-, e⟩ | ⟨-, e⟩) | ⟨-, e⟩) | ⟨-, e⟩
  exacts [⟨.silver, e⟩, ⟨.gold, e⟩, ⟨.bishop, e⟩, ⟨.rook, e⟩]

theorem handNoKnight_form (h : Hand) : ∀ pt ∈ handNoKnight h, ∃ hd : HKind, pt = hd.kind.code := by
  intro pt hm
  unfold handNoKnight at hm
  simp only [List.mem_append, List.mem_ite_nil_right, List.mem_singleton] at hm
  rcases hm with ⟨-, e⟩ | hm
  exacts [⟨.lance, e⟩, handRest_form h pt hm]

theorem handAll_form (h : Hand) : ∀ pt ∈ handAll h, ∃ hd : HKind, pt = hd.kind.code := by
  intro pt hm
  unfold handAll at hm
  simp only [List.mem_append, List.mem_ite_nil_right, List.mem_singleton] at hm
  rcases hm with ⟨-, e⟩ | hm
  exacts [⟨.knight, e⟩, handNoKnight_form h pt hm]

theorem pawnList_form {m : Move} {b : Bitboard} (hm : m ∈ b.toList.map (fun t => makeDropMove PT.Pawn t.val)) :
    ∃ (hd : HKind) (t : Square), m = makeDropMove hd.kind.code t.val := by
  obtain ⟨t, -, rfl⟩ := List.mem_map.mp hm
  exact ⟨.pawn, t, rfl⟩

theorem dropPawns_form {p : Position} {c : Color} {target : Bitboard} {l : List Move} (e : dropPawns p c target = some l) {m : Move} (hm : m ∈ l) :
    ∃ (hd : HKind) (t : Square), m = makeDropMove hd.kind.code t.val := by
  unfold dropPawns at e
  cases c
  all_goals
    dsimp only at e
    rcases hk : p.kingSquare (Color.opp _) with _ | ksq
    · rw [hk] at e; cases e
    rw [hk] at e
    dsimp only at e
    split at e
    · split at e
      · rcases hx : p.isPawnDropCheckMate _ _ with _ | mate
        · rw [hx] at e; cases e
        · rw [hx] at e
          dsimp only at e
          cases e
          rcases List.mem_append.mp hm with hm | hm
          · rw [List.mem_ite_nil_right, List.mem_singleton] at hm
            exact ⟨.pawn, _, hm.2⟩
          · exact pawnList_form hm
      · cases e; exact pawnList_form hm
    · cases e; exact pawnList_form hm

/-- Whatever the target, the generator of drops writes drops. -/
theorem genDrops_form {p : Position} {c : Color} {target : Bitboard} {l : List Move} (hl : genDrops p c target = some l) {m : Move} (hm : m ∈ l) :
    ∃ (hd : HKind) (t : Square), m = makeDropMove hd.kind.code t.val := by
  have ho : m ∈ dropOthers p c target → ∃ (hd : HKind) (t : Square), m = makeDropMove hd.kind.code t.val := by
    intro hm
    unfold dropOthers at hm
    dsimp only at hm
    split at hm
    · simp only [List.mem_append] at hm
      rcases hm with (hm | hm) | hm
      · split at hm
        · cases hm
        · exact dropLoop_form (handRest_form _) hm
      · split at hm
        · cases hm
        · exact dropLoop_form (handNoKnight_form _) hm
      · exact dropLoop_form (handAll_form _) hm
    · cases hm
  unfold genDrops at hl
  split at hl
  · obtain ⟨l', e, rfl⟩ := Option.map_eq_some_iff.mp hl
    rcases List.mem_append.mp hm with hm | hm
    · exact dropPawns_form e hm
    · exact ho hm
  · cases hl; exact ho hm

section keen
variable {p : Position} (h : Consistent p) (halive : ∀ s, (absPos p).board s = some (p.turn, .pawn) → ¬ Dead p.turn .pawn s)
include h halive

theorem genPieces_not_declined {target : Bitboard} {mv : Mv} (hm : encode p mv ∈ genPieces p p.turn false target) : ¬ Declines (absPos p) mv := by
  rintro ⟨f, t, k, rfl, hf, hk⟩
  have hf : (absPos p).board f = some (p.turn, k) := hf
  have hmv : encode p (.move f t false) = boardMove p.piece f t false := rfl
  have inj : ∀ {f' t' : Square} {b : Bool}, encode p (.move f t false) = boardMove p.piece f' t' b → f' = f ∧ t' = t ∧ b = false := by
    intro f' t' b e
    have := encode_inj p (show encode p (.move f t false) = encode p (.move f' t' b) from e)
    cases this; exact ⟨rfl, rfl, rfl⟩
  have other : ∀ kd, GenOf p kd target (encode p (.move f t false)) → kd = k := by
    rintro kd ⟨f', t', b, e, hf', -⟩
    obtain ⟨rfl, -, -⟩ := inj e
    rw [hf] at hf'; cases hf'; rfl
  have hbr : ∀ kd : Kind, kd = .bishop ∨ kd = .rook → encode p (.move f t false) ∉ genBishopOrRook p kd.code p.turn false target := by
    intro kd hkd hm
    unfold genBishopOrRook at hm
    rw [mem_loop h] at hm
    obtain ⟨f', t', hf', -, -, hm⟩ := hm
    rw [genPro_eq (pieceType_at h hf'), genMove_eq (pieceType_at h hf')] at hm
    split at hm
    · simp only [Bool.false_eq_true, if_false, List.mem_singleton] at hm
      exact absurd (inj hm).2.2 (by decide)
    · rename_i hz
      rw [List.mem_singleton] at hm
      obtain ⟨rfl, rfl, -⟩ := inj hm
      rw [hf] at hf'; cases hf'
      rcases hk with ⟨-, hk⟩ | ⟨rfl, -⟩
      · exact hz (by rwa [Bool.or_eq_true, canPromote_iff, canPromote_iff])
      · rcases hkd with e | e <;> cases e
  unfold genPieces at hm
  simp only [List.mem_append] at hm
  rcases hm with (((((hm | hm) | hm) | hm) | hm) | hm) | hm
  · rw [genPawn_eq, List.mem_append, List.mem_flatMap, List.mem_map] at hm
    rcases hm with ⟨t', ht, hm⟩ | ⟨t', ht, hm⟩
    · obtain ⟨⟨f', hf', ha⟩, -, -⟩ := (pawnOn_iff h halive target t').mp ht
      rw [backSq_attack ha, genPro_eq (pt := PT.Pawn) (pieceType_at h hf')] at hm
      simp only [Bool.false_and, Bool.false_eq_true, if_false, List.mem_singleton] at hm
      exact absurd (inj hm).2.2 (by decide)
    · obtain ⟨⟨f', hf', ha⟩, -, hz⟩ := (pawnRest_iff h halive target t').mp ht
      rw [backSq_attack ha, genMove_eq (pt := PT.Pawn) (pieceType_at h hf')] at hm
      obtain ⟨rfl, rfl, -⟩ := inj hm.symm
      rw [hf] at hf'; cases hf'
      rcases hk with ⟨-, hk⟩ | ⟨e, -⟩
      · exact hz ((zone_forward p.turn (.inl rfl) ha).mp hk)
      · cases e
  · unfold genLance at hm
    rw [show PT.Lance = Kind.lance.code from rfl, mem_loop h] at hm
    obtain ⟨f', t', hf', -, -, hm⟩ := hm
    rw [genPro_eq (pieceType_at h hf'), genMove_eq (pieceType_at h hf')] at hm
    have key : t' = t → f' = f → isBehind p.turn 1 7 (rank t') = true ∨ ¬ canPromote p.turn t' = true → False := by
      rintro rfl rfl hx
      rw [hf] at hf'; cases hf'
      rcases hk with ⟨e, -⟩ | ⟨-, hk⟩
      · rcases e with e | e | e <;> cases e
      · have hk : farRank p.turn t' ≤ 1 := hk
        rcases hx with hx | hx
        · have := (isBehind_iff p.turn 1 t').mp hx
          omega
        · apply hx
          rw [canPromote_iff]
          unfold zone
          omega
    split at hm
    · simp only [Bool.false_eq_true, if_false, List.mem_cons, List.mem_ite_nil_right, List.not_mem_nil, or_false] at hm
      rcases hm with hm | ⟨h1, hm⟩
      · exact absurd (inj hm).2.2 (by decide)
      · exact key (inj hm).2.1 (inj hm).1 (.inl h1)
    · rename_i hz
      rw [List.mem_singleton] at hm
      exact key (inj hm).2.1 (inj hm).1 (.inr hz)
  · have := other _ ((mem_genKnight h _ _).mp hm)
    subst this; rcases hk with ⟨e | e | e, -⟩ | ⟨e, -⟩ <;> cases e
  · have := other _ ((mem_genSilver h _ _).mp hm)
    subst this; rcases hk with ⟨e | e | e, -⟩ | ⟨e, -⟩ <;> cases e
  · exact hbr .bishop (.inl rfl) hm
  · exact hbr .rook (.inr rfl) hm
  · obtain ⟨kd, hkd, hg⟩ := (mem_genGHD h _ _).mp hm
    have := other _ hg
    subst this
    rcases hk with ⟨rfl | rfl | rfl, -⟩ | ⟨rfl, -⟩ <;> rcases hkd with e | e | e <;> cases e

theorem genEvasion_not_declined {l : List Move} (hl : genEvasion p false = some l) (hK : ∀ k, p.kingSquare p.turn = some k → KingAt (absPos p) p.turn k) {mv : Mv} (hm : encode p mv ∈ l) :
    ¬ Declines (absPos p) mv := by
  rintro hd
  have hking : ∀ k, p.kingSquare p.turn = some k → ∀ t, encode p mv ≠ genMove p PT.King k t := by
    intro k hk t e
    have hb := (hK k hk).at
    rw [genMove_eq (pt := PT.King) (pieceType_at h hb)] at e
    have := encode_inj p (show encode p mv = encode p (.move k t false) from e)
    subst this
    obtain ⟨f, t', kd, e, hf, hx⟩ := hd
    cases e
    have hf : (absPos p).board k = some (p.turn, kd) := hf
    rw [hb] at hf; cases hf
    rcases hx with ⟨e | e | e, -⟩ | ⟨e, -⟩ <;> cases e
  unfold genEvasion at hl
  dsimp only at hl
  split at hl
  · cases hl
  · rename_i ksq hk
    split at hl
    · cases hl
    · rename_i banned hb
      split at hl
      · cases hl
      · rename_i checkSq others hc
        split at hl
        · cases hl
          obtain ⟨t, -, e⟩ := List.mem_map.mp hm
          exact hking ksq hk t e.symm
        · split at hl
          · rcases hg : genDrops p p.turn (betweenBB checkSq ksq) with _ | drops
            · rw [hg] at hl; cases hl
            · rw [hg] at hl
              cases hl
              rcases List.mem_append.mp hm with hm | hm
              · rcases List.mem_append.mp hm with hm | hm
                · obtain ⟨t, -, e⟩ := List.mem_map.mp hm
                  exact hking ksq hk t e.symm
                · exact genPieces_not_declined h halive hm hd
              · obtain ⟨hh, t, e⟩ := genDrops_form hg hm
                have := encode_inj p (show encode p mv = encode p (.drop hh t) from e)
                subst this
                obtain ⟨_, _, _, e, -⟩ := hd
                cases e
          · cases hl
            rcases List.mem_append.mp hm with hm | hm
            · obtain ⟨t, -, e⟩ := List.mem_map.mp hm
              exact hking ksq hk t e.symm
            · exact genPieces_not_declined h halive hm hd

end keen

/-- The list of replies, exactly. -/
theorem andPicker_exact {Z : Zobrist} {p : Position} (hp : Sound Z p) (hin : (absPos p).InCheck p.turn) :
    (∃ r, andPicker p = some r ∧ ∀ m, m ∈ r ↔ ∃ mv, m = encode p mv ∧ (absPos p).Legal mv ∧ keenReply (absPos p) mv) ∨
      (andPicker p = none ∧ Spill Z 0 p) := by
  rcases andPicker_res hp hin with ⟨r, e, h1, h2⟩ | h
  · refine .inl ⟨r, e, fun m => ⟨fun hm => ?_, ?_⟩⟩
    · obtain ⟨mv, rfl, hl⟩ := h1 m hm
      refine ⟨mv, rfl, hl, ?_⟩
      unfold andPicker at e
      obtain ⟨l, e1, e2⟩ := Option.map_eq_some_iff.mp e
      obtain ⟨l', e3, e4⟩ := Option.bind_eq_some_iff.mp e1
      unfold fits at e4
      split at e4
      swap
      · cases e4
      cases e4
      rw [← e2, (filterSwap_perm _ _ _ (le_refl _)).mem_iff, List.mem_filter] at hm
      exact genEvasion_not_declined hp.inv.views (fun s hs => hp.regular.alive s _ _ hs) e3 (fun k hk => hp.inv.views.kingAt hk) hm.1
    · rintro ⟨mv, rfl, hl, hk⟩
      exact h2 mv hl hk
  · exact .inr h

end Verif
