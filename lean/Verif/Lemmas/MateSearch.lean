import Verif.Lemmas.CheckMoves
import Verif.Model.MateSearch
import Verif.Spec.Mate
import Verif.Props.Mate

/-!
# The mate search: lists of moves
-/

namespace Verif
open Spec Bitboard Position

/-! ### Evasions with and without declined promotions -/

theorem isBehind_weaken {c : Color} {n : Nat} (h : isBehind c 1 7 n = true) : isBehind c 0 8 n = true := by
  unfold isBehind at *
  cases c <;> simp only [decide_eq_true_eq] at * <;> omega

theorem genPieces_subset {p : Position} {us : Color} {target : Bitboard} {m : Move} (h : m ∈ genPieces p us false target) :
    m ∈ genPieces p us true target := by
  unfold genPieces at *
  simp only [List.mem_append] at *
  have hbr : ∀ pt, m ∈ genBishopOrRook p pt us false target → m ∈ genBishopOrRook p pt us true target := by
    intro pt h
    unfold genBishopOrRook at *
    obtain ⟨f, hf, h⟩ := List.mem_flatMap.mp h
    obtain ⟨t, ht, h⟩ := List.mem_flatMap.mp h
    refine List.mem_flatMap.mpr ⟨f, hf, List.mem_flatMap.mpr ⟨t, ht, ?_⟩⟩
    split at h
    · rename_i hc
      rw [if_pos hc]
      simp only [Bool.false_eq_true, if_false, List.mem_singleton] at h
      rw [h]; exact List.mem_cons_self
    · rename_i hc
      rw [if_neg hc]; exact h
  rcases h with (((((h | h) | h) | h) | h) | h) | h
  · refine .inl (.inl (.inl (.inl (.inl (.inl ?_)))))
    rw [genPawn_eq] at *
    rw [List.mem_append, List.mem_flatMap] at *
    rcases h with ⟨t, ht, h⟩ | h
    · refine .inl ⟨t, ht, ?_⟩
      simp only [Bool.false_and, Bool.false_eq_true, if_false, List.mem_singleton] at h
      rw [h]; exact List.mem_cons_self
    · exact .inr h
  · refine .inl (.inl (.inl (.inl (.inl (.inr ?_)))))
    unfold genLance at *
    obtain ⟨f, hf, h⟩ := List.mem_flatMap.mp h
    obtain ⟨t, ht, h⟩ := List.mem_flatMap.mp h
    refine List.mem_flatMap.mpr ⟨f, hf, List.mem_flatMap.mpr ⟨t, ht, ?_⟩⟩
    split at h
    · rename_i hc
      rw [if_pos hc]
      simp only [Bool.false_eq_true, if_false, List.mem_cons, List.mem_ite_nil_right, List.not_mem_nil, or_false] at h
      simp only [if_true, List.mem_cons, List.mem_ite_nil_right, List.not_mem_nil, or_false]
      rcases h with h | ⟨h1, h2⟩
      · exact .inl h
      · exact .inr ⟨isBehind_weaken h1, h2⟩
    · rename_i hc
      rw [if_neg hc]; exact h
  · exact .inl (.inl (.inl (.inl (.inr h))))
  · exact .inl (.inl (.inl (.inr h)))
  · exact .inl (.inl (.inr (hbr _ h)))
  · exact .inl (.inr (hbr _ h))
  · exact .inr h

section keen
variable {p : Position} (h : Consistent p) (halive : ∀ s, (absPos p).board s = some (p.turn, .pawn) → ¬ Dead p.turn .pawn s)
include h halive

theorem genPieces_keen {target : Bitboard} {mv : Mv} (hm : encode p mv ∈ genPieces p p.turn true target)
    (hk : ¬ Declines (absPos p) mv) : encode p mv ∈ genPieces p p.turn false target := by
  obtain ⟨kd, hnk, f, t, pro, e, hf, ha, ht, hpro, hdead⟩ := (mem_genPieces h halive target _).mp hm
  have e : mv = .move f t pro := encode_inj p (show encode p mv = encode p (.move f t pro) from e)
  subst e
  have hmv : encode p (.move f t pro) = boardMove p.piece f t pro := rfl
  -- a promotion of a pawn, bishop or rook, and of a lance near the edge, is not declined
  have hd : ∀ k, (absPos p).board f = some (p.turn, k) →
      ((k = .pawn ∨ k = .bishop ∨ k = .rook) ∧ (zone p.turn f ∨ zone p.turn t) ∨ k = .lance ∧ farRank p.turn t ≤ 1) → pro = true := by
    intro k hb hh
    cases pro
    · exact absurd ⟨f, t, k, rfl, hb, hh⟩ hk
    · rfl
  have hbr : kd = .bishop ∨ kd = .rook → encode p (.move f t pro) ∈ genBishopOrRook p kd.code p.turn false target := by
    intro hkd
    unfold genBishopOrRook
    rw [mem_loop h]
    refine ⟨f, t, hf, ha, ht, ?_⟩
    rw [genPro_eq (pieceType_at h hf), genMove_eq (pieceType_at h hf), hmv]
    by_cases hz : zone p.turn f ∨ zone p.turn t
    · have : pro = true := hd kd hf (.inl ⟨.inr hkd, hz⟩)
      subst this
      rw [if_pos (by rwa [Bool.or_eq_true, canPromote_iff, canPromote_iff])]
      exact List.mem_cons_self
    · rw [if_neg (by rwa [Bool.or_eq_true, canPromote_iff, canPromote_iff])]
      cases pro
      · exact List.mem_singleton.mpr rfl
      · exact absurd (hpro rfl).2 hz
  unfold genPieces at hm ⊢
  simp only [List.mem_append]
  cases kd
  case pawn =>
    refine .inl (.inl (.inl (.inl (.inl (.inl ?_)))))
    rw [genPawn_eq, List.mem_append, List.mem_flatMap, List.mem_map]
    have hzf := zone_forward p.turn (.inl rfl) ha
    by_cases hz : zone p.turn t
    · have : pro = true := hd _ hf (.inl ⟨.inl rfl, .inr hz⟩)
      subst this
      refine .inl ⟨t, (pawnOn_iff h halive target t).mpr ⟨⟨f, hf, ha⟩, ht, hz⟩, ?_⟩
      rw [backSq_attack ha, genPro_eq (pt := PT.Pawn) (pieceType_at h hf)]
      exact List.mem_cons_self
    · refine .inr ⟨t, (pawnRest_iff h halive target t).mpr ⟨⟨f, hf, ha⟩, ht, hz⟩, ?_⟩
      rw [backSq_attack ha, genMove_eq (pt := PT.Pawn) (pieceType_at h hf)]
      cases pro
      · rfl
      · exact absurd (hzf.mp (hpro rfl).2) hz
  case lance =>
    refine .inl (.inl (.inl (.inl (.inl (.inr ?_)))))
    unfold genLance
    rw [show PT.Lance = Kind.lance.code from rfl, mem_loop h]
    refine ⟨f, t, hf, ha, ht, ?_⟩
    have hzf := zone_forward p.turn (.inr (.inl rfl)) ha
    rw [genPro_eq (pieceType_at h hf), genMove_eq (pieceType_at h hf), hmv]
    by_cases hz : zone p.turn t
    · rw [if_pos ((canPromote_iff _ _).mpr hz)]
      cases pro
      · have : ¬ farRank p.turn t ≤ 1 := fun e => absurd (hd _ hf (.inr ⟨rfl, e⟩)) (by decide)
        have hb := isBehind_iff p.turn 1 t
        rw [if_neg (by decide), if_pos (hb.mpr (by push_cast; omega))]
        exact List.mem_cons_of_mem _ (List.mem_singleton.mpr rfl)
      · exact List.mem_cons_self
    · rw [if_neg (fun e => hz ((canPromote_iff _ _).mp e))]
      cases pro
      · exact List.mem_singleton.mpr rfl
      · exact absurd (hzf.mp (hpro rfl).2) hz
  case knight => exact .inl (.inl (.inl (.inl (.inr ((mem_genKnight h _ _).mpr ⟨f, t, pro, rfl, hf, ha, ht, hpro, hdead⟩)))))
  case silver => exact .inl (.inl (.inl (.inr ((mem_genSilver h _ _).mpr ⟨f, t, pro, rfl, hf, ha, ht, hpro, hdead⟩))))
  case bishop => exact .inl (.inl (.inr (hbr (.inl rfl))))
  case rook => exact .inl (.inr (hbr (.inr rfl)))
  case king => exact absurd rfl hnk
  all_goals exact .inr ((mem_genGHD h _ _).mpr ⟨_, (by simp [goldLike]), f, t, pro, rfl, hf, ha, ht, hpro, hdead⟩)

/-- The evasions without declined promotions are evasions, and all others are among them. -/
theorem genEvasion_keen {l : List Move} (hl : genEvasion p true = some l) : ∃ l', genEvasion p false = some l' ∧ (∀ m ∈ l', m ∈ l) ∧
    ∀ mv, encode p mv ∈ l → ¬ Declines (absPos p) mv → encode p mv ∈ l' := by
  have sub : ∀ {A B : List Move} {T : Bitboard}, (∀ m ∈ A ++ genPieces p p.turn false T ++ B, m ∈ A ++ genPieces p p.turn true T ++ B) ∧
      ∀ mv, encode p mv ∈ A ++ genPieces p p.turn true T ++ B → ¬ Declines (absPos p) mv →
        encode p mv ∈ A ++ genPieces p p.turn false T ++ B := by
    intro A B T
    constructor
    · intro m hm
      simp only [List.mem_append] at *
      rcases hm with (hm | hm) | hm
      · exact .inl (.inl hm)
      · exact .inl (.inr (genPieces_subset hm))
      · exact .inr hm
    · intro mv hm hk
      simp only [List.mem_append] at *
      rcases hm with (hm | hm) | hm
      · exact .inl (.inl hm)
      · exact .inl (.inr (genPieces_keen h halive hm hk))
      · exact .inr hm
  have same : ∀ {l : List Move}, some l = some l ∧ (∀ m ∈ l, m ∈ l) ∧ ∀ mv, encode p mv ∈ l → ¬ Declines (absPos p) mv → encode p mv ∈ l :=
    ⟨rfl, fun _ h => h, fun _ h _ => h⟩
  unfold genEvasion at *
  dsimp only at *
  split at hl
  · cases hl
  · rename_i ksq hk
    split at hl
    · cases hl
    · rename_i banned hb
      split at hl
      · cases hl
      · rename_i checkSq others hc
        split at hl
        · rename_i h1
          rw [if_pos h1]
          cases hl
          exact ⟨_, same⟩
        · rename_i h1
          rw [if_neg h1]
          split at hl
          · rename_i h2
            rw [if_pos h2]
            rcases hg : genDrops p p.turn (betweenBB checkSq ksq) with _ | drops
            · rw [hg] at hl; cases hl
            · rw [hg] at hl
              cases hl
              exact ⟨_, rfl, sub⟩
          · rename_i h2
            rw [if_neg h2]
            cases hl
            have := sub (A := (banned.notAnd ((p.byColor p.turn).notAnd (kingAttack ksq))).toList.map fun t => genMove p PT.King ksq t)
              (B := []) (T := betweenBB checkSq ksq ||| p.st.checkersBB)
            rw [List.append_nil, List.append_nil] at this
            exact ⟨_, rfl, this⟩

end keen

/-! ### The two lists of the search -/

/-- What the search keeps up: the views agree, the checkers are right, the position is regular, and the history is long enough. -/
structure Sound (Z : Zobrist) (p : Position) : Prop where
  inv : Inv Z p
  checks : CheckOK p
  regular : (absPos p).Regular
  plies : p.st.pliesFromNull ≤ p.prev.length

/-- The replies: legal moves, among them all that do not decline a promotion. -/
theorem andPicker_sound {Z : Zobrist} {p : Position} (hp : Sound Z p) (hin : (absPos p).InCheck p.turn) :
    ∃ l, genEvasion p false = some l ∧ (91 < l.length → andPicker p = none) ∧ (l.length ≤ 91 → ∃ r, andPicker p = some r ∧
      (∀ m ∈ r, ∃ mv, m = encode p mv ∧ (absPos p).Legal mv) ∧
      ∀ mv, (absPos p).Legal mv → ¬ Declines (absPos p) mv → encode p mv ∈ r) := by
  obtain ⟨l, hl, -, -, hm⟩ := genEvasion_spec hp.inv.views hp.checks hp.regular hin
  obtain ⟨l', hl', h1, h2⟩ := genEvasion_keen hp.inv.views (fun s hs => hp.regular.alive s _ _ hs) hl
  refine ⟨l', hl', fun hn => ?_, fun hn => ?_⟩
  · unfold andPicker fits maxCheckMoves
    rw [hl', Option.bind_some, if_neg (by omega)]; rfl
  · refine ⟨_, by unfold andPicker fits maxCheckMoves; rw [hl', Option.bind_some, if_pos hn]; rfl, fun m hmm => ?_, fun mv hlg hk => ?_⟩
    · rw [(filterSwap_perm _ _ _ (le_refl _)).mem_iff, List.mem_filter] at hmm
      exact (hm m).mp ⟨h1 m hmm.1, hmm.2⟩
    · have := (hm (encode p mv)).mpr ⟨mv, rfl, hlg⟩
      rw [(filterSwap_perm _ _ _ (le_refl _)).mem_iff, List.mem_filter]
      exact ⟨h2 mv this.1 hk, this.2⟩

/-- The checks: legal moves that give check. -/
theorem orPicker_sound {Z : Zobrist} {p : Position} (hp : Sound Z p) {l : List Move} {b : Bool} (hb : b = true ↔ (absPos p).InCheck p.turn)
    (hl : orPicker p b = some l) : ∀ m ∈ l, ∃ mv, m = encode p mv ∧ (absPos p).Legal mv ∧ ((absPos p).play mv).InCheck p.turn.opp := by
  obtain ⟨k, hk⟩ := kings_of hp.inv.views hp.regular p.turn.opp
  obtain ⟨g, hg, hgs⟩ := genCheck_sound hp.inv.views hk hp.regular.waiting true
  unfold orPicker at hl
  rw [hk] at hl
  dsimp only at hl
  obtain ⟨_, -, hl⟩ := Option.bind_eq_some_iff.mp hl
  obtain ⟨g', hg', hl⟩ := Option.bind_eq_some_iff.mp hl
  rw [hg, Option.bind_some] at hg'
  unfold fits at hg'
  split at hg'
  swap
  · cases hg'
  cases hg'
  intro m hm
  cases b
  · rw [if_neg (by decide)] at hl
    cases hl
    have hn : ¬ (absPos p).InCheck p.turn := fun e => absurd (hb.mpr e) (by decide)
    obtain ⟨mv, rfl, h1, h2, h3, h4⟩ := hgs m hm
    exact ⟨mv, rfl, ⟨⟨h1, (isLegal_quiet hp.inv.views hp.regular hn h1).mp h4⟩, h3⟩, h2⟩
  · rw [if_pos rfl] at hl
    obtain ⟨_, -, hl⟩ := Option.map_eq_some_iff.mp hl
    rw [← hl, (filterSwap_perm _ _ _ (le_refl _)).mem_iff, List.mem_filter] at hm
    obtain ⟨mv, rfl, h1, h2, h3, h4⟩ := hgs m hm.1
    obtain ⟨b, e, he⟩ := evasion_test hp.inv.views hp.checks hp.regular (hp.checks.inCheck.mpr (hb.mp rfl)) h1 h4
    rw [e] at hm
    exact ⟨mv, rfl, ⟨⟨h1, he.mp hm.2⟩, h3⟩, h2⟩


end Verif
