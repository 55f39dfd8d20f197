import Verif.Model.CheckGen
import Verif.Lemmas.MateDisc
import Verif.Lemmas.IsLegal

/-!
Every board move the generator of checking moves writes is pseudo-legal and attacks the opposing king.
-/

namespace Verif
open Spec Bitboard Position

/-- A pseudo-legal board move that attacks the opposing king on `k`, itself or by opening a line. -/
def Checking (p : Position) (k : Square) (m : Move) : Prop :=
  ∃ f t pro kd, m = encode p (.move f t pro) ∧ (absPos p).board f = some (p.turn, kd) ∧ Attacks p.turn kd (absPos p).occ f t ∧
    (∀ kd', (absPos p).board t ≠ some (p.turn, kd')) ∧ ProOK p.turn kd f t pro ∧
    (Attacks p.turn (Pos.arriving kd pro) (absPos p).occ t k ∨ ∃ s, PinLine (absPos p) p.turn k f s ∧ s ≠ t ∧ ¬ Between s t k)

section
variable {p : Position} {k : Square} {all : Bool} {f t : Square} {kd : Kind} {m : Move}

theorem pieceMoves_sound (h : Consistent p) (hf : (absPos p).board f = some (p.turn, kd))
    (hm : m ∈ pieceMoves p p.turn all kd.code f t) : ∃ pro, m = encode p (.move f t pro) ∧ ProOK p.turn kd f t pro := by
  have hpt := pieceType_at h hf
  have e1 : genMove p kd.code f t = encode p (.move f t false) := genMove_eq hpt
  have e2 : genPro p kd.code f t = encode p (.move f t true) := genPro_eq hpt
  have yes : kd.promoted.isSome = true → (zone p.turn f ∨ zone p.turn t) → m = genPro p kd.code f t →
      ∃ pro, m = encode p (.move f t pro) ∧ ProOK p.turn kd f t pro := fun a b c => ⟨true, by rw [c, e2], proOK_true a b⟩
  have no : ¬ Dead p.turn kd t → m = genMove p kd.code f t →
      ∃ pro, m = encode p (.move f t pro) ∧ ProOK p.turn kd f t pro := fun a c => ⟨false, by rw [c, e1], proOK_false a⟩
  have b0 := isBehind_iff p.turn 0 t
  have b1 := isBehind_iff p.turn 1 t
  have hz := canPromote_iff p.turn t
  have hz2 := canPromote2_iff p.turn t f
  have hzz : ¬ zone p.turn t → 2 < farRank p.turn t := by unfold zone; omega
  clear hpt e1 e2 hf
  cases kd <;> simp only [pieceMoves, Kind.code] at hm
  · by_cases hc : canPromote p.turn t = true
    · rw [if_pos hc, List.mem_cons] at hm
      rcases hm with hm | hm
      · exact yes rfl (.inr (hz.mp hc)) hm
      · split at hm
        · split at hm
          · next hb => exact no (by have := b0.mp hb; unfold Dead; simp only; omega) (List.mem_singleton.mp hm)
          · simp at hm
        · simp at hm
    · rw [if_neg hc] at hm
      exact no (by have := hzz (fun e => hc (hz.mpr e)); unfold Dead; simp only; omega) (List.mem_singleton.mp hm)
  · by_cases hc : canPromote p.turn t = true
    · rw [if_pos hc, List.mem_cons] at hm
      rcases hm with hm | hm
      · exact yes rfl (.inr (hz.mp hc)) hm
      · split at hm
        · split at hm
          · next hb => exact no (by have := b0.mp hb; unfold Dead; simp only; omega) (List.mem_singleton.mp hm)
          · simp at hm
        · split at hm
          · next hb => exact no (by have := b1.mp hb; unfold Dead; simp only; omega) (List.mem_singleton.mp hm)
          · simp at hm
    · rw [if_neg hc] at hm
      exact no (by have := hzz (fun e => hc (hz.mpr e)); unfold Dead; simp only; omega) (List.mem_singleton.mp hm)
  · by_cases hc : canPromote p.turn t = true
    · rw [if_pos hc, List.mem_cons] at hm
      rcases hm with hm | hm
      · exact yes rfl (.inr (hz.mp hc)) hm
      · split at hm
        · next hb => exact no (by have := b1.mp hb; unfold Dead; simp only; omega) (List.mem_singleton.mp hm)
        · simp at hm
    · rw [if_neg hc] at hm
      exact no (by have := hzz (fun e => hc (hz.mpr e)); unfold Dead; simp only; omega) (List.mem_singleton.mp hm)
  · rw [List.mem_append] at hm
    rcases hm with hm | hm
    · by_cases hc : (canPromote p.turn t || canPromote p.turn f) = true
      · rw [if_pos hc] at hm
        exact yes rfl (hz2.mp hc).symm (List.mem_singleton.mp hm)
      · rw [if_neg hc] at hm; simp at hm
    · exact no (fun e => e.elim) (List.mem_singleton.mp hm)
  · by_cases hc : (canPromote p.turn t || canPromote p.turn f) = true
    · rw [if_pos hc, List.mem_cons] at hm
      rcases hm with hm | hm
      · exact yes rfl (hz2.mp hc).symm hm
      · split at hm
        · exact no (fun e => e.elim) (List.mem_singleton.mp hm)
        · simp at hm
    · rw [if_neg hc] at hm
      exact no (fun e => e.elim) (List.mem_singleton.mp hm)
  · by_cases hc : (canPromote p.turn t || canPromote p.turn f) = true
    · rw [if_pos hc, List.mem_cons] at hm
      rcases hm with hm | hm
      · exact yes rfl (hz2.mp hc).symm hm
      · split at hm
        · exact no (fun e => e.elim) (List.mem_singleton.mp hm)
        · simp at hm
    · rw [if_neg hc] at hm
      exact no (fun e => e.elim) (List.mem_singleton.mp hm)
  all_goals exact no (fun e => e.elim) (List.mem_singleton.mp hm)

theorem one_bit {b : Bitboard} (hw : b.WF) (h1 : b.isOneBit = true) :
    b.isSet (sqN b.first) = true ∧ ∀ v, b.isSet v = true → v = sqN b.first := by
  obtain ⟨S, hS⟩ : ∃ S : Finset Square, S = Finset.univ.filter fun s => b.isSet s = true := ⟨_, rfl⟩
  have hm : ∀ s, b.isSet s = true ↔ s ∈ S := by intro s; rw [hS]; simp
  have hr : Represents b S := (represents_iff b S).mpr ⟨hw, hm⟩
  obtain ⟨u, hu⟩ := Finset.card_eq_one.mp ((C11_isOneBit b S hr).1.mp h1)
  obtain ⟨c, hc, he, -⟩ := popFirst_spec hw ⟨u, (hm u).mpr (by rw [hu]; exact Finset.mem_singleton_self _)⟩
  have hcu : ∀ v, b.isSet v = true → v = u := fun v hv => by
    have := (hm v).mp hv; rw [hu] at this; exact Finset.mem_singleton.mp this
  have he' : sqN b.first = c := by
    rw [← he]
    unfold popFirst Bitboard.first
    split <;> rfl
  rw [he']
  exact ⟨hc, fun v hv => (hcu v hv).trans (hcu c hc).symm⟩

/-- The single enemy piece between a piece and the king. -/
theorem soleBlocker_some (h : Consistent p) (hs : p.soleBlocker k f = some t) :
    Between f t k ∧ (∀ kd', (absPos p).board t ≠ some (p.turn, kd')) ∧ ∀ u, Between f u k → u ≠ t → (absPos p).occ u = false := by
  unfold soleBlocker at hs
  simp only at hs
  by_cases hc : ((betweenBB f k &&& p.occupied).isOneBit && ((betweenBB f k &&& p.occupied) &&& p.byColor p.turn.opp).isAny) = true
  · rw [if_pos hc, Option.some.injEq] at hs
    rw [Bool.and_eq_true] at hc
    have hw : (betweenBB f k &&& p.occupied).WF := (wf_betweenBB f k).and_left
    obtain ⟨o1, o2⟩ := one_bit hw hc.1
    rw [hs] at o1 o2
    obtain ⟨v, hv⟩ := (hw.and_left.isAny_iff).mp hc.2
    rw [isSet_and, Bool.and_eq_true] at hv
    have hvt := o2 v hv.1
    subst hvt
    obtain ⟨kv, hkv⟩ := (h.color _ _).mp hv.2
    rw [isSet_and, Bool.and_eq_true, isSet_betweenBB] at o1
    refine ⟨o1.1, fun kd' e => ?_, fun u hu hne => ?_⟩
    · rw [hkv] at e
      simp only [Option.some.injEq, Prod.mk.injEq] at e
      exact opp_ne p.turn e.1
    · by_contra ho
      rw [Bool.not_eq_false, ← h.occ] at ho
      exact hne (o2 u (by rw [isSet_and, Bool.and_eq_true, isSet_betweenBB]; exact ⟨hu, ho⟩))
  · rw [if_neg hc] at hs; cases hs

/-- Capturing the single piece between leaves the line to the king free. -/
theorem blocker_attacks {c : Color} {occ : Square → Bool} (hsl : SlideLine c kd f k) (hb : Between f t k)
    (hfree : ∀ u, Between f u k → u ≠ t → occ u = false) : Attacks c kd occ f t ∧ (SlideLine c kd t k → Attacks c kd occ t k) := by
  constructor
  · rw [attacks_iff]
    exact .inr ⟨hsl.shorten hb, fun u hu => hfree u (between_trans_left hb hu) (between_ne_right hu)⟩
  · intro ht
    rw [attacks_iff]
    exact .inr ⟨ht, fun u hu => hfree u (between_trans_right hb hu) (between_ne_left hu)⟩

theorem slideLine_rest {c : Color} (hsl : SlideLine c kd f k) (hb : Between f t k) : SlideLine c kd t k := by
  obtain ⟨d, hd, hl⟩ := hsl
  obtain ⟨e, he, h1, h2⟩ := between_iff.mp hb
  have hdir : IsDir (orient c d) := (isDir_slides kd d hd).orient c
  have := line_dir_unique hdir he hl (line_trans h1 h2)
  exact ⟨d, hd, by rw [this]; exact h2⟩

theorem pawn_unique {c : Color} {occ occ' : Square → Bool} {s t f : Square} (h1 : Attacks c .pawn occ f s) (h2 : Attacks c .pawn occ' f t) : s = t := by
  rw [pawn_attack_iff] at h1 h2
  have e1 : X s = X t := by omega
  have e2 : farRank c s = farRank c t := by omega
  refine sq_ext e1 ?_
  unfold farRank at e2
  cases c <;> simp only at e2 <;> omega

theorem pawnTable_sound {c : Color} {occ : Square → Bool} (h : (pawnCheckTable c k).isSet f = true) (ha : Attacks c .pawn occ f t) :
    Attacks c .pawn occ t k ∨ (Attacks c .gold occ t k ∧ zone c t) := by
  unfold pawnCheckTable at h
  rw [isSet_andNot, Bool.and_eq_true, isSet_or, Bool.or_eq_true] at h
  rcases h.1 with h | h
  · obtain ⟨s, hs, hf⟩ := (isSet_unionOver _ _ _).mp h
    rw [(wf_pawnAttack _ _).mem_toList, back_pawn c _ _ occ] at hs
    rw [back_pawn c _ _ occ] at hf
    rw [pawn_unique hf ha] at hs
    exact .inl hs
  · obtain ⟨s, hs, hf⟩ := (isSet_unionOver _ _ _).mp h
    rw [((wf_goldAttack _ _).and_left).mem_toList, isSet_and, Bool.and_eq_true, back_gold c .gold rfl _ _ occ, isSet_tRank123] at hs
    rw [back_pawn c _ _ occ] at hf
    rw [pawn_unique hf ha] at hs
    exact .inr hs

theorem lance_line_iff (c : Color) (s t : Square) : SlideLine c .lance s t ↔ X t = X s ∧ farRank c t < farRank c s := by
  unfold SlideLine Line At farRank
  have := X_bounds s; have := X_bounds t; have := Y_bounds s; have := Y_bounds t
  simp only [Kind.slides, List.mem_singleton, exists_eq_left]
  cases c <;> simp only [orient]
  · constructor
    · rintro ⟨n, h1, h2, h3⟩; omega
    · rintro ⟨h1, h2⟩; exact ⟨(Y s - Y t).toNat, by omega, by omega, by omega⟩
  · constructor
    · rintro ⟨n, h1, h2, h3⟩; omega
    · rintro ⟨h1, h2⟩; exact ⟨(Y t - Y s).toNat, by omega, by omega, by omega⟩

theorem gold_file {c : Color} {occ : Square → Bool} {s t : Square} (ha : Attacks c .gold occ s t) (hx : X s = X t) :
    farRank c s = farRank c t + 1 ∨ farRank c s + 1 = farRank c t := by
  rcases ha with ⟨d, hd, h1, h2⟩ | ⟨d, hd, -⟩
  · simp only [Kind.steps, Kind.goldSteps, List.mem_cons, List.not_mem_nil, or_false] at hd
    unfold farRank
    rcases hd with rfl | rfl | rfl | rfl | rfl | rfl <;> cases c <;> simp only [orient] at h1 h2 ⊢ <;> omega
  · simp [Kind.slides] at hd

theorem farRank_opp (c : Color) (s : Square) : farRank c.opp s = 8 - farRank c s := by
  unfold farRank; cases c <;> simp only [Color.opp] <;> omega

theorem lanceTable_sound {c : Color} (h : (lanceCheckTable c k).isSet f = true) (hx : file k = file f) : SlideLine c .lance f k := by
  have hx' : X k = X f := by rw [← file_eq_X, ← file_eq_X, hx]
  unfold lanceCheckTable at h
  rw [isSet_andNot, Bool.and_eq_true, isSet_or, Bool.or_eq_true, Bool.not_eq_true', isSet_or, Bool.or_eq_false_iff] at h
  obtain ⟨h, hk, -⟩ := h
  have hkf : f ≠ k := by
    intro e
    rw [e, isSet_setMask] at hk
    simp at hk
  rw [lance_line_iff]
  refine ⟨hx', ?_⟩
  rcases h with h | h
  · rw [isSet_lanceEdge, lance_line_iff, farRank_opp, farRank_opp] at h
    omega
  · obtain ⟨s, hs, hf⟩ := (isSet_unionOver _ _ _).mp h
    rw [((wf_goldAttack _ _).and_left).mem_toList, isSet_and, Bool.and_eq_true, back_gold c .gold rfl _ _ (fun _ => false), isSet_tRank123] at hs
    rw [isSet_lanceEdge, lance_line_iff, farRank_opp, farRank_opp] at hf
    have := gold_file hs.1 (by omega)
    have hne : farRank c f ≠ farRank c k := fun e => hkf (sq_ext hx'.symm (by
      unfold farRank at e; cases c <;> simp only at e <;> omega))
    omega

theorem attack_alive {c : Color} {occ : Square → Bool} (ha : Attacks c kd occ t k) : ¬ Dead c kd t := by
  have hk := Y_bounds k
  cases kd <;> intro hd
  · have := forward c (.inl rfl) ha
    unfold Dead at hd; simp only at hd
    unfold farRank at *; cases c <;> simp only at * <;> omega
  · have := forward c (.inr (.inl rfl)) ha
    unfold Dead at hd; simp only at hd
    unfold farRank at *; cases c <;> simp only at * <;> omega
  · exact knight_dead hd ha
  all_goals exact hd

theorem checking_pro {kd2 : Kind} (h : Consistent p) (hf : (absPos p).board f = some (p.turn, kd)) (hat : Attacks p.turn kd (absPos p).occ f t)
    (ht : ∀ kd', (absPos p).board t ≠ some (p.turn, kd')) (hk : kd.promoted = some kd2) (hz : zone p.turn f ∨ zone p.turn t)
    (ha : Attacks p.turn kd2 (absPos p).occ t k) : Checking p k (genPro p kd.code f t) := by
  refine ⟨f, t, true, kd, genPro_eq (pieceType_at h hf), hf, hat, ht, proOK_true (by rw [hk]; rfl) hz, .inl ?_⟩
  unfold Pos.arriving
  rw [if_pos rfl, hk]
  exact ha

theorem checking_non (h : Consistent p) (hf : (absPos p).board f = some (p.turn, kd)) (hat : Attacks p.turn kd (absPos p).occ f t)
    (ht : ∀ kd', (absPos p).board t ≠ some (p.turn, kd')) (ha : Attacks p.turn kd (absPos p).occ t k) :
    Checking p k (genMove p kd.code f t) :=
  ⟨f, t, false, kd, genMove_eq (pieceType_at h hf), hf, hat, ht, proOK_false (attack_alive ha), .inl ha⟩

theorem att_of (h : Consistent p) (ht : (attacksFrom kd.code p.turn f p.occupied).isSet t = true) :
    Attacks p.turn kd (absPos p).occ f t := by
  rw [isSet_attacksFrom, h.occ_fun] at ht; exact ht

theorem own_of (h : Consistent p) (ht : (~~~p.byColor p.turn).isSet t = true) : ∀ kd', (absPos p).board t ≠ some (p.turn, kd') := by
  rw [isSet_not, Bool.not_eq_true'] at ht
  exact (not_own_iff h t).mp ht

theorem horse_back (h : Consistent p) (ht : (horseAttack k p.occupied).isSet t = true) : Attacks p.turn .horse (absPos p).occ t k := by
  rw [isSet_horseAttack] at ht
  rw [← h.occ_fun, ← back_horse]
  rcases ht with ⟨d, hd, ha⟩ | ht
  · exact .inr ((isSet_kingAttack _ _).mpr ⟨d, List.mem_append_left _ hd, ha⟩)
  · exact .inl ((isSet_bishopAttack _ _ _).mpr ht)

theorem dragon_back (h : Consistent p) (ht : (dragonAttack k p.occupied).isSet t = true) : Attacks p.turn .dragon (absPos p).occ t k := by
  rw [isSet_dragonAttack] at ht
  rw [← h.occ_fun, ← back_dragon]
  rcases ht with ⟨d, hd, ha⟩ | ht
  · exact .inr ((isSet_kingAttack _ _).mpr ⟨d, List.mem_append_right _ hd, ha⟩)
  · exact .inl ((isSet_rookAttack _ _ _).mpr ht)

theorem diagonal_line {c : Color} (hs : sameDiagonal k f = true) (hne : f ≠ k) : SlideLine c .bishop f k := by
  unfold sameDiagonal at hs
  rw [beq_iff_eq, file_eq_X, file_eq_X, rank_eq_Y, rank_eq_Y] at hs
  have hx : X k ≠ X f := fun e => hne (sq_ext e.symm (by omega))
  rw [← isSet_bishopEdge]
  rw [show bishopAttackToEdge f = bishopAttack f zero from rfl, isSet_bishopAttack]
  refine ⟨(if X f < X k then 1 else -1, if Y f < Y k then 1 else -1), ?_, (X k - X f).natAbs, by omega, ?_, ?_⟩
  · split <;> split <;> decide
  · unfold At
    constructor <;> simp only <;> split <;> omega
  · intro j _ _ u _; simp

theorem cross_line {c : Color} (hs : sameCross k f = true) (hne : f ≠ k) : SlideLine c .rook f k := by
  unfold sameCross at hs
  have hs' : X k = X f ∨ Y k = Y f := by
    rw [Bool.or_eq_true, beq_iff_eq, beq_iff_eq] at hs
    rw [← file_eq_X, ← file_eq_X, ← rank_eq_Y, ← rank_eq_Y]
    omega
  rw [← isSet_rookEdge]
  rw [show rookAttackToEdge f = rookAttack f zero from rfl, isSet_rookAttack]
  rcases hs' with e | e
  · have hy : Y k ≠ Y f := fun e' => hne (sq_ext e.symm e'.symm)
    refine ⟨(0, if Y f < Y k then 1 else -1), by split <;> decide, (Y k - Y f).natAbs, by omega, ?_, fun j _ _ u _ => by simp⟩
    unfold At
    constructor
    · simp only; omega
    · simp only; split <;> omega
  · have hy : X k ≠ X f := fun e' => hne (sq_ext e'.symm e.symm)
    refine ⟨(if X f < X k then 1 else -1, 0), by split <;> decide, (X k - X f).natAbs, by omega, ?_, fun j _ _ u _ => by simp⟩
    unfold At
    constructor
    · simp only; split <;> omega
    · simp only; omega

theorem movers_pawn (h : Consistent p) (hf : (absPos p).board f = some (p.turn, .pawn)) (hx : (p.checkMovers k).isSet f = true) :
    (pawnCheckTable p.turn k).isSet f = true := by
  obtain ⟨t1, t2, t3, t4, t5, t6, t7, t8, t13, t14⟩ := h.types hf
  have hg : p.golds.isSet f = false := by
    rw [Bool.eq_false_iff, ne_eq, h.golds, hf]
    rintro ⟨c, k', e, hg⟩
    simp only [Option.some.injEq, Prod.mk.injEq] at e
    rw [← e.2] at hg; exact absurd hg (by decide)
  unfold checkMovers bbOf2 at hx
  simp only [isSet_and, isSet_or, t1, t2, t3, t4, t5, t6, t13, t14, hg] at hx
  simp only [reduceCtorEq, decide_true, decide_false, Bool.true_and, Bool.false_and, Bool.or_false, Bool.false_or, Bool.and_eq_true] at hx
  exact hx.1

theorem movers_lance (h : Consistent p) (hf : (absPos p).board f = some (p.turn, .lance)) (hx : (p.checkMovers k).isSet f = true) :
    (lanceCheckTable p.turn k).isSet f = true := by
  obtain ⟨t1, t2, t3, t4, t5, t6, t7, t8, t13, t14⟩ := h.types hf
  have hg : p.golds.isSet f = false := by
    rw [Bool.eq_false_iff, ne_eq, h.golds, hf]
    rintro ⟨c, k', e, hg⟩
    simp only [Option.some.injEq, Prod.mk.injEq] at e
    rw [← e.2] at hg; exact absurd hg (by decide)
  unfold checkMovers bbOf2 at hx
  simp only [isSet_and, isSet_or, t1, t2, t3, t4, t5, t6, t13, t14, hg] at hx
  simp only [reduceCtorEq, decide_true, decide_false, Bool.true_and, Bool.false_and, Bool.or_false, Bool.false_or, Bool.and_eq_true] at hx
  exact hx.1

theorem pawn_gold' {c : Color} {occ : Square → Bool} (ha : Attacks c .pawn occ t k) : (goldAttack c.opp k).isSet t = true := by
  rw [back_gold c .gold rfl _ _ occ]
  rcases ha with ⟨d, hd, h1⟩ | ⟨d, hd, -⟩
  · refine .inl ⟨d, ?_, h1⟩
    rw [List.mem_singleton.mp hd]
    decide
  · simp [Kind.slides] at hd

variable (h : Consistent p)
include h

theorem pawnChecks_sound (hf : (absPos p).board f = some (p.turn, .pawn)) (hx : (pawnCheckTable p.turn k).isSet f = true)
    (hm : m ∈ pawnChecks p all k f) : Checking p k m := by
  unfold pawnChecks at hm
  obtain ⟨t, ht, hm⟩ := List.mem_flatMap.mp hm
  rw [((wf_pawnAttack _ _).and_left).mem_toList, isSet_and, Bool.and_eq_true] at ht
  have hat : Attacks p.turn .pawn (absPos p).occ f t := att_of h (kd := .pawn) ht.1
  have hown := own_of h ht.2
  have hc := pawnTable_sound hx hat
  by_cases hz : canPromote p.turn t = true
  · rw [if_pos hz, List.mem_cons] at hm
    rcases hm with rfl | hm
    · refine checking_pro (kd := .pawn) h hf hat hown rfl (.inr ((canPromote_iff _ _).mp hz)) ?_
      rcases hc with hc | hc
      · rw [← back_gold p.turn .proPawn rfl]
        exact pawn_gold' hc
      · rw [← back_gold p.turn .proPawn rfl, back_gold p.turn .gold rfl]
        exact hc.1
    · split at hm
      · split at hm
        · next hs =>
          rw [List.mem_singleton.mp hm]
          exact checking_non (kd := .pawn) h hf hat hown ((back_pawn _ _ _ _).mp hs)
        · simp at hm
      · simp at hm
  · rw [if_neg hz, List.mem_singleton] at hm
    rw [hm]
    refine checking_non (kd := .pawn) h hf hat hown ?_
    rcases hc with hc | hc
    · exact hc
    · exact absurd ((canPromote_iff _ _).mpr hc.2) hz

theorem lanceChecks_sound (hf : (absPos p).board f = some (p.turn, .lance)) (hx : (lanceCheckTable p.turn k).isSet f = true)
    (hm : m ∈ lanceChecks p all k f) : Checking p k m := by
  unfold lanceChecks at hm
  simp only at hm
  by_cases hfile : file k ≠ file f
  · rw [if_pos hfile] at hm
    obtain ⟨t, ht, hm⟩ := List.mem_flatMap.mp hm
    rw [((wf_goldAttack _ _).and_left.and_left).mem_toList, isSet_and, isSet_and, Bool.and_eq_true, Bool.and_eq_true] at ht
    by_cases hz : canPromote p.turn t = true
    · rw [if_pos hz, List.mem_singleton] at hm
      rw [hm]
      exact checking_pro (kd := .lance) h hf (att_of h (kd := .lance) ht.1.2) (own_of h ht.2) rfl (.inr ((canPromote_iff _ _).mp hz))
        ((back_gold p.turn .proLance rfl _ _ _).mp ht.1.1)
    · rw [if_neg hz] at hm; simp at hm
  · rw [if_neg hfile] at hm
    rw [not_not] at hfile
    have hsl := lanceTable_sound hx hfile
    rcases hs : p.soleBlocker k f with _ | t
    · rw [hs] at hm; simp at hm
    · rw [hs] at hm
      simp only at hm
      obtain ⟨b1, b2, b3⟩ := soleBlocker_some h hs
      obtain ⟨a1, a2⟩ := blocker_attacks hsl b1 b3
      have non := checking_non (kd := .lance) h hf a1 b2 (a2 (slideLine_rest hsl b1))
      by_cases hz : ((pawnAttack p.turn.opp k).isSet t && canPromote p.turn t) = true
      · rw [if_pos hz, List.mem_cons] at hm
        rw [Bool.and_eq_true] at hz
        rcases hm with rfl | hm
        · refine checking_pro (kd := .lance) h hf a1 b2 rfl (.inr ((canPromote_iff _ _).mp hz.2)) ?_
          rw [← back_gold p.turn .proLance rfl]
          exact pawn_gold' ((back_pawn _ _ _ (absPos p).occ).mp hz.1)
        · split at hm
          · rw [List.mem_singleton.mp hm]; exact non
          · split at hm
            · rw [List.mem_singleton.mp hm]; exact non
            · simp at hm
      · rw [if_neg hz, List.mem_singleton] at hm
        rw [hm]; exact non

theorem knightChecks_sound (hf : (absPos p).board f = some (p.turn, .knight)) (hm : m ∈ knightChecks p k f) : Checking p k m := by
  unfold knightChecks at hm
  simp only [List.mem_append] at hm
  rcases hm with hm | hm
  · obtain ⟨t, ht, rfl⟩ := List.mem_map.mp hm
    rw [((wf_knightAttack _ _).and_left.and_left).mem_toList, isSet_and, isSet_and, Bool.and_eq_true, Bool.and_eq_true] at ht
    exact checking_non (kd := .knight) h hf (att_of h (kd := .knight) ht.1.2) (own_of h ht.2) ((back_knight _ _ _ _).mp ht.1.1)
  · obtain ⟨t, ht, hm⟩ := List.mem_flatMap.mp hm
    rw [((wf_goldAttack _ _).and_left.and_left).mem_toList, isSet_and, isSet_and, Bool.and_eq_true, Bool.and_eq_true] at ht
    by_cases hz : canPromote p.turn t = true
    · rw [if_pos hz, List.mem_singleton] at hm
      rw [hm]
      exact checking_pro (kd := .knight) h hf (att_of h (kd := .knight) ht.1.2) (own_of h ht.2) rfl (.inr ((canPromote_iff _ _).mp hz))
        ((back_gold p.turn .proKnight rfl _ _ _).mp ht.1.1)
    · rw [if_neg hz] at hm; simp at hm

theorem silver_check (hf : (absPos p).board f = some (p.turn, .silver)) (ho : ∀ kd', (absPos p).board t ≠ some (p.turn, kd'))
    (hm : m ∈ (if (silverAttack p.turn.opp k &&& silverAttack p.turn f).isSet t then [genMove p PT.Silver f t] else []) ++
      (if (goldAttack p.turn.opp k &&& silverAttack p.turn f).isSet t then
        (if canPromote p.turn t || canPromote p.turn f then [genPro p PT.Silver f t] else []) else [])) : Checking p k m := by
  rw [List.mem_append] at hm
  rcases hm with hm | hm
  · split at hm
    · next ht =>
      rw [isSet_and, Bool.and_eq_true] at ht
      rw [List.mem_singleton.mp hm]
      exact checking_non (kd := .silver) h hf (att_of h (kd := .silver) ht.2) ho ((back_silver _ _ _ _).mp ht.1)
    · simp at hm
  · split at hm
    · next ht =>
      rw [isSet_and, Bool.and_eq_true] at ht
      split at hm
      · next hz =>
        rw [List.mem_singleton.mp hm]
        exact checking_pro (kd := .silver) h hf (att_of h (kd := .silver) ht.2) ho rfl ((canPromote2_iff _ _ _).mp hz).symm
          ((back_gold p.turn .proSilver rfl _ _ _).mp ht.1)
      · simp at hm
    · simp at hm

theorem silverChecks_sound (hf : (absPos p).board f = some (p.turn, .silver)) (hm : m ∈ silverChecks p k f) : Checking p k m := by
  unfold silverChecks at hm
  simp only [List.mem_append] at hm
  rcases hm with hm | hm
  · obtain ⟨t, ht, rfl⟩ := List.mem_map.mp hm
    rw [((wf_silverAttack _ _).and_left.and_left).mem_toList, isSet_and, Bool.and_eq_true] at ht
    exact silver_check h hf (own_of h ht.2) (by rw [if_pos ht.1]; simp)
  · obtain ⟨t, ht, hm⟩ := List.mem_flatMap.mp hm
    rw [((wf_goldAttack _ _).and_left.and_left).mem_toList, isSet_and, Bool.and_eq_true] at ht
    exact silver_check h hf (own_of h ht.2) (by rw [List.mem_append, if_pos ht.1]; exact .inr hm)

theorem gold_check (hg : goldLike kd = true) (hf : (absPos p).board f = some (p.turn, kd))
    (ho : ∀ kd', (absPos p).board t ≠ some (p.turn, kd')) (ht : (goldAttack p.turn.opp k &&& goldAttack p.turn f).isSet t = true) :
    Checking p k (genMove p kd.code f t) := by
  rw [isSet_and, Bool.and_eq_true] at ht
  exact checking_non h hf (gold_attack hg ht.2) ho ((back_gold p.turn kd hg _ _ _).mp ht.1)

theorem goldChecks_sound (hg : goldLike kd = true) (hf : (absPos p).board f = some (p.turn, kd)) (hm : m ∈ goldChecks p k f) :
    Checking p k m := by
  unfold goldChecks at hm
  obtain ⟨t, ht, rfl⟩ := List.mem_map.mp hm
  rw [((wf_goldAttack _ _).and_left.and_left).mem_toList, isSet_and, Bool.and_eq_true] at ht
  rw [pieceType_at h hf]
  exact gold_check h hg hf (own_of h ht.2) ht.1

theorem sliderChecks_sound {kd2 : Kind} {onLine : Bool} {near line reach : Bitboard} (hf : (absPos p).board f = some (p.turn, kd))
    (hk : kd.promoted = some kd2) (hwn : near.WF) (hne : ∀ t, near.isSet t = true → Attacks p.turn kd2 (absPos p).occ t k)
    (hli : ∀ t, line.isSet t = true → Attacks p.turn kd (absPos p).occ t k)
    (hre : ∀ t, reach.isSet t = true → Attacks p.turn kd (absPos p).occ f t)
    (hsub : ∀ occ s t, Attacks p.turn kd occ s t → Attacks p.turn kd2 occ s t)
    (hon : onLine = true → SlideLine p.turn kd f k) (hm : m ∈ sliderChecks p all kd.code onLine near line reach k f) : Checking p k m := by
  unfold sliderChecks at hm
  simp only at hm
  by_cases hl : onLine = true
  · rw [if_neg (by rw [hl]; decide)] at hm
    rcases hs : p.soleBlocker k f with _ | t
    · rw [hs] at hm; simp at hm
    · rw [hs] at hm
      simp only at hm
      obtain ⟨b1, b2, b3⟩ := soleBlocker_some h hs
      obtain ⟨a1, a2⟩ := blocker_attacks (hon hl) b1 b3
      have a3 := a2 (slideLine_rest (hon hl) b1)
      have non := checking_non h hf a1 b2 a3
      split at hm
      · next hz =>
        rw [List.mem_cons] at hm
        rcases hm with rfl | hm
        · exact checking_pro h hf a1 b2 hk ((canPromote2_iff _ _ _).mp hz).symm (hsub _ _ _ a3)
        · split at hm
          · rw [List.mem_singleton.mp hm]; exact non
          · simp at hm
      · rw [List.mem_singleton.mp hm]; exact non
  · rw [if_pos (by simpa using hl)] at hm
    obtain ⟨t, ht, hm⟩ := List.mem_flatMap.mp hm
    rw [(hwn.and_left.and_left).mem_toList, isSet_and, isSet_and, Bool.and_eq_true, Bool.and_eq_true] at ht
    have a1 := hre t ht.1.2
    have b2 := own_of h ht.2
    split at hm
    · next hz =>
      rw [List.mem_cons] at hm
      rcases hm with rfl | hm
      · exact checking_pro h hf a1 b2 hk ((canPromote2_iff _ _ _).mp hz).symm (hne t ht.1.1)
      · split at hm
        · split at hm
          · next hs => rw [List.mem_singleton.mp hm]; exact checking_non h hf a1 b2 (hli t hs)
          · simp at hm
        · simp at hm
    · split at hm
      · next hs => rw [List.mem_singleton.mp hm]; exact checking_non h hf a1 b2 (hli t hs)
      · simp at hm

theorem horseChecks_sound (hf : (absPos p).board f = some (p.turn, .horse)) (hfk : f ≠ k) (hm : m ∈ horseChecks p k f) : Checking p k m := by
  unfold horseChecks at hm
  by_cases hd : sameDiagonal k f = true
  · rw [if_neg (by rw [hd]; decide)] at hm
    have hsl : SlideLine p.turn .horse f k := diagonal_line hd hfk
    rcases hs : p.soleBlocker k f with _ | t
    · rw [hs] at hm; simp at hm
    · rw [hs] at hm
      simp only [List.mem_singleton] at hm
      obtain ⟨b1, b2, b3⟩ := soleBlocker_some h hs
      obtain ⟨a1, a2⟩ := blocker_attacks hsl b1 b3
      rw [hm]
      exact checking_non (kd := .horse) h hf a1 b2 (a2 (slideLine_rest hsl b1))
  · rw [if_pos (by simpa using hd)] at hm
    obtain ⟨t, ht, rfl⟩ := List.mem_map.mp hm
    rw [((wf_horseAttack _ _).and_left.and_left).mem_toList, isSet_and, isSet_and, Bool.and_eq_true, Bool.and_eq_true] at ht
    exact checking_non (kd := .horse) h hf (att_of h (kd := .horse) ht.1.2) (own_of h ht.2) (horse_back h ht.1.1)

theorem dragonChecks_sound (hf : (absPos p).board f = some (p.turn, .dragon)) (hfk : f ≠ k) (hm : m ∈ dragonChecks p k f) : Checking p k m := by
  unfold dragonChecks at hm
  by_cases hd : sameCross k f = true
  · rw [if_neg (by rw [hd]; decide)] at hm
    have hsl : SlideLine p.turn .dragon f k := cross_line hd hfk
    obtain ⟨t, ht, rfl⟩ := List.mem_map.mp hm
    have hbw : (p.blockerBB k f).WF := by
      unfold blockerBB
      simp only
      split
      · exact (wf_betweenBB f k).and_left
      · exact WF.zero
    rw [((wf_kingAttack _).and_left.and_left.or hbw).mem_toList, isSet_or, Bool.or_eq_true, isSet_and, isSet_and, Bool.and_eq_true, Bool.and_eq_true] at ht
    rcases ht with ht | ht
    · refine checking_non (kd := .dragon) h hf ?_ (own_of h ht.2) ?_
      · exact adj_attack (.inr rfl) ((isSet_king_step p.turn f t).mp ht.1.2)
      · rw [← h.occ_fun, ← back_dragon]; exact .inr ht.1.1
    · have hs : p.soleBlocker k f = some t := by
        unfold blockerBB at ht
        unfold soleBlocker
        simp only at ht ⊢
        split at ht
        · next hc =>
          rw [if_pos hc]
          rw [Bool.and_eq_true] at hc
          rw [← (one_bit (wf_betweenBB f k).and_left hc.1).2 t ht]
        · simp at ht
      obtain ⟨b1, b2, b3⟩ := soleBlocker_some h hs
      obtain ⟨a1, a2⟩ := blocker_attacks hsl b1 b3
      exact checking_non (kd := .dragon) h hf a1 b2 (a2 (slideLine_rest hsl b1))
  · rw [if_pos (by simpa using hd)] at hm
    obtain ⟨t, ht, rfl⟩ := List.mem_map.mp hm
    rw [((wf_dragonAttack _ _).and_left.and_left).mem_toList, isSet_and, isSet_and, Bool.and_eq_true, Bool.and_eq_true] at ht
    exact checking_non (kd := .dragon) h hf (att_of h (kd := .dragon) ht.1.2) (own_of h ht.2) (dragon_back h ht.1.1)

theorem directChecks_sound (hf : (absPos p).board f = some (p.turn, kd)) (hfk : f ≠ k) (hx : (p.checkMovers k).isSet f = true)
    (hm : m ∈ directChecks p all k f) : Checking p k m := by
  unfold directChecks at hm
  rw [pieceType_at h hf] at hm
  cases kd <;> simp only [Kind.code] at hm
  · exact pawnChecks_sound h hf (movers_pawn h hf hx) hm
  · exact lanceChecks_sound h hf (movers_lance h hf hx) hm
  · exact knightChecks_sound h hf hm
  · exact silverChecks_sound h hf hm
  · refine sliderChecks_sound (kd := .bishop) (kd2 := .horse) h hf rfl (wf_horseAttack _ _) (fun t ht => horse_back h ht) (fun t ht => ?_)
      (fun t ht => att_of h (kd := .bishop) ht) (fun occ s t ha => ?_) (fun hd => diagonal_line hd hfk) hm
    · rw [← h.occ_fun, ← back_bishop]; exact ht
    · exact line_attack (kd := .horse) (kd' := .bishop) p.turn (fun _ e => e) rfl ha
  · refine sliderChecks_sound (kd := .rook) (kd2 := .dragon) h hf rfl (wf_dragonAttack _ _) (fun t ht => dragon_back h ht) (fun t ht => ?_)
      (fun t ht => att_of h (kd := .rook) ht) (fun occ s t ha => ?_) (fun hd => cross_line hd hfk) hm
    · rw [← h.occ_fun, ← back_rook]; exact ht
    · exact line_attack (kd := .dragon) (kd' := .rook) p.turn (fun _ e => e) rfl ha
  · exact goldChecks_sound h rfl hf hm
  · simp at hm
  · exact goldChecks_sound h rfl hf hm
  · exact goldChecks_sound h rfl hf hm
  · exact goldChecks_sound h rfl hf hm
  · exact goldChecks_sound h rfl hf hm
  · exact horseChecks_sound h hf hfk hm
  · exact dragonChecks_sound h hf hfk hm

end
end Verif
