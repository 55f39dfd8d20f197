import Verif.Props.Attacks
import Verif.Lemmas.Position

namespace Verif
open Spec Bitboard Position

theorem isSet_attacksFrom (k : Kind) (c : Color) (s t : Square) (occ : Bitboard) :
    (attacksFrom k.code c s occ).isSet t = true ↔ Attacks c k occ.isSet s t := by
  have hs := C13_steps c s t occ.isSet
  cases k
  · exact hs.1
  · exact C12_lance c s t occ
  · exact hs.2.1
  · exact hs.2.2.1
  · exact C12_bishop true c s t occ
  · exact C12_rook c s t occ
  · exact hs.2.2.2.1 .gold (by simp)
  · exact hs.2.2.2.2
  · exact hs.2.2.2.1 .proPawn (by simp)
  · exact hs.2.2.2.1 .proLance (by simp)
  · exact hs.2.2.2.1 .proKnight (by simp)
  · exact hs.2.2.2.1 .proSilver (by simp)
  · exact C12_horse c s t occ
  · exact C12_dragon c s t occ

theorem wf_attacksFrom (k : Kind) (c : Color) (s : Square) (occ : Bitboard) : (attacksFrom k.code c s occ).WF := by
  have h1 := C12_no_stray_bits c s occ
  have h2 := C13_no_stray_bits c s
  cases k
  · exact h2.1
  · exact h1.1
  · exact h2.2.1
  · exact h2.2.2.1
  · exact h1.2.2.1 true
  · exact h1.2.1
  · exact h2.2.2.2.1
  · exact h2.2.2.2.2
  · exact h2.2.2.2.1
  · exact h2.2.2.2.1
  · exact h2.2.2.2.1
  · exact h2.2.2.2.1
  · exact h1.2.2.2.2
  · exact h1.2.2.2.1

/-! The attack of each kind seen from the target, in the form the code uses it. -/

theorem back_pawn (c : Color) (s t : Square) (occ : Square → Bool) :
    (pawnAttack c.opp s).isSet t = true ↔ Attacks c .pawn occ t s := by
  rw [← attacks_symm]; exact (C13_steps c.opp s t occ).1
theorem back_lance (c : Color) (s t : Square) (occ : Bitboard) :
    (lanceAttack c.opp s occ).isSet t = true ↔ Attacks c .lance occ.isSet t s := by
  rw [← attacks_symm]; exact C12_lance c.opp s t occ
theorem back_knight (c : Color) (s t : Square) (occ : Square → Bool) :
    (knightAttack c.opp s).isSet t = true ↔ Attacks c .knight occ t s := by
  rw [← attacks_symm]; exact (C13_steps c.opp s t occ).2.1
theorem back_silver (c : Color) (s t : Square) (occ : Square → Bool) :
    (silverAttack c.opp s).isSet t = true ↔ Attacks c .silver occ t s := by
  rw [← attacks_symm]; exact (C13_steps c.opp s t occ).2.2.1
theorem back_gold (c : Color) (k : Kind) (hk : goldLike k = true) (s t : Square) (occ : Square → Bool) :
    (goldAttack c.opp s).isSet t = true ↔ Attacks c k occ t s := by
  rw [← attacks_symm]
  refine (C13_steps c.opp s t occ).2.2.2.1 k ?_
  cases k <;> simp [goldLike] at hk ⊢
theorem back_king (c : Color) (s t : Square) (occ : Square → Bool) :
    (kingAttack s).isSet t = true ↔ Attacks c .king occ t s := by
  rw [← attacks_symm]; exact (C13_steps c.opp s t occ).2.2.2.2
theorem back_bishop (c : Color) (s t : Square) (occ : Bitboard) :
    (bishopAttack s occ).isSet t = true ↔ Attacks c .bishop occ.isSet t s := by
  rw [← attacks_symm]; exact C12_bishop true c.opp s t occ
theorem back_rook (c : Color) (s t : Square) (occ : Bitboard) :
    (rookAttack s occ).isSet t = true ↔ Attacks c .rook occ.isSet t s := by
  rw [← attacks_symm]; exact C12_rook c.opp s t occ
theorem back_horse (c : Color) (s t : Square) (occ : Bitboard) :
    ((bishopAttack s occ).isSet t = true ∨ (kingAttack s).isSet t = true) ↔ Attacks c .horse occ.isSet t s := by
  rw [← attacks_symm, ← C12_horse, horseAttack, isSet_or, Bool.or_eq_true]
theorem back_dragon (c : Color) (s t : Square) (occ : Bitboard) :
    ((rookAttack s occ).isSet t = true ∨ (kingAttack s).isSet t = true) ↔ Attacks c .dragon occ.isSet t s := by
  rw [← attacks_symm, ← C12_dragon, dragonAttack, isSet_or, Bool.or_eq_true]

/-- The king's eight steps are the silver's and the gold's together. -/
theorem king_silver_gold (c : Color) (s t : Square) :
    (kingAttack s).isSet t = true ↔ (silverAttack c s).isSet t = true ∨ (goldAttack c s).isSet t = true := by
  rw [isSet_kingAttack, isSet_silverAttack, isSet_goldAttack, step_iff, step_iff, step_iff']
  simp only [orth, diag, Kind.steps, Kind.goldSteps, List.cons_append, List.nil_append, List.mem_cons, Prod.mk.injEq,
    List.not_mem_nil, or_false]
  constructor
  · intro h
    rcases h with h | h | h | h | h | h | h | h <;> cases c <;> simp only <;> omega
  · intro h
    cases c <;> simp only at h <;> rcases h with (h | h | h | h | h) | (h | h | h | h | h | h) <;> omega

theorem rook_of_step {s t : Square} {occ : Bitboard} (h : ∃ d ∈ orth, At s d 1 t) : (rookAttack s occ).isSet t = true := by
  rw [isSet_rookAttack]
  obtain ⟨d, hd, h⟩ := h
  exact ⟨d, hd, reach_of_at_one h⟩

theorem bishop_of_step {s t : Square} {occ : Bitboard} (h : ∃ d ∈ diag, At s d 1 t) :
    (bishopAttack s occ).isSet t = true := by
  rw [isSet_bishopAttack]
  obtain ⟨d, hd, h⟩ := h
  exact ⟨d, hd, reach_of_at_one h⟩

theorem dragon_silver (c : Color) (s t : Square) (occ : Bitboard) :
    ((rookAttack s occ).isSet t = true ∨ (kingAttack s).isSet t = true) ↔
    ((rookAttack s occ).isSet t = true ∨ (silverAttack c s).isSet t = true) := by
  constructor
  · rintro (h | h)
    · exact Or.inl h
    · rw [isSet_kingAttack] at h
      obtain ⟨d, hd, h⟩ := h
      rcases List.mem_append.mp hd with hd | hd
      · exact Or.inl (rook_of_step ⟨d, hd, h⟩)
      · right
        have h' : ∃ d ∈ diag, At s d 1 t := ⟨d, hd, h⟩
        rw [isSet_silverAttack, step_iff]
        rw [step_iff'] at h'
        simp only [diag, Kind.steps, List.mem_cons, Prod.mk.injEq, List.not_mem_nil, or_false] at h' ⊢
        cases c <;> simp only <;> omega
  · rintro (h | h)
    · exact Or.inl h
    · exact Or.inr ((king_silver_gold c s t).mpr (Or.inl h))

theorem horse_gold (c : Color) (s t : Square) (occ : Bitboard) :
    ((bishopAttack s occ).isSet t = true ∨ (kingAttack s).isSet t = true) ↔
    ((bishopAttack s occ).isSet t = true ∨ (goldAttack c s).isSet t = true) := by
  constructor
  · rintro (h | h)
    · exact Or.inl h
    · rw [isSet_kingAttack] at h
      obtain ⟨d, hd, h⟩ := h
      rcases List.mem_append.mp hd with hd | hd
      · right
        have h' : ∃ d ∈ orth, At s d 1 t := ⟨d, hd, h⟩
        rw [isSet_goldAttack, step_iff]
        rw [step_iff'] at h'
        simp only [orth, Kind.goldSteps, List.mem_cons, Prod.mk.injEq, List.not_mem_nil, or_false] at h' ⊢
        cases c <;> simp only <;> omega
      · exact Or.inl (bishop_of_step ⟨d, hd, h⟩)
  · rintro (h | h)
    · exact Or.inl h
    · exact Or.inr ((king_silver_gold c s t).mpr (Or.inr h))

/-- All type views at an occupied square. -/
theorem Consistent.types {p : Position} (h : Consistent p) {t : Square} {c : Color} {k : Kind}
    (hb : (absPos p).board t = some (c, k)) :
    (p.byType 1).isSet t = decide (Kind.pawn = k) ∧ (p.byType 2).isSet t = decide (Kind.lance = k) ∧
    (p.byType 3).isSet t = decide (Kind.knight = k) ∧ (p.byType 4).isSet t = decide (Kind.silver = k) ∧
    (p.byType 5).isSet t = decide (Kind.bishop = k) ∧ (p.byType 6).isSet t = decide (Kind.rook = k) ∧
    (p.byType 7).isSet t = decide (Kind.gold = k) ∧ (p.byType 8).isSet t = decide (Kind.king = k) ∧
    (p.byType 13).isSet t = decide (Kind.horse = k) ∧ (p.byType 14).isSet t = decide (Kind.dragon = k) :=
  ⟨h.type_some hb .pawn, h.type_some hb .lance, h.type_some hb .knight, h.type_some hb .silver, h.type_some hb .bishop,
   h.type_some hb .rook, h.type_some hb .gold, h.type_some hb .king, h.type_some hb .horse, h.type_some hb .dragon⟩

/-- The side-specific attackers function. -/
theorem isSet_attackersTo {p : Position} (h : Consistent p) (c : Color) (s t : Square) (occ : Bitboard) :
    (p.attackersTo c s occ).isSet t = true ↔
      ∃ k, (absPos p).board t = some (c, k) ∧ Attacks c k occ.isSet t s := by
  unfold attackersTo
  rcases hb : (absPos p).board t with _ | ⟨c', k⟩
  · rw [isSet_and, h.color_none hb]; simp
  · obtain ⟨h1, h2, h3, h4, h5, h6, h7, h8, h9, h10⟩ := h.types hb
    have hg := h.golds_some hb
    rw [isSet_and, h.color_some hb]
    by_cases hc : c = c'
    · subst hc
      simp only [isSet_or, isSet_and, bbOf2, bbOf3, h1, h2, h3, h4, h5, h6, h8, h9, h10, hg, Option.some.injEq,
        Prod.mk.injEq, true_and, exists_eq_left']
      cases k <;> simp [goldLike]
      · exact back_pawn c s t _
      · exact back_lance c s t _
      · exact back_knight c s t _
      · exact back_silver c s t _
      · exact back_bishop c s t _
      · exact back_rook c s t _
      · exact back_gold c _ rfl s t _
      · rw [← back_king c s t, king_silver_gold c.opp]
      · exact back_gold c _ rfl s t _
      · exact back_gold c _ rfl s t _
      · exact back_gold c _ rfl s t _
      · exact back_gold c _ rfl s t _
      · rw [← back_horse c s t, horse_gold c.opp, or_comm]
      · rw [← back_dragon c s t, dragon_silver c.opp, or_comm]
    · simp only [hc, decide_false, Bool.and_false, Bool.false_eq_true, Option.some.injEq, Prod.mk.injEq, false_iff]
      rintro ⟨_, ⟨e, _⟩, _⟩
      exact hc e.symm

theorem wf_attackersTo {p : Position} (h : Consistent p) (c : Color) (s : Square) (occ : Bitboard) :
    (p.attackersTo c s occ).WF := (h.wfColor c).and_right

theorem isSet_attackersToExceptKing {p : Position} (h : Consistent p) (c : Color) (s t : Square) :
    (p.attackersToExceptKing c s).isSet t = true ↔
      ∃ k, k ≠ .king ∧ (absPos p).board t = some (c, k) ∧ Attacks c k (absPos p).occ t s := by
  unfold attackersToExceptKing
  rcases hb : (absPos p).board t with _ | ⟨c', k⟩
  · rw [isSet_and, h.color_none hb]; simp
  · obtain ⟨h1, h2, h3, h4, h5, h6, h7, h8, h9, h10⟩ := h.types hb
    have hg := h.golds_some hb
    rw [isSet_and, h.color_some hb, ← h.occ_fun]
    by_cases hc : c = c'
    · subst hc
      have hex : (∃ k', k' ≠ Kind.king ∧ some (c, k) = some (c, k') ∧ Attacks c k' p.occupied.isSet t s) ↔
          k ≠ .king ∧ Attacks c k p.occupied.isSet t s := by
        constructor
        · rintro ⟨k', hk, e, h⟩; cases e; exact ⟨hk, h⟩
        · rintro ⟨hk, h⟩; exact ⟨k, hk, rfl, h⟩
      rw [hex]
      simp only [isSet_or, isSet_and, bbOf2, h1, h2, h3, h4, h5, h6, h9, h10, hg]
      cases k <;> simp [goldLike]
      · exact back_pawn c s t _
      · exact back_lance c s t _
      · exact back_knight c s t _
      · exact back_silver c s t _
      · exact back_bishop c s t _
      · exact back_rook c s t _
      · exact back_gold c _ rfl s t _
      · exact back_gold c _ rfl s t _
      · exact back_gold c _ rfl s t _
      · exact back_gold c _ rfl s t _
      · exact back_gold c _ rfl s t _
      · rw [← back_horse c s t, horse_gold c.opp, or_comm]
      · rw [← back_dragon c s t, dragon_silver c.opp, or_comm]
    · simp only [hc, decide_false, Bool.and_false, Bool.false_eq_true, Option.some.injEq, Prod.mk.injEq, false_iff]
      rintro ⟨_, _, ⟨e, _⟩, _⟩
      exact hc e.symm

theorem wf_attackersToExceptKing {p : Position} (h : Consistent p) (c : Color) (s : Square) :
    (p.attackersToExceptKing c s).WF := (h.wfColor c).and_right

theorem isSet_attackersToBoth {p : Position} (h : Consistent p) (s t : Square) (occ : Bitboard) :
    (p.attackersToBoth s occ).isSet t = true ↔
      ∃ c k, (absPos p).board t = some (c, k) ∧ Attacks c k occ.isSet t s := by
  unfold attackersToBoth
  rcases hb : (absPos p).board t with _ | ⟨c, k⟩
  · have ht := h.type_none hb
    have hc := h.color_none hb
    simp only [isSet_or, isSet_and, bbOf2, bbOf3, hc]
    have e5 := ht .bishop
    have e6 := ht .rook
    have e8 := ht .king
    have e13 := ht .horse
    have e14 := ht .dragon
    simp only [Kind.code] at e5 e6 e8 e13 e14
    simp [e5, e6, e8, e13, e14]
  · obtain ⟨h1, h2, h3, h4, h5, h6, h7, h8, h9, h10⟩ := h.types hb
    have hg := h.golds_some hb
    have hw := h.color_some hb .white
    have hbk := h.color_some hb .black
    have hex : (∃ c' k', some (c, k) = some (c', k') ∧ Attacks c' k' occ.isSet t s) ↔ Attacks c k occ.isSet t s := by
      constructor
      · rintro ⟨c', k', e, h⟩; cases e; exact h
      · intro h; exact ⟨c, k, rfl, h⟩
    rw [hex]
    simp only [isSet_or, isSet_and, bbOf2, bbOf3, h1, h2, h3, h4, h5, h6, h8, h9, h10, hg, hw, hbk]
    have hp := back_pawn c s t occ.isSet
    have hl := back_lance c s t occ
    have hn := back_knight c s t occ.isSet
    have hs := back_silver c s t occ.isSet
    have hb' := back_bishop c s t occ
    have hr := back_rook c s t occ
    have hk := back_king c s t occ.isSet
    have hh := back_horse c s t occ
    have hd := back_dragon c s t occ
    cases k
    case pawn => rw [← hp]; cases c <;> simp [goldLike, Color.opp]
    case lance => rw [← hl]; cases c <;> simp [goldLike, Color.opp]
    case knight => rw [← hn]; cases c <;> simp [goldLike, Color.opp]
    case silver => rw [← hs]; cases c <;> simp [goldLike, Color.opp]
    case bishop => rw [← hb']; cases c <;> simp [goldLike]
    case rook => rw [← hr]; cases c <;> simp [goldLike]
    case king => rw [← hk]; cases c <;> simp [goldLike]
    case horse => rw [← hh]; cases c <;> simp [goldLike]
    case dragon => rw [← hd]; cases c <;> simp [goldLike]
    all_goals
      rw [← back_gold c _ rfl s t occ.isSet]; cases c <;> simp [goldLike, Color.opp]

end Verif
