import Verif.Lemmas.Rays

/-!
# C12 and C13: attack tables against the movement rules

`Spec.Attacks c k occ s t` (Verif/Spec/Geometry.lean) says that a piece of colour `c` and kind `k` standing on `s`
attacks `t` when exactly the squares of `occ` are occupied, from lists of steps and sliding directions.
-/

namespace Verif
open Bitboard Spec

private theorem slides_one (c : Color) (d : Dir) (occ : Square → Bool) (s t : Square) :
    (∃ e ∈ [d], Reach occ s (orient c e) t) ↔ Reach occ s (orient c d) t := by simp

private theorem orient_set (l : List Dir) (hl : l = orth ∨ l = diag) (c : Color) (P : Dir → Prop) :
    (∃ d ∈ l, P (orient c d)) ↔ ∃ d ∈ l, P d := by
  cases c
  · rfl
  · rcases hl with rfl | rfl <;> simp only [orth, diag, orient, List.mem_cons, List.not_mem_nil, or_false, exists_eq_or_imp,
      exists_eq_left] <;> norm_num <;> generalize P _ = a <;> generalize P _ = b <;> generalize P _ = c <;>
      generalize P _ = d <;> tauto

/-- Lance: exactly the squares reached by walking forward up to and including the first occupied square. -/
theorem C12_lance (c : Color) (s t : Square) (occ : Bitboard) :
    (lanceAttack c s occ).isSet t = true ↔ Attacks c .lance occ.isSet s t := by
  rw [isSet_lanceAttack]
  simp [Attacks, Kind.steps, Kind.slides]

/-- Rook: the four orthogonal walks. -/
theorem C12_rook (c : Color) (s t : Square) (occ : Bitboard) :
    (rookAttack s occ).isSet t = true ↔ Attacks c .rook occ.isSet s t := by
  rw [isSet_rookAttack]
  unfold Attacks
  rw [show Kind.rook.slides = orth from rfl, orient_set orth (Or.inl rfl) c (fun d => Reach occ.isSet s d t)]
  simp [Kind.steps]

/-- Bishop: the four diagonal walks, in the AVX2 and in the portable build. -/
theorem C12_bishop (avx : Bool) (c : Color) (s t : Square) (occ : Bitboard) :
    (bishopAttackV avx s occ).isSet t = true ↔ Attacks c .bishop occ.isSet s t := by
  rw [isSet_bishopAttackV]
  unfold Attacks
  rw [show Kind.bishop.slides = diag from rfl, orient_set diag (Or.inr rfl) c (fun d => Reach occ.isSet s d t)]
  simp [Kind.steps]

/-- The AVX2 and the portable bishop code return the same board. -/
theorem C12_bishop_portable (s : Square) (occ : Bitboard) : bishopAttackV true s occ = bishopAttackV false s occ :=
  WF.ext (wf_bishopAttackV _ _ _) (wf_bishopAttackV _ _ _) fun t =>
    Bool.eq_iff_iff.mpr ((C12_bishop true .black s t occ).trans (C12_bishop false .black s t occ).symm)

/-- Dragon: rook walks and the four diagonal steps. -/
theorem C12_dragon (c : Color) (s t : Square) (occ : Bitboard) :
    (dragonAttack s occ).isSet t = true ↔ Attacks c .dragon occ.isSet s t := by
  rw [isSet_dragonAttack]
  unfold Attacks
  rw [show Kind.dragon.slides = orth from rfl, show Kind.dragon.steps = diag from rfl,
    orient_set orth (Or.inl rfl) c (fun d => Reach occ.isSet s d t),
    orient_set diag (Or.inr rfl) c (fun d => At s d 1 t)]

/-- Horse: bishop walks and the four orthogonal steps. -/
theorem C12_horse (c : Color) (s t : Square) (occ : Bitboard) :
    (horseAttack s occ).isSet t = true ↔ Attacks c .horse occ.isSet s t := by
  rw [isSet_horseAttack]
  unfold Attacks
  rw [show Kind.horse.slides = diag from rfl, show Kind.horse.steps = orth from rfl,
    orient_set diag (Or.inr rfl) c (fun d => Reach occ.isSet s d t),
    orient_set orth (Or.inl rfl) c (fun d => At s d 1 t)]

/-- No slider sets a bit that is no square. -/
theorem C12_no_stray_bits (c : Color) (s : Square) (occ : Bitboard) :
    (lanceAttack c s occ).WF ∧ (rookAttack s occ).WF ∧ (∀ avx, (bishopAttackV avx s occ).WF) ∧
    (dragonAttack s occ).WF ∧ (horseAttack s occ).WF :=
  ⟨wf_lanceAttack _ _ _, wf_rookAttack _ _, fun _ => wf_bishopAttackV _ _ _, wf_dragonAttack _ _, wf_horseAttack _ _⟩

/-- A rook on 5e with pieces on 5c, 3e and 5i: it reaches 5c but not 5b, 3e but not 2e. -/
example : let occ := ((zero.setBit 38).setBit 22).setBit 44
    (rookAttack 40 occ).isSet 38 = true ∧ (rookAttack 40 occ).isSet 37 = false ∧
    (rookAttack 40 occ).isSet 22 = true ∧ (rookAttack 40 occ).isSet 13 = false := by decide +kernel

/-! ### C13 -/

/-- Step pieces: pawn, knight, silver, gold (and the promoted pieces that move like a gold), king; occupancy plays no
role. -/
theorem C13_steps (c : Color) (s t : Square) (occ : Square → Bool) :
    ((pawnAttack c s).isSet t = true ↔ Attacks c .pawn occ s t) ∧
    ((knightAttack c s).isSet t = true ↔ Attacks c .knight occ s t) ∧
    ((silverAttack c s).isSet t = true ↔ Attacks c .silver occ s t) ∧
    (∀ k ∈ [Kind.gold, .proPawn, .proLance, .proKnight, .proSilver],
      (goldAttack c s).isSet t = true ↔ Attacks c k occ s t) ∧
    ((kingAttack s).isSet t = true ↔ Attacks c .king occ s t) := by
  refine ⟨?_, ?_, ?_, ?_, ?_⟩
  · rw [isSet_pawnAttack]; simp [Attacks, Kind.slides]
  · rw [isSet_knightAttack]; simp [Attacks, Kind.slides]
  · rw [isSet_silverAttack]; simp [Attacks, Kind.slides]
  · intro k hk
    rw [isSet_goldAttack]
    simp only [List.mem_cons, List.not_mem_nil, or_false] at hk
    rcases hk with rfl | rfl | rfl | rfl | rfl <;> simp [Attacks, Kind.slides, Kind.steps]
  · rw [isSet_kingAttack]
    unfold Attacks
    have h : (∃ d ∈ Kind.king.slides, Reach occ s (orient c d) t) ↔ False := by simp [Kind.slides]
    rw [h, or_false]
    show _ ↔ ∃ d ∈ orth ++ diag, At s (orient c d) 1 t
    simp only [List.mem_append, or_and_right, exists_or]
    rw [orient_set orth (Or.inl rfl) c (fun d => At s d 1 t), orient_set diag (Or.inr rfl) c (fun d => At s d 1 t)]

/-- The step tables set no bit that is no square. -/
theorem C13_no_stray_bits (c : Color) (s : Square) :
    (pawnAttack c s).WF ∧ (knightAttack c s).WF ∧ (silverAttack c s).WF ∧ (goldAttack c s).WF ∧ (kingAttack s).WF :=
  ⟨wf_pawnAttack _ _, wf_knightAttack _ _, wf_silverAttack _ _, wf_goldAttack _ _, wf_kingAttack _⟩

/-- The table of squares between two squares, for every pair. -/
theorem C13_between (s t u : Square) : (betweenBB s t).isSet u = true ↔ Between s u t := isSet_betweenBB s t u

/-- Two squares are related exactly when they share a file, rank or diagonal (and differ). -/
theorem C13_relation (s t : Square) : squareRelation s t ≠ 0 ↔ Aligned2 s t := squareRelation_ne_zero s t

/-- Three squares: the alignment test from `a` holds exactly when `b` and `c` lie on one line through `a`, on the same
side or on opposite sides of it. -/
theorem C13_aligned (a b c : Square) :
    isAligned a b c = true ↔
      ∃ d ∈ orth ++ diag, (∃ k, 1 ≤ k ∧ At a d k c) ∧
        ∃ m, 1 ≤ m ∧ (At a d m b ∨ At b d m a) := by
  rw [isAligned_iff]
  constructor
  · rintro ⟨d, hd, hc, hb⟩
    refine ⟨d, isDir_mem.mpr hd, hc, ?_⟩
    rcases hb with ⟨m, hm, h⟩ | ⟨m, hm, h⟩
    · exact ⟨m, hm, Or.inl h⟩
    · refine ⟨m, hm, Or.inr ?_⟩
      rw [at_symm]; exact h
  · rintro ⟨d, hd, hc, m, hm, h | h⟩
    · exact ⟨d, isDir_mem.mp hd, hc, Or.inl ⟨m, hm, h⟩⟩
    · exact ⟨d, isDir_mem.mp hd, hc, Or.inr ⟨m, hm, at_symm.mp h⟩⟩

/-- The variant that assumes `a` and `c` aligned (used for pinned pieces) agrees with the other one then. -/
theorem C13_aligned_assuming (a b c : Square) (h : Aligned2 a c) : isAlignedT a b c = isAligned a b c := by
  have := (squareRelation_ne_zero a c).mpr h
  unfold isAligned isAlignedT
  simp [this]

/-- 5e, 3c and 2b share a diagonal. -/
example : Aligned2 40 20 ∧ isAligned 40 10 20 = true := by
  refine ⟨(C13_relation 40 20).mp (by decide), by decide⟩

/-- Moving a whole board of pawns at once, when none stands on its last rank: exactly the squares in front of them. -/
theorem C13_pawn_board (c : Color) (b : Bitboard) (hb : b.WF)
    (hlast : ∀ s, b.isSet s = true → (match c with | .black => 0 < Y s | .white => Y s < 8)) (t : Square) :
    ((pawnAttackBB c b).isSet t = true ↔ ∃ s, b.isSet s = true ∧ Attacks c .pawn (fun _ => false) s t) ∧
    (pawnAttackBB c b).WF := by
  have hA : ∀ s, Attacks c .pawn (fun _ => false) s t ↔
      (match c with | .black => s.val = t.val + 1 ∧ 0 < s.val % 9 | .white => t.val = s.val + 1 ∧ s.val % 9 < 8) := by
    intro s
    unfold Attacks
    rw [step_iff]
    have := s.isLt
    have := t.isLt
    simp only [Kind.steps, Kind.slides, List.mem_cons, Prod.mk.injEq, List.not_mem_nil, or_false, false_and, exists_false]
    cases c <;> simp only [X, Y] <;> omega
  simp only [hA]
  have h63 : b.p0.getLsbD 63 = false := hb.1
  cases c
  · simp only [pawnAttackBB, shr] at hlast ⊢
    have hlast' : ∀ s, b.isSet s = true → 0 < s.val % 9 := by
      intro s hs; have := hlast s hs; unfold Y at this; omega
    constructor
    · rw [isSet_eq]
      simp only [BitVec.getLsbD_ushiftRight]
      by_cases ht : t.val < 63
      · rw [if_pos ht]
        constructor
        · intro h
          have h1 : 1 + t.val < 63 := by
            by_contra hc
            have : 1 + t.val = 63 := by omega
            rw [this, h63] at h; cases h
          refine ⟨⟨1 + t.val, by omega⟩, ?_, ?_⟩
          · rw [isSet_eq, if_pos h1]; exact h
          · have := hlast' ⟨1 + t.val, by omega⟩ (by rw [isSet_eq, if_pos h1]; exact h)
            exact ⟨by simp only; omega, this⟩
        · rintro ⟨s, hs, e, h9⟩
          rw [isSet_eq] at hs
          by_cases h1 : s.val < 63
          · rw [if_pos h1] at hs
            rw [show 1 + t.val = s.val by omega]; exact hs
          · omega
      · rw [if_neg ht]
        constructor
        · intro h
          have h1 : 1 + (t.val - 63) < 18 := by
            by_contra hc
            rw [hb.2 _ (by omega)] at h; cases h
          have hs : b.isSet ⟨1 + t.val, by omega⟩ = true := by
            rw [isSet_eq, if_neg (by simp only; omega)]
            simp only
            rw [show 1 + t.val - 63 = 1 + (t.val - 63) by omega]; exact h
          exact ⟨⟨1 + t.val, by omega⟩, hs, by simp only; omega, hlast' _ hs⟩
        · rintro ⟨s, hs, e, h9⟩
          rw [isSet_eq, if_neg (by omega)] at hs
          rw [show 1 + (t.val - 63) = s.val - 63 by omega]; exact hs
    · constructor
      · rw [BitVec.getLsbD_ushiftRight]
        exact BitVec.getLsbD_of_ge _ _ (by omega)
      · intro i hi
        rw [BitVec.getLsbD_ushiftRight]
        exact hb.2 _ (by omega)
  · simp only [pawnAttackBB, shl] at hlast ⊢
    have hlast' : ∀ s, b.isSet s = true → s.val % 9 < 8 := by
      intro s hs; have := hlast s hs; unfold Y at this; omega
    have h62 : b.p0.getLsbD 62 = false := by
      cases h : b.p0.getLsbD 62
      · rfl
      · have := hlast' 62 (by rw [isSet_eq, if_pos (by decide)]; exact h)
        exact absurd this (by decide)
    have h80 : b.p1.getLsbD 17 = false := by
      cases h : b.p1.getLsbD 17
      · rfl
      · have := hlast' 80 (by rw [isSet_eq, if_neg (by decide)]; exact h)
        exact absurd this (by decide)
    constructor
    · rw [isSet_eq]
      simp only [BitVec.getLsbD_shiftLeft]
      by_cases ht : t.val < 63
      · rw [if_pos ht]
        simp only [Bool.and_eq_true, decide_eq_true_iff, Bool.not_eq_true', decide_eq_false_iff_not]
        constructor
        · rintro ⟨⟨_, h1⟩, h⟩
          have hs : b.isSet ⟨t.val - 1, by omega⟩ = true := by
            rw [isSet_eq, if_pos (by simp only; omega)]; exact h
          exact ⟨_, hs, by simp only; omega, hlast' _ hs⟩
        · rintro ⟨s, hs, e, h9⟩
          rw [isSet_eq, if_pos (by omega)] at hs
          exact ⟨⟨by omega, by omega⟩, by rw [show t.val - 1 = s.val by omega]; exact hs⟩
      · rw [if_neg ht]
        simp only [Bool.and_eq_true, decide_eq_true_iff, Bool.not_eq_true', decide_eq_false_iff_not]
        constructor
        · rintro ⟨⟨_, h1⟩, h⟩
          have hs : b.isSet ⟨t.val - 1, by omega⟩ = true := by
            rw [isSet_eq, if_neg (by simp only; omega)]
            simp only
            rw [show t.val - 1 - 63 = t.val - 63 - 1 by omega]; exact h
          exact ⟨_, hs, by simp only; omega, hlast' _ hs⟩
        · rintro ⟨s, hs, e, h9⟩
          rw [isSet_eq] at hs
          by_cases h1 : s.val < 63
          · have : s.val = 62 := by omega
            omega
          · rw [if_neg h1] at hs
            exact ⟨⟨by omega, by omega⟩, by rw [show t.val - 63 - 1 = s.val - 63 by omega]; exact hs⟩
    · constructor
      · rw [BitVec.getLsbD_shiftLeft]
        rw [show 63 - 1 = 62 from rfl, h62, Bool.and_false]
      · intro i hi
        rw [BitVec.getLsbD_shiftLeft]
        by_cases h18 : i = 18
        · subst h18; rw [show 18 - 1 = 17 from rfl, h80, Bool.and_false]
        · rw [hb.2 (i - 1) (by omega)]; simp

/-- Black pawns on 7g and 9d step to 7f and 9c. -/
example : ∀ s, (((zero.setBit 60).setBit 75).isSet s = true) → 0 < Y s := by
  intro s hs
  have : s = 60 ∨ s = 75 := by simpa [or_comm] using hs
  rcases this with rfl | rfl <;> decide

end Verif
