import Verif.Lemmas.Attack

/-! Helper lemmas: lance table. -/

namespace Verif
open Bitboard Spec

theorem sqOf_val (f r : Nat) (hf : f < 9) (hr : r < 9) : (sqOf f r).val = f * 9 + r := by
  unfold sqOf Fin.ofNat; simp only; omega

theorem eq_sqOf_iff (f r : Nat) (hf : f < 9) (hr : r < 9) (t : Square) : t = sqOf f r ↔ file t = f ∧ rank t = r := by
  rw [Fin.ext_iff, sqOf_val f r hf hr]
  unfold file rank
  omega

theorem file_lt (s : Square) : file s < 9 := by unfold file; omega
theorem rank_lt (s : Square) : rank s < 9 := by unfold rank; omega

theorem wf_lanceUp (f : Nat) (occ : Bitboard) (r : Nat) (bb : Bitboard) (h : bb.WF) : (lanceUp f occ r bb).WF := by
  induction r generalizing bb with
  | zero => exact h
  | succ n ih =>
    unfold lanceUp; simp only
    split
    · exact h.or (WF.setMask _)
    · exact ih _ (h.or (WF.setMask _))

theorem wf_lanceDown (f : Nat) (occ : Bitboard) (r : Nat) (bb : Bitboard) (h : bb.WF) : (lanceDown f occ r bb).WF := by
  induction r generalizing bb with
  | zero => exact h
  | succ n ih =>
    unfold lanceDown; simp only
    split
    · exact h.or (WF.setMask _)
    · exact ih _ (h.or (WF.setMask _))

theorem isSet_lanceUp (f : Nat) (hf : f < 9) (occ : Bitboard) (r : Nat) (hr : r ≤ 8) (bb : Bitboard) (t : Square) :
    (lanceUp f occ r bb).isSet t = true ↔ bb.isSet t = true ∨
      (file t = f ∧ rank t < r ∧ ∀ u, file u = f → rank t < rank u → rank u < r → occ.isSet u = false) := by
  induction r generalizing bb with
  | zero => simp [lanceUp]
  | succ n ih =>
    unfold lanceUp
    simp only
    have hsq := eq_sqOf_iff f n hf (by omega)
    by_cases ho : occ.isSet (sqOf f n) = true
    · rw [if_pos ho, isSet_or, Bool.or_eq_true, isSet_setMask_iff, hsq]
      refine or_congr_right ?_
      constructor
      · rintro ⟨h1, h2⟩
        exact ⟨h1, by omega, fun u _ h3 h4 => absurd h3 (by omega)⟩
      · rintro ⟨h1, h2, h3⟩
        refine ⟨h1, ?_⟩
        by_contra hne
        have hq := (hsq (sqOf f n)).mp rfl
        have := h3 (sqOf f n) hq.1 (by omega) (by omega)
        rw [ho] at this; cases this
    · rw [if_neg ho, ih (by omega), isSet_or, Bool.or_eq_true, isSet_setMask_iff, or_assoc, hsq]
      refine or_congr_right ?_
      have ho' : occ.isSet (sqOf f n) = false := by simpa using ho
      constructor
      · rintro (⟨h1, h2⟩ | ⟨h1, h2, h3⟩)
        · exact ⟨h1, by omega, fun u _ h3 h4 => absurd h3 (by omega)⟩
        · refine ⟨h1, by omega, fun u hu h4 h5 => ?_⟩
          by_cases hun : rank u = n
          · rw [(hsq u).mpr ⟨hu, hun⟩]; exact ho'
          · exact h3 u hu h4 (by omega)
      · rintro ⟨h1, h2, h3⟩
        by_cases hn : rank t = n
        · exact Or.inl ⟨h1, hn⟩
        · exact Or.inr ⟨h1, by omega, fun u hu h4 h5 => h3 u hu h4 (by omega)⟩

theorem isSet_lanceDown (f : Nat) (hf : f < 9) (occ : Bitboard) (n : Nat) (hn : n ≤ 8) (bb : Bitboard) (t : Square) :
    (lanceDown f occ n bb).isSet t = true ↔ bb.isSet t = true ∨
      (file t = f ∧ 8 - n < rank t ∧ ∀ u, file u = f → rank u < rank t → 8 - n < rank u → occ.isSet u = false) := by
  induction n generalizing bb with
  | zero =>
    have := rank_lt t
    simp only [lanceDown]
    constructor
    · exact Or.inl
    · rintro (h | ⟨_, h, _⟩)
      · exact h
      · omega
  | succ n ih =>
    unfold lanceDown
    simp only
    have hsq := eq_sqOf_iff f (8 - n) hf (by omega)
    have hrt := rank_lt t
    by_cases ho : occ.isSet (sqOf f (8 - n)) = true
    · rw [if_pos ho, isSet_or, Bool.or_eq_true, isSet_setMask_iff, hsq]
      refine or_congr_right ?_
      constructor
      · rintro ⟨h1, h2⟩
        exact ⟨h1, by omega, fun u _ h3 h4 => absurd h3 (by omega)⟩
      · rintro ⟨h1, h2, h3⟩
        refine ⟨h1, ?_⟩
        by_contra hne
        have hq := (hsq (sqOf f (8 - n))).mp rfl
        have := h3 (sqOf f (8 - n)) hq.1 (by omega) (by omega)
        rw [ho] at this; cases this
    · rw [if_neg ho, ih (by omega), isSet_or, Bool.or_eq_true, isSet_setMask_iff, or_assoc, hsq]
      refine or_congr_right ?_
      have ho' : occ.isSet (sqOf f (8 - n)) = false := by simpa using ho
      constructor
      · rintro (⟨h1, h2⟩ | ⟨h1, h2, h3⟩)
        · exact ⟨h1, by omega, fun u _ h3 h4 => absurd h3 (by omega)⟩
        · refine ⟨h1, by omega, fun u hu h4 h5 => ?_⟩
          by_cases hun : rank u = 8 - n
          · rw [(hsq u).mpr ⟨hu, hun⟩]; exact ho'
          · exact h3 u hu h4 (by omega)
      · rintro ⟨h1, h2, h3⟩
        by_cases hn : rank t = 8 - n
        · exact Or.inl ⟨h1, hn⟩
        · exact Or.inr ⟨h1, by omega, fun u hu h4 h5 => h3 u hu h4 (by omega)⟩

theorem isSet_rankMask : ∀ (r : Fin 9) (t : Square), (rankMask r.val).isSet t = decide (rank t = r.val) := by
  decide +kernel

theorem isSet_fileMask : ∀ (f : Fin 9) (t : Square), (fileMask f.val).isSet t = decide (file t = f.val) := by
  decide +kernel

theorem isSet_inFront_black : ∀ (r : Fin 9) (t : Square),
    (inFrontMask .black r.val).isSet t = decide (rank t < r.val) := by decide +kernel

theorem isSet_inFront_white : ∀ (r : Fin 9) (t : Square),
    (inFrontMask .white r.val).isSet t = decide (r.val < rank t) := by decide +kernel

/-- Bool-level well-formedness, for the finite tables. -/
def wfb (b : Bitboard) : Bool := (b &&& ~~~allOne) == zero

theorem wf_of_wfb {b : Bitboard} (h : wfb b = true) : b.WF := by
  have : b = b &&& allOne := by
    have h : b &&& ~~~allOne = zero := by simpa [wfb] using h
    apply bit_ext
    intro i
    have h2 : (b &&& ~~~allOne).bit i = zero.bit i := by rw [h]
    unfold bit at h2 ⊢
    split at h2
    · rename_i hi
      simp only [if_pos hi, and_p0, not_p0, BitVec.getLsbD_and, BitVec.getLsbD_not, zero] at h2 ⊢
      simp only [hi, decide_true, Bool.true_and] at h2
      cases hb : b.p0.getLsbD i
      · rfl
      · rw [hb] at h2
        simpa using h2
    · rename_i hi
      simp only [if_neg hi, and_p1, not_p1, BitVec.getLsbD_and, BitVec.getLsbD_not, zero] at h2 ⊢
      cases hb : b.p1.getLsbD (i - 64)
      · rfl
      · rw [hb] at h2
        by_cases h64 : i - 64 < 64
        · simp only [h64, decide_true, Bool.true_and] at h2
          simpa using h2
        · rw [BitVec.getLsbD_of_ge _ _ (by omega)] at hb; cases hb
  rw [this]
  exact WF.allOne.and_right

theorem wf_inFront (c : Color) (r : Nat) (hr : r < 9) : (inFrontMask c r).WF := by
  have : ∀ r : Fin 9, wfb (inFrontMask .black r.val) = true ∧ wfb (inFrontMask .white r.val) = true := by decide +kernel
  cases c
  · exact wf_of_wfb (this ⟨r, hr⟩).1
  · exact wf_of_wfb (this ⟨r, hr⟩).2

theorem isSet_inFront (c : Color) (r : Nat) (hr : r < 9) (t : Square) :
    (inFrontMask c r).isSet t = true ↔ (match c with | .black => rank t < r | .white => r < rank t) := by
  cases c
  · rw [isSet_inFront_black ⟨r, hr⟩ t, decide_eq_true_iff]
  · rw [isSet_inFront_white ⟨r, hr⟩ t, decide_eq_true_iff]

theorem wf_lanceAttackCalc (c : Color) (s : Square) (occ : Bitboard) : (lanceAttackCalc c s occ).WF :=
  (wf_lanceDown _ _ _ _ (wf_lanceUp _ _ _ _ WF.zero)).and_left

theorem reach_north_iff (occ : Square → Bool) (s t : Square) :
    Reach occ s (0, -1) t ↔ file t = file s ∧ rank t < rank s ∧
      ∀ u, file u = file s → rank t < rank u → rank u < rank s → occ u = false := by
  unfold Reach At X Y file rank
  constructor
  · rintro ⟨k, h1, h2, h3⟩
    simp only at h2 h3
    refine ⟨by omega, by omega, fun u hu h4 h5 => ?_⟩
    exact h3 (s.val % 9 - u.val % 9) (by omega) (by omega) u (by omega)
  · rintro ⟨h1, h2, h3⟩
    refine ⟨s.val % 9 - t.val % 9, by omega, by simp only; omega, fun j h4 h5 u hu => ?_⟩
    simp only at hu
    exact h3 u (by omega) (by omega) (by omega)

theorem reach_south_iff (occ : Square → Bool) (s t : Square) :
    Reach occ s (0, 1) t ↔ file t = file s ∧ rank s < rank t ∧
      ∀ u, file u = file s → rank u < rank t → rank s < rank u → occ u = false := by
  unfold Reach At X Y file rank
  constructor
  · rintro ⟨k, h1, h2, h3⟩
    simp only at h2 h3
    refine ⟨by omega, by omega, fun u hu h4 h5 => ?_⟩
    exact h3 (u.val % 9 - s.val % 9) (by omega) (by omega) u (by omega)
  · rintro ⟨h1, h2, h3⟩
    refine ⟨t.val % 9 - s.val % 9, by omega, by simp only; omega, fun j h4 h5 u hu => ?_⟩
    simp only at hu
    exact h3 u (by omega) (by omega) (by omega)

theorem isSet_lanceAttackCalc (c : Color) (s : Square) (occ : Bitboard) (t : Square) :
    (lanceAttackCalc c s occ).isSet t = true ↔ Reach occ.isSet s (orient c (0, -1)) t := by
  unfold lanceAttackCalc
  have hs := rank_lt s
  rw [isSet_and, Bool.and_eq_true, isSet_lanceDown _ (file_lt s) _ _ (by omega),
    isSet_lanceUp _ (file_lt s) _ _ (by omega), isSet_zero, isSet_inFront c _ hs]
  have e : 8 - (8 - rank s) = rank s := by omega
  rw [e]
  simp only [Bool.false_eq_true, false_or]
  cases c
  · simp only [orient]
    rw [reach_north_iff]
    constructor
    · rintro ⟨h | h, h'⟩
      · exact h
      · omega
    · intro h; exact ⟨Or.inl h, h.2.1⟩
  · simp only [orient, neg_zero, neg_neg]
    rw [reach_south_iff]
    constructor
    · rintro ⟨h | h, h'⟩
      · omega
      · exact h
    · intro h; exact ⟨Or.inr h, h.2.1⟩

/-! ### The table index -/

/-- The `i`-th square taken out of a board by repeated extraction. -/
def popNth (b : Bitboard) : Nat → Nat
  | 0 => b.popFirst.1
  | i + 1 => popNth b.popFirst.2 i

theorem popNth_blockMask : ∀ (s : Square) (i : Fin 7), popNth (lanceBlockMask s) i.val = file s * 9 + 1 + i.val := by
  decide +kernel

theorem isSet_indexLoop (index n i : Nat) (mask res : Bitboard) (t : Square) :
    (indexToOccupiedLoop index n i mask res).isSet t = true ↔
      res.isSet t = true ∨ ∃ j, j < n ∧ index.testBit (i + j) = true ∧ t = sqN (popNth mask j) := by
  induction n generalizing i mask res with
  | zero => simp [indexToOccupiedLoop]
  | succ n ih =>
    unfold indexToOccupiedLoop
    simp only
    rw [ih]
    constructor
    · rintro (h | ⟨j, h1, h2, h3⟩)
      · by_cases hi : index.testBit i = true
        · rw [if_pos hi, isSet_setBit, Bool.or_eq_true, decide_eq_true_iff] at h
          rcases h with h | h
          · exact Or.inl h
          · exact Or.inr ⟨0, by omega, hi, h⟩
        · rw [if_neg hi] at h; exact Or.inl h
      · exact Or.inr ⟨j + 1, by omega, by rw [show i + (j + 1) = i + 1 + j by omega]; exact h2, h3⟩
    · rintro (h | ⟨j, h1, h2, h3⟩)
      · left
        split
        · rw [isSet_setBit, h]; rfl
        · exact h
      · cases j with
        | zero =>
          left
          rw [Nat.add_zero] at h2
          rw [if_pos h2, isSet_setBit, Bool.or_eq_true, decide_eq_true_iff]
          exact Or.inr h3
        | succ j =>
          right
          exact ⟨j, by omega, by rw [show i + 1 + j = i + (j + 1) by omega]; exact h2, h3⟩

theorem isSet_indexToOccupied (index : Nat) (s t : Square) (ht : 1 ≤ rank t ∧ rank t ≤ 7) :
    (indexToOccupied index 7 (lanceBlockMask s)).isSet t = true ↔
      file t = file s ∧ index.testBit (rank t - 1) = true := by
  unfold indexToOccupied
  rw [isSet_indexLoop, isSet_zero]
  simp only [Bool.false_eq_true, false_or, Nat.zero_add]
  have hf := file_lt s
  constructor
  · rintro ⟨j, hj, hb, e⟩
    rw [popNth_blockMask s ⟨j, hj⟩] at e
    have e' := congrArg Fin.val e
    unfold sqN Fin.ofNat at e'
    simp only at e'
    have h2 : rank t = j + 1 ∧ file t = file s := by
      unfold file rank at *
      have := s.isLt
      omega
    refine ⟨h2.2, ?_⟩
    rw [h2.1]; exact hb
  · rintro ⟨h1, h2⟩
    refine ⟨rank t - 1, by omega, h2, ?_⟩
    rw [popNth_blockMask s ⟨rank t - 1, by omega⟩]
    apply Fin.ext
    unfold sqN Fin.ofNat
    simp only
    unfold file rank at *
    have := s.isLt
    have := t.isLt
    omega

theorem lanceIndex_testBit (s : Square) (occ : Bitboard) (i : Nat) (hi : i < 7) :
    (lanceIndex s occ).testBit i = occ.isSet (sqOf (file s) (i + 1)) := by
  unfold lanceIndex
  rw [BitVec.testBit_toNat, BitVec.getLsbD_and, BitVec.getLsbD_ushiftRight]
  have h127 : (127#64).getLsbD i = true := by
    have : ∀ i : Fin 7, (127#64).getLsbD i.val = true := by decide
    exact this ⟨i, hi⟩
  rw [h127, Bool.and_true, isSet_eq, sqOf_val _ _ (file_lt s) (by omega)]
  unfold word slide file
  have := s.isLt
  by_cases h : s.val / 9 < 7
  · rw [if_neg (by omega), if_pos h, if_pos (by omega)]
    congr 1; omega
  · rw [if_pos (by omega), if_neg h, if_neg (by omega)]
    congr 1; omega

theorem reach_congr {occ occ' : Square → Bool} {s : Square} {d : Dir} {t : Square}
    (h : ∀ k j u, 1 ≤ j → j < k → At s d k t → At s d j u → occ u = occ' u) :
    Reach occ s d t ↔ Reach occ' s d t := by
  unfold Reach
  refine exists_congr fun k => and_congr_right fun _ => and_congr_right fun hk => ?_
  exact forall_congr' fun j => forall_congr' fun h1 => forall_congr' fun h2 => forall_congr' fun u =>
    forall_congr' fun hu => by rw [h k j u h1 h2 hk hu]

theorem isSet_lanceAttack (c : Color) (s : Square) (occ : Bitboard) (t : Square) :
    (lanceAttack c s occ).isSet t = true ↔ Reach occ.isSet s (orient c (0, -1)) t := by
  unfold lanceAttack lanceTable
  rw [isSet_lanceAttackCalc]
  apply reach_congr
  intro k j u h1 h2 hk hu
  have hr : 1 ≤ rank u ∧ rank u ≤ 7 ∧ file u = file s := by
    unfold At X Y at hk hu
    have := t.isLt
    have := u.isLt
    have := s.isLt
    unfold rank file
    cases c <;> simp only [orient] at hk hu <;> omega
  apply Bool.eq_iff_iff.mpr
  rw [isSet_indexToOccupied _ _ _ ⟨hr.1, hr.2.1⟩, lanceIndex_testBit _ _ _ (by omega)]
  have : u = sqOf (file s) (rank u - 1 + 1) := (eq_sqOf_iff _ _ (file_lt s) (by omega) u).mpr ⟨hr.2.2, by omega⟩
  rw [← this]
  simp [hr.2.2]

theorem wf_lanceAttack (c : Color) (s : Square) (occ : Bitboard) : (lanceAttack c s occ).WF :=
  wf_lanceAttackCalc _ _ _

theorem isSet_rookAttack (s : Square) (occ : Bitboard) (t : Square) :
    (rookAttack s occ).isSet t = true ↔ ∃ d ∈ orth, Reach occ.isSet s d t := by
  have h1 := isSet_lanceAttack .black s occ t
  have h2 := isSet_lanceAttack .white s occ t
  unfold lanceAttack at h1 h2
  unfold rookAttack rookAttackFile
  simp only [isSet_or, Bool.or_eq_true, isSet_rookAttackRank, h1, h2]
  simp only [orient, neg_zero, neg_neg, orth, List.mem_cons, List.not_mem_nil, or_false, exists_eq_or_imp, exists_eq_left]
  have : ∀ a b c d : Prop, ((a ∨ b) ∨ (c ∨ d)) ↔ (c ∨ d ∨ a ∨ b) := by intro a b c d; tauto
  exact this _ _ _ _

theorem wf_rookAttack (s : Square) (occ : Bitboard) : (rookAttack s occ).WF :=
  (wf_rookAttackRank s occ).or ((wf_lanceAttackCalc _ _ _).or (wf_lanceAttackCalc _ _ _))

theorem isSet_bishopAttack (s : Square) (occ : Bitboard) (t : Square) :
    (bishopAttack s occ).isSet t = true ↔ ∃ d ∈ diag, Reach occ.isSet s d t := isSet_bishopAttackV true s occ t

theorem wf_bishopAttack (s : Square) (occ : Bitboard) : (bishopAttack s occ).WF := wf_bishopAttackV true s occ

end Verif
