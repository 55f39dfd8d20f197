import Verif.Lemmas.Slide
import Verif.Spec.Geometry

/-! Helper lemmas: the attack functions in terms of rays. -/

namespace Verif
open Bitboard Spec

/-- Somewhere on the open ray from `s` in direction `d`. -/
def Line (s : Square) (d : Dir) (t : Square) : Prop := ∃ k : Nat, 1 ≤ k ∧ At s d k t

theorem isSet_foldl {α : Type} (f : α → Square) (l : List α) (b : Bitboard) (t : Square) :
    (l.foldl (fun bb i => bb ||| setMask (f i)) b).isSet t = true ↔ b.isSet t = true ∨ ∃ i ∈ l, t = f i := by
  induction l generalizing b with
  | nil => simp
  | cons a l ih =>
    rw [List.foldl_cons, ih]
    simp [or_assoc]

theorem wf_foldl {α : Type} (f : α → Square) (l : List α) (b : Bitboard) (hb : b.WF) :
    (l.foldl (fun bb i => bb ||| setMask (f i)) b).WF := by
  induction l generalizing b with
  | nil => exact hb
  | cons a l ih => exact ih _ (hb.or (WF.setMask _))

theorem wf_rookLeft (s : Square) : (rookLeft s).WF := wf_foldl _ _ _ WF.zero
theorem wf_rookRight (s : Square) : (rookRight s).WF := wf_foldl _ _ _ WF.zero

theorem isSet_rookLeft (s t : Square) : (rookLeft s).isSet t = true ↔ Line s (1, 0) t := by
  unfold rookLeft
  rw [isSet_foldl, isSet_zero]
  simp only [Bool.false_eq_true, false_or, List.mem_range]
  unfold Line At X Y sqOf file rank
  constructor
  · rintro ⟨i, hi, rfl⟩
    refine ⟨i + 1, by omega, ?_⟩
    simp only [Fin.ofNat]
    have := s.isLt
    constructor <;> omega
  · rintro ⟨k, hk, h1, h2⟩
    have := s.isLt
    have := t.isLt
    refine ⟨k - 1, by omega, ?_⟩
    apply Fin.ext
    simp only [Fin.ofNat]
    omega

theorem isSet_rookRight (s t : Square) : (rookRight s).isSet t = true ↔ Line s (-1, 0) t := by
  unfold rookRight
  rw [isSet_foldl, isSet_zero]
  simp only [Bool.false_eq_true, false_or, List.mem_range]
  unfold Line At X Y sqOf file rank
  constructor
  · rintro ⟨i, hi, rfl⟩
    refine ⟨i + 1, by omega, ?_⟩
    simp only [Fin.ofNat]
    have := s.isLt
    constructor <;> omega
  · rintro ⟨k, hk, h1, h2⟩
    have := s.isLt
    have := t.isLt
    refine ⟨k - 1, by omega, ?_⟩
    apply Fin.ext
    simp only [Fin.ofNat]
    omega

/-- Displacement of the four diagonal walks. -/
def diagDir (west north : Bool) : Dir := (if west then 1 else -1, if north then -1 else 1)

theorem wf_bishopWalk (w n : Bool) (fuel sq : Nat) (bb : Bitboard) (h : bb.WF) : (bishopWalk w n fuel sq bb).WF := by
  induction fuel generalizing sq bb with
  | zero => exact h
  | succ m ih =>
    unfold bishopWalk
    repeat' split
    all_goals first | exact h | exact ih _ _ (h.or (WF.setMask _))

theorem isSet_bishopWalk (w n : Bool) (fuel sq : Nat) (hsq : sq < 81) (bb : Bitboard) (t : Square) :
    (bishopWalk w n fuel sq bb).isSet t = true ↔ bb.isSet t = true ∨
      ∃ k : Nat, 1 ≤ k ∧ k ≤ fuel ∧ ((t.val / 9 : Nat) : Int) = ((sq / 9 : Nat) : Int) + k * (diagDir w n).1 ∧
        ((t.val % 9 : Nat) : Int) = ((sq % 9 : Nat) : Int) + k * (diagDir w n).2 := by
  induction fuel generalizing sq bb with
  | zero =>
    unfold bishopWalk
    constructor
    · exact Or.inl
    · rintro (h | ⟨k, h1, h2, _⟩)
      · exact h
      · omega
  | succ m ih =>
    have ht := t.isLt
    unfold bishopWalk
    cases w <;> cases n <;>
      simp only [Bool.not_true, Bool.not_false, Bool.true_and, Bool.false_and, Bool.false_eq_true, if_false, if_true,
        beq_iff_eq, diagDir]
    all_goals
      split
      · rename_i h0
        constructor
        · exact Or.inl
        · rintro (h | ⟨k, h1, h2, h3, h4⟩)
          · exact h
          · exfalso; omega
      · rename_i h0
        split
        · rename_i h0
          constructor
          · exact Or.inl
          · rintro (h | ⟨k, h1, h2, h3, h4⟩)
            · exact h
            · exfalso; omega
        · rename_i h1
          rw [ih _ (by omega)]
          simp only [isSet_or, Bool.or_eq_true, isSet_setMask_iff, diagDir, or_assoc, Bool.false_eq_true, if_false,
            if_true]
          refine or_congr_right ?_
          constructor
          · rintro (rfl | ⟨k, h1, h2, h3, h4⟩)
            · refine ⟨1, by omega, by omega, ?_⟩
              unfold sqN Fin.ofNat
              simp only
              constructor <;> omega
            · exact ⟨k + 1, by omega, by omega, by omega, by omega⟩
          · rintro ⟨k, h1, h2, h3, h4⟩
            by_cases hk : k = 1
            · left
              apply Fin.ext
              unfold sqN Fin.ofNat
              simp only
              omega
            · right
              exact ⟨k - 1, by omega, by omega, by omega, by omega⟩

theorem wf_bishopDiag (w n : Bool) (s : Square) : (bishopDiag w n s).WF := wf_bishopWalk _ _ _ _ _ WF.zero

theorem isSet_bishopDiag (w n : Bool) (s t : Square) :
    (bishopDiag w n s).isSet t = true ↔ Line s (diagDir w n) t := by
  unfold bishopDiag
  rw [isSet_bishopWalk _ _ _ _ s.isLt, isSet_zero]
  simp only [Bool.false_eq_true, false_or]
  unfold Line At X Y
  have hs := s.isLt
  have ht := t.isLt
  constructor
  · rintro ⟨k, h1, h2, h3, h4⟩
    exact ⟨k, h1, by omega, by omega⟩
  · rintro ⟨k, h1, h2, h3⟩
    refine ⟨k, h1, ?_, by omega, by omega⟩
    cases w <;> cases n <;> simp only [diagDir, if_true, if_false, Bool.false_eq_true] at h2 h3 <;> omega

/-! ### Ordering of squares along rays -/

/-- Reaching along a ray: the target is on the ray and no square of the ray before it is occupied. -/
theorem reach_iff_line (occ : Square → Bool) (s : Square) (d : Dir) (t : Square) :
    Reach occ s d t ↔ Line s d t ∧
      (∃ k : Nat, 1 ≤ k ∧ At s d k t ∧ ∀ u j, 1 ≤ j → j < k → At s d j u → occ u = false) := by
  unfold Reach Line
  constructor
  · rintro ⟨k, h1, h2, h3⟩
    exact ⟨⟨k, h1, h2⟩, k, h1, h2, fun u j a b c => h3 j a b u c⟩
  · rintro ⟨_, k, h1, h2, h3⟩
    exact ⟨k, h1, h2, fun j a b u c => h3 u j a b c⟩

/-- A lane characterised by an order that agrees with the distance along a ray computes exactly `Reach`. -/
theorem reach_of_order (occ : Square → Bool) (s : Square) (d : Dir) (t : Square) (π : Square → Nat)
    (hπ : ∀ j k : Nat, 1 ≤ j → 1 ≤ k → ∀ u v, At s d j u → At s d k v → (π u < π v ↔ j < k)) :
    (Line s d t ∧ ∀ u, Line s d u → π u < π t → occ u = false) ↔ Reach occ s d t := by
  constructor
  · rintro ⟨⟨k, h1, h2⟩, h3⟩
    exact ⟨k, h1, h2, fun j hj hjk u hu => h3 u ⟨j, hj, hu⟩ ((hπ j k hj h1 u t hu h2).mpr hjk)⟩
  · rintro ⟨k, h1, h2, h3⟩
    refine ⟨⟨k, h1, h2⟩, ?_⟩
    rintro u ⟨j, hj, hu⟩ hlt
    exact h3 j hj ((hπ j k hj h1 u t hu h2).mp hlt) u hu

theorem at_inj {s u : Square} {d : Dir} (hd : d.1 = 1 ∨ d.1 = -1 ∨ d.2 = 1 ∨ d.2 = -1) {j k : Nat}
    (h1 : At s d j u) (h2 : At s d k u) : j = k := by
  obtain ⟨dx, dy⟩ := d
  unfold At at h1 h2
  obtain ⟨a1, a2⟩ := h1
  obtain ⟨b1, b2⟩ := h2
  simp only at *
  rcases hd with rfl | rfl | rfl | rfl <;> omega

theorem order_left (s : Square) (d : Dir) (hd : d.1 = 1) (hd2 : d.2 = 0 ∨ d.2 = 1 ∨ d.2 = -1)
    (j k : Nat) (u v : Square) (hu : At s d j u) (hv : At s d k v) : idx u < idx v ↔ j < k := by
  obtain ⟨dx, dy⟩ := d
  simp only at hd hd2
  subst hd
  unfold At X Y at hu hv
  have h1 := u.isLt
  have h2 := v.isLt
  have hs := s.isLt
  have hidx : idx u < idx v ↔ u.val < v.val := by
    unfold idx; split <;> split <;> omega
  rw [hidx]
  simp only at hu hv
  rcases hd2 with rfl | rfl | rfl <;> omega

theorem order_right (s : Square) (d : Dir) (hd : d.1 = -1) (hd2 : d.2 = 0 ∨ d.2 = 1 ∨ d.2 = -1)
    (j k : Nat) (u v : Square) (hu : At s d j u) (hv : At s d k v) :
    rev (idx u) < rev (idx v) ↔ j < k := by
  obtain ⟨dx, dy⟩ := d
  simp only at hd hd2
  subst hd
  unfold At X Y at hu hv
  have h1 := u.isLt
  have h2 := v.isLt
  have hs := s.isLt
  have key : (j < k → v.val + 8 ≤ u.val) ∧ (k < j → u.val + 8 ≤ v.val) ∧ (j = k → u.val = v.val) := by
    simp only at hu hv
    rcases hd2 with rfl | rfl | rfl <;> omega
  have hmono : ∀ a b : Square, a.val + 8 ≤ b.val → rev (idx b) < rev (idx a) := by
    intro a b hab
    have ha := a.isLt
    have hb := b.isLt
    have : idx a + 8 ≤ idx b ∧ idx b < 128 := by
      unfold idx; split <;> split <;> omega
    unfold rev; omega
  rcases Nat.lt_trichotomy j k with h | h | h
  · exact iff_of_true (hmono v u (key.1 h)) h
  · have : u = v := Fin.ext (key.2.2 h)
    subst this
    simp [h]
  · exact iff_of_false (by have := hmono u v (key.2.1 h); omega) (by omega)

theorem lane_reach {m : Bitboard} (hm : m.WF) (occ : Bitboard) (s t : Square) (d : Dir) (hd : d.1 = 1)
    (hd2 : d.2 = 0 ∨ d.2 = 1 ∨ d.2 = -1) (hmem : ∀ u, m.isSet u = true ↔ Line s d u) :
    (lane m occ).isSet t = true ↔ Reach occ.isSet s d t := by
  rw [isSet_lane hm, hmem,
    ← reach_of_order occ.isSet s d t idx
      (fun j k _ _ u v hu hv => order_left s d hd hd2 j k u v hu hv)]
  refine and_congr_right fun _ => ?_
  exact forall_congr' fun u => by rw [hmem]

theorem rlane_reach {m : Bitboard} (hm : m.WF) (occ : Bitboard) (s t : Square) (d : Dir) (hd : d.1 = -1)
    (hd2 : d.2 = 0 ∨ d.2 = 1 ∨ d.2 = -1) (hmem : ∀ u, m.isSet u = true ↔ Line s d u) :
    (rlane m occ).isSet t = true ↔ Reach occ.isSet s d t := by
  rw [isSet_rlane hm, hmem,
    ← reach_of_order occ.isSet s d t (fun u => rev (idx u))
      (fun j k _ _ u v hu hv => order_right s d hd hd2 j k u v hu hv)]
  refine and_congr_right fun _ => ?_
  exact forall_congr' fun u => by rw [hmem]

theorem isSet_rookAttackRank (s : Square) (occ : Bitboard) (t : Square) :
    (rookAttackRank s occ).isSet t = true ↔ Reach occ.isSet s (-1, 0) t ∨ Reach occ.isSet s (1, 0) t := by
  rw [rookAttackRank_eq, isSet_or, Bool.or_eq_true,
    rlane_reach (wf_rookRight s) occ s t (-1, 0) rfl (Or.inl rfl) (isSet_rookRight s),
    lane_reach (wf_rookLeft s) occ s t (1, 0) rfl (Or.inl rfl) (isSet_rookLeft s)]

theorem wf_rookAttackRank (s : Square) (occ : Bitboard) : (rookAttackRank s occ).WF := by
  rw [rookAttackRank_eq]
  exact (wf_rlane (wf_rookRight s) _).or (wf_lane (wf_rookLeft s) _)

private theorem or_perm (a b c d : Prop) : ((c ∨ b) ∨ (a ∨ d)) ↔ (a ∨ b ∨ c ∨ d) := by tauto
private theorem or_perm' (a b c d : Prop) : ((a ∨ b) ∨ (c ∨ d)) ↔ (a ∨ b ∨ c ∨ d) := by tauto

theorem isSet_bishopAttackV (avx : Bool) (s : Square) (occ : Bitboard) (t : Square) :
    (bishopAttackV avx s occ).isSet t = true ↔ ∃ d ∈ diag, Reach occ.isSet s d t := by
  have h1 := rlane_reach (wf_bishopDiag false true s) occ s t (-1, -1) rfl (by simp) (isSet_bishopDiag false true s)
  have h2 := rlane_reach (wf_bishopDiag false false s) occ s t (-1, 1) rfl (by simp) (isSet_bishopDiag false false s)
  have h3 := lane_reach (wf_bishopDiag true true s) occ s t (1, -1) rfl (by simp) (isSet_bishopDiag true true s)
  have h4 := lane_reach (wf_bishopDiag true false s) occ s t (1, 1) rfl (by simp) (isSet_bishopDiag true false s)
  simp only [diag, List.mem_cons, List.not_mem_nil, or_false, exists_eq_or_imp, exists_eq_left]
  cases avx
  · rw [bishopAttackV_false]
    simp only [isSet_or, Bool.or_eq_true, h1, h2, h3, h4]
    exact or_perm _ _ _ _
  · rw [bishopAttackV_true]
    simp only [isSet_or, Bool.or_eq_true, h1, h2, h3, h4]
    exact or_perm' _ _ _ _

theorem wf_bishopAttackV (avx : Bool) (s : Square) (occ : Bitboard) : (bishopAttackV avx s occ).WF := by
  cases avx
  · rw [bishopAttackV_false]
    exact ((wf_rlane (wf_bishopDiag _ _ s) _).or (wf_lane (wf_bishopDiag _ _ s) _)).or
      ((wf_rlane (wf_bishopDiag _ _ s) _).or (wf_lane (wf_bishopDiag _ _ s) _))
  · rw [bishopAttackV_true]
    exact ((wf_rlane (wf_bishopDiag _ _ s) _).or (wf_lane (wf_bishopDiag _ _ s) _)).or
      ((wf_rlane (wf_bishopDiag _ _ s) _).or (wf_lane (wf_bishopDiag _ _ s) _))

end Verif
