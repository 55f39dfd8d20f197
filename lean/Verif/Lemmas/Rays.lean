import Verif.Lemmas.Steps

/-! Helper lemmas: algebra of rays, and the between table. -/

namespace Verif
open Bitboard Spec

/-- Opposite direction. -/
def neg (d : Dir) : Dir := (-d.1, -d.2)

theorem neg_neg' (d : Dir) : neg (neg d) = d := by
  obtain ⟨x, y⟩ := d; simp [neg]

theorem isDir_neg {d : Dir} (h : IsDir d) : IsDir (neg d) := h.neg

theorem orient_white (d : Dir) : orient .white d = neg d := rfl
theorem orient_black (d : Dir) : orient .black d = d := rfl
theorem orient_opp (c : Color) (d : Dir) : orient c.opp d = neg (orient c d) := by
  cases c
  · rfl
  · simp [Color.opp, orient, neg]

theorem at_symm {s t : Square} {d : Dir} {k : Nat} : At s d k t ↔ At t (neg d) k s := by
  unfold At neg
  simp only [Int.mul_neg]
  constructor <;> rintro ⟨h1, h2⟩ <;> constructor <;> omega

theorem at_unique {s t u : Square} {d : Dir} {k : Nat} (h1 : At s d k t) (h2 : At s d k u) : t = u :=
  sq_ext (h1.1.trans h2.1.symm) (h1.2.trans h2.2.symm)

theorem isDir_inj {s u : Square} {d : Dir} (hd : IsDir d) {j k : Nat} (h1 : At s d j u) (h2 : At s d k u) : j = k := by
  obtain ⟨ha, hb, hc⟩ := hd
  refine at_inj ?_ h1 h2
  omega

theorem at_add {s t u : Square} {d : Dir} {j k : Nat} (h1 : At s d j t) (h2 : At t d k u) : At s d (j + k) u := by
  unfold At at *
  push_cast
  rw [Int.add_mul, Int.add_mul]
  omega

theorem at_sub {s t u : Square} {d : Dir} {j k : Nat} (hjk : j ≤ k) (h1 : At s d j t) (h2 : At s d k u) :
    At t d (k - j) u := by
  unfold At at *
  rw [Int.ofNat_sub hjk, Int.sub_mul, Int.sub_mul]
  omega

theorem at_zero {s t : Square} {d : Dir} : At s d 0 t ↔ s = t := by
  constructor
  · rintro ⟨h1, h2⟩
    exact sq_ext (by simpa using h1.symm) (by simpa using h2.symm)
  · rintro rfl; unfold At; simp

theorem line_symm {s t : Square} {d : Dir} : Line s d t ↔ Line t (neg d) s := by
  unfold Line; simp only [at_symm (s := s) (t := t)]

theorem line_trans {s t u : Square} {d : Dir} (h1 : Line s d t) (h2 : Line t d u) : Line s d u := by
  obtain ⟨j, hj, h1⟩ := h1
  obtain ⟨k, hk, h2⟩ := h2
  exact ⟨j + k, by omega, at_add h1 h2⟩

theorem line_ne {s t : Square} {d : Dir} (hd : IsDir d) (h : Line s d t) : s ≠ t := by
  rintro rfl
  obtain ⟨k, hk, h⟩ := h
  have := isDir_inj hd h (at_zero.mpr rfl)
  omega

/-- On a ray, two squares are ordered. -/
theorem line_total {s t u : Square} {d : Dir} (h1 : Line s d t) (h2 : Line s d u) :
    t = u ∨ Line t d u ∨ Line u d t := by
  obtain ⟨j, hj, h1⟩ := h1
  obtain ⟨k, hk, h2⟩ := h2
  rcases Nat.lt_trichotomy j k with h | h | h
  · exact Or.inr (Or.inl ⟨k - j, by omega, at_sub (by omega) h1 h2⟩)
  · subst h; exact Or.inl (at_unique h1 h2)
  · exact Or.inr (Or.inr ⟨j - k, by omega, at_sub (by omega) h2 h1⟩)

theorem line_antisymm {s t : Square} {d : Dir} (hd : IsDir d) (h1 : Line s d t) (h2 : Line t d s) : False :=
  line_ne hd (line_trans h1 h2) rfl

/-- A ray determines its direction. -/
theorem line_dir_unique {s t : Square} {d e : Dir} (hd : IsDir d) (he : IsDir e) (h1 : Line s d t) (h2 : Line s e t) :
    d = e := by
  obtain ⟨dx, dy⟩ := d
  obtain ⟨ex, ey⟩ := e
  obtain ⟨j, hj, h1, h3⟩ := h1
  obtain ⟨k, hk, h2, h4⟩ := h2
  simp only [IsDir] at hd he h1 h2 h3 h4
  obtain ⟨ha, hb, hc⟩ := hd
  obtain ⟨ha', hb', hc'⟩ := he
  have : dx = ex ∧ dy = ey := by
    rcases ha with rfl | rfl | rfl <;> rcases hb with rfl | rfl | rfl <;> rcases ha' with rfl | rfl | rfl <;>
      rcases hb' with rfl | rfl | rfl <;> omega
  rw [this.1, this.2]

/-- Reaching in terms of rays only. -/
theorem reach_iff {occ : Square → Bool} {s t : Square} {d : Dir} (hd : IsDir d) :
    Reach occ s d t ↔ Line s d t ∧ ∀ u, Line s d u → Line u d t → occ u = false := by
  constructor
  · rintro ⟨k, h1, h2, h3⟩
    refine ⟨⟨k, h1, h2⟩, ?_⟩
    rintro u ⟨j, hj, hu⟩ ⟨m, hm, hm'⟩
    have := isDir_inj hd (at_add hu hm') h2
    exact h3 j hj (by omega) u hu
  · rintro ⟨⟨k, h1, h2⟩, h3⟩
    refine ⟨k, h1, h2, fun j hj hjk u hu => h3 u ⟨j, hj, hu⟩ ⟨k - j, by omega, at_sub (by omega) hu h2⟩⟩

theorem reach_symm {occ : Square → Bool} {s t : Square} {d : Dir} (hd : IsDir d) :
    Reach occ s d t ↔ Reach occ t (neg d) s := by
  rw [reach_iff hd, reach_iff (isDir_neg hd), line_symm]
  refine and_congr_right fun _ => ?_
  constructor
  · intro h u h1 h2
    exact h u (by rw [line_symm]; exact h2) (by rw [line_symm]; exact h1)
  · intro h u h1 h2
    exact h u (by rwa [line_symm] at h2) (by rwa [line_symm] at h1)

theorem Reach.line {occ : Square → Bool} {s t : Square} {d : Dir} (h : Reach occ s d t) : Line s d t := by
  obtain ⟨k, h1, h2, _⟩ := h; exact ⟨k, h1, h2⟩

/-- Between in terms of rays only. -/
theorem between_iff {s u t : Square} : Between s u t ↔ ∃ d, IsDir d ∧ Line s d u ∧ Line u d t := by
  unfold Between
  constructor
  · rintro ⟨d, hd, j, k, hj, hjk, h1, h2⟩
    exact ⟨d, isDir_mem.mp hd, ⟨j, hj, h1⟩, ⟨k - j, by omega, at_sub (by omega) h1 h2⟩⟩
  · rintro ⟨d, hd, ⟨j, hj, h1⟩, ⟨k, hk, h2⟩⟩
    exact ⟨d, isDir_mem.mpr hd, j, j + k, hj, by omega, h1, at_add h1 h2⟩

theorem between_symm {s u t : Square} : Between s u t ↔ Between t u s := by
  have : ∀ s u t : Square, Between s u t → Between t u s := by
    intro s u t h
    rw [between_iff] at h ⊢
    obtain ⟨d, hd, h1, h2⟩ := h
    exact ⟨neg d, isDir_neg hd, line_symm.mp h2, line_symm.mp h1⟩
  exact ⟨this _ _ _, this _ _ _⟩

/-- With the line of `s` and `t` known, between means on that line. -/
theorem between_on {s u t : Square} {d : Dir} (hd : IsDir d) (h : Line s d t) :
    Between s u t ↔ Line s d u ∧ Line u d t := by
  rw [between_iff]
  constructor
  · rintro ⟨e, he, h1, h2⟩
    have := line_dir_unique he hd (line_trans h1 h2) h
    subst this
    exact ⟨h1, h2⟩
  · rintro ⟨h1, h2⟩; exact ⟨d, hd, h1, h2⟩

/-- Reaching: on the line and nothing between. -/
theorem reach_between {occ : Square → Bool} {s t : Square} {d : Dir} (hd : IsDir d) :
    Reach occ s d t ↔ Line s d t ∧ ∀ u, Between s u t → occ u = false := by
  rw [reach_iff hd]
  refine and_congr_right fun hl => ?_
  exact forall_congr' fun u => by rw [between_on hd hl, and_imp]

theorem exists_line {s t : Square} : Aligned2 s t ↔ ∃ d, IsDir d ∧ Line s d t := by
  unfold Aligned2 Line
  constructor
  · rintro ⟨d, hd, h⟩; exact ⟨d, isDir_mem.mp hd, h⟩
  · rintro ⟨d, hd, h⟩; exact ⟨d, isDir_mem.mpr hd, h⟩

theorem wf_betweenBB (s t : Square) : (betweenBB s t).WF := by
  unfold betweenBB
  split
  · exact WF.zero
  · split
    · exact (wf_rookAttack _ _).and_left
    · split
      · exact (wf_bishopAttack _ _).and_left
      · exact WF.zero

private theorem between_core (l : List Dir) (hl : l = orth ∨ l = diag) (s t u : Square) (f : Dir) (hf : f ∈ l)
    (hst : Line s f t) :
    ((∃ d ∈ l, Reach (setMask t).isSet s d u) ∧ (∃ d ∈ l, Reach (setMask s).isSet t d u)) ↔
      (Line s f u ∧ Line u f t) := by
  have hdir : ∀ d ∈ l, IsDir d := by
    intro d hd
    rcases hl with rfl | rfl
    · exact isDir_orth hd
    · exact isDir_diag hd
  have hfd := hdir f hf
  constructor
  · rintro ⟨⟨d, hd, h1⟩, ⟨e, he, h2⟩⟩
    rw [reach_iff (hdir d hd)] at h1
    rw [reach_iff (hdir e he)] at h2
    have b1 : d = f → ¬ Line t d u := by
      rintro rfl hc
      have := h1.2 t hst hc
      rw [isSet_setMask] at this; simp at this
    have b2 : e = neg f → ¬ Line s e u := by
      rintro rfl hc
      have := h2.2 s (line_symm.mp hst) hc
      rw [isSet_setMask] at this; simp at this
    obtain ⟨hl1, -⟩ := h1
    obtain ⟨hl2, -⟩ := h2
    -- Directions: d = f necessarily, and e = -f.
    have key : (d = f ∧ e = neg f) ∨ (d = f ∧ e = f) ∨ (d = neg f ∧ e = neg f) := by
      obtain ⟨k, hk, k1, k2⟩ := hst
      obtain ⟨a, ha, a1, a2⟩ := hl1
      obtain ⟨b, hb, b1, b2⟩ := hl2
      clear hdir hfd
      rcases hl with rfl | rfl <;> simp only [orth, diag, List.mem_cons, List.not_mem_nil, or_false] at hf hd he <;>
        rcases hf with rfl | rfl | rfl | rfl <;> rcases hd with rfl | rfl | rfl | rfl <;>
        rcases he with rfl | rfl | rfl | rfl <;> first | (exfalso; simp only at *; omega) | (simp [neg])
    rcases key with ⟨rfl, rfl⟩ | ⟨rfl, rfl⟩ | ⟨rfl, rfl⟩
    · exact ⟨hl1, line_symm.mpr hl2⟩
    · exact absurd hl2 (b1 rfl)
    · exact absurd hl1 (b2 rfl)
  · rintro ⟨h1, h2⟩
    have hn : neg f ∈ l := by
      rcases hl with rfl | rfl <;> simp only [orth, diag, List.mem_cons, List.not_mem_nil, or_false] at hf ⊢ <;>
        rcases hf with rfl | rfl | rfl | rfl <;> simp [neg]
    refine ⟨⟨f, hf, ?_⟩, ⟨neg f, hn, ?_⟩⟩
    · rw [reach_iff hfd]
      refine ⟨h1, fun v hv1 hv2 => ?_⟩
      rw [isSet_setMask, decide_eq_false_iff_not]
      rintro rfl
      exact line_antisymm hfd h2 hv2
    · rw [reach_iff (isDir_neg hfd)]
      refine ⟨line_symm.mp h2, fun v hv1 hv2 => ?_⟩
      rw [isSet_setMask, decide_eq_false_iff_not]
      rintro rfl
      exact line_antisymm (isDir_neg hfd) (line_symm.mp h1) hv2

theorem isSet_betweenBB (s t u : Square) : (betweenBB s t).isSet u = true ↔ Between s u t := by
  unfold betweenBB
  by_cases h0 : s = t
  · subst h0
    rw [if_pos rfl, isSet_zero, between_iff]
    refine iff_of_false (by simp) ?_
    rintro ⟨d, hd, h1, h2⟩
    exact line_ne hd (line_trans h1 h2) rfl
  · rw [if_neg h0]
    by_cases hr : squareRelation s t = 0
    · rw [hr]
      simp only [Nat.zero_testBit, Bool.false_eq_true, if_false, isSet_zero, false_iff]
      rw [between_iff]
      rintro ⟨d, hd, h1, h2⟩
      exact (squareRelation_ne_zero s t).mpr (exists_line.mpr ⟨d, hd, line_trans h1 h2⟩) hr
    · obtain ⟨f, hf, hl⟩ := exists_line.mp ((squareRelation_ne_zero s t).mp hr)
      rw [between_on hf hl, rel_of_line hf hl]
      rcases List.mem_append.mp (isDir_mem.mpr hf) with hm | hm
      · have : (dirRel f).testBit 1 = true := by
          have : ∀ f ∈ orth, (dirRel f).testBit 1 = true := by decide
          exact this f hm
        rw [if_pos this, isSet_and, Bool.and_eq_true, isSet_rookAttack, isSet_rookAttack]
        exact between_core orth (Or.inl rfl) s t u f hm hl
      · have : (dirRel f).testBit 1 = false ∧ (dirRel f).testBit 2 = true := by
          have : ∀ f ∈ diag, (dirRel f).testBit 1 = false ∧ (dirRel f).testBit 2 = true := by decide
          exact this f hm
        rw [if_neg (by rw [this.1]; simp), if_pos this.2, isSet_and, Bool.and_eq_true, isSet_bishopAttack,
          isSet_bishopAttack]
        exact between_core diag (Or.inr rfl) s t u f hm hl

theorem isAligned_iff (a b c : Square) : isAligned a b c = true ↔
    ∃ d, IsDir d ∧ Line a d c ∧ (Line a d b ∨ Line a (neg d) b) := by
  unfold isAligned
  rw [Bool.and_eq_true, bne_iff_ne, beq_iff_eq]
  constructor
  · rintro ⟨h1, h2⟩; exact (squareRelation_line a c b h1).mp h2
  · rintro ⟨d, hd, h1, h2⟩
    have hne : squareRelation a c ≠ 0 := (squareRelation_ne_zero a c).mpr (exists_line.mpr ⟨d, hd, h1⟩)
    exact ⟨hne, (squareRelation_line a c b hne).mpr ⟨d, hd, h1, h2⟩⟩

end Verif
