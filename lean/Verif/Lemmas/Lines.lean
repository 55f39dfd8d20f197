import Verif.Lemmas.Pseudo

/-!
Lines, pins and attacks at the level of the rules (no bitboards).
-/

namespace Verif
open Spec

/-! ### Between -/

theorem between_ne_left {s u t : Square} (h : Between s u t) : u ≠ s := by
  obtain ⟨d, hd, h1, -⟩ := between_iff.mp h
  exact (line_ne hd h1).symm

theorem between_ne_right {s u t : Square} (h : Between s u t) : u ≠ t := by
  obtain ⟨d, hd, -, h2⟩ := between_iff.mp h
  exact line_ne hd h2

theorem between_trans_left {s u v t : Square} (h : Between s u t) (h' : Between s v u) : Between s v t := by
  obtain ⟨d, hd, h1, h2⟩ := between_iff.mp h
  obtain ⟨h3, h4⟩ := (between_on hd h1).mp h'
  exact between_iff.mpr ⟨d, hd, h3, line_trans h4 h2⟩

theorem between_trans_right {s u v t : Square} (h : Between s u t) (h' : Between u v t) : Between s v t := by
  obtain ⟨d, hd, h1, h2⟩ := between_iff.mp h
  obtain ⟨h3, h4⟩ := (between_on hd h2).mp h'
  exact between_iff.mpr ⟨d, hd, line_trans h1 h3, h4⟩

theorem between_cases {s u v t : Square} (h : Between s u t) (h' : Between s v t) :
    v = u ∨ Between s v u ∨ Between u v t := by
  obtain ⟨d, hd, h1, h2⟩ := between_iff.mp h
  obtain ⟨h3, h4⟩ := (between_on hd (line_trans h1 h2)).mp h'
  rcases line_total h1 h3 with e | e | e
  · exact Or.inl e.symm
  · exact Or.inr (Or.inr (between_iff.mpr ⟨d, hd, e, h4⟩))
  · exact Or.inr (Or.inl (between_iff.mpr ⟨d, hd, h3, e⟩))

/-! ### Attacks split into steps and lines -/

/-- One of the single steps of the kind. -/
def StepAt (c : Color) (k : Kind) (s t : Square) : Prop := ∃ d ∈ k.steps, At s (orient c d) 1 t

/-- On a line in one of the sliding directions of the kind. -/
def SlideLine (c : Color) (k : Kind) (s t : Square) : Prop := ∃ d ∈ k.slides, Line s (orient c d) t

theorem attacks_iff (c : Color) (k : Kind) (occ : Square → Bool) (s t : Square) :
    Attacks c k occ s t ↔ StepAt c k s t ∨ (SlideLine c k s t ∧ ∀ u, Between s u t → occ u = false) := by
  unfold Attacks StepAt SlideLine
  refine or_congr_right ?_
  constructor
  · rintro ⟨d, hd, h⟩
    rw [reach_between (isDir_orient (isDir_slides k d hd))] at h
    exact ⟨⟨d, hd, h.1⟩, h.2⟩
  · rintro ⟨⟨d, hd, h1⟩, h2⟩
    exact ⟨d, hd, (reach_between (isDir_orient (isDir_slides k d hd))).mpr ⟨h1, h2⟩⟩

theorem steps_small (k : Kind) : ∀ d ∈ k.steps, IsDir d ∨ ((d.1 = 1 ∨ d.1 = -1) ∧ (d.2 = 2 ∨ d.2 = -2)) := by
  unfold IsDir
  cases k <;> decide

/-- A step passes over nothing. -/
theorem StepAt.no_between {c : Color} {k : Kind} {s t : Square} (h : StepAt c k s t) (u : Square) : ¬ Between s u t := by
  intro hb
  obtain ⟨d, hd, h1, h2⟩ := h
  obtain ⟨e, he, ⟨j, hj, h3, h4⟩, ⟨n, hn, h5, h6⟩⟩ := between_iff.mp hb
  have hs := steps_small k d hd
  obtain ⟨ex, ey⟩ := e
  have hd' : (orient c d).1 ≤ 1 ∧ -1 ≤ (orient c d).1 ∧
      (((orient c d).2 ≤ 1 ∧ -1 ≤ (orient c d).2) ∨ (((orient c d).1 = 1 ∨ (orient c d).1 = -1) ∧ ((orient c d).2 = 2 ∨ (orient c d).2 = -2))) := by
    unfold IsDir at hs
    cases c <;> simp only [orient] <;> omega
  generalize (orient c d).1 = a at *
  generalize (orient c d).2 = b at *
  simp only [IsDir] at he
  obtain ⟨ha, hb', hc⟩ := he
  rcases ha with rfl | rfl | rfl <;> rcases hb' with rfl | rfl | rfl <;> first | exact hc ⟨rfl, rfl⟩ | (simp only [] at h3 h4 h5 h6; omega)

/-- Whatever a piece attacks, nothing stands in between. -/
theorem Attacks.path {c : Color} {k : Kind} {occ : Square → Bool} {s t : Square} (h : Attacks c k occ s t) (u : Square)
    (hu : Between s u t) : occ u = false := by
  rcases (attacks_iff c k occ s t).mp h with h | ⟨-, h⟩
  · exact absurd hu (h.no_between u)
  · exact h u hu

/-- A line may be shortened. -/
theorem SlideLine.shorten {c : Color} {k : Kind} {s u t : Square} (h : SlideLine c k s t) (hb : Between s u t) :
    SlideLine c k s u := by
  obtain ⟨d, hd, h⟩ := h
  exact ⟨d, hd, ((between_on (isDir_orient (isDir_slides k d hd)) h).mp hb).1⟩

/-- A line may be lengthened. -/
theorem SlideLine.extend {c : Color} {k : Kind} {s u t : Square} (h : SlideLine c k s u) (hb : Between s u t) :
    SlideLine c k s t := by
  obtain ⟨d, hd, h⟩ := h
  obtain ⟨e, he, h1, h2⟩ := between_iff.mp hb
  have := line_dir_unique he (isDir_orient (isDir_slides k d hd)) h1 h
  subst this
  exact ⟨d, hd, line_trans h1 h2⟩

/-! ### Pins -/

/-- A piece of colour `a` on `s` is aimed at `k`, and the only piece between them stands on `f`. -/
structure PinLine (q : Pos) (a : Color) (k f s : Square) : Prop where
  piece : ∃ kd, q.board s = some (a, kd) ∧ SlideLine a kd s k
  btw : Between s f k
  occ : q.occ f = true
  only : ∀ u, Between s u k → q.occ u = true → u = f

/-- `f`, `t`, `k` on one line through `f`. -/
def OnLine (f t k : Square) : Prop := ∃ d, IsDir d ∧ Line f d k ∧ (Line f d t ∨ Line f (neg d) t)

theorem occ_of_board {q : Pos} {s : Square} {v : Color × Kind} (h : q.board s = some v) : q.occ s = true := by
  unfold Pos.occ; rw [h]; rfl

/-- A piece between `k` and the pinning piece that moves stays in the line exactly if it stays between or captures the
pinning piece. -/
theorem PinLine.onLine {q : Pos} {a : Color} {k f s t : Square} (h : PinLine q a k f s) (hk : q.occ k = true)
    (hp : ∀ u, Between f u t → q.occ u = false) (htk : t ≠ k) (htf : t ≠ f) :
    OnLine f t k ↔ t = s ∨ Between s t k := by
  obtain ⟨d, hd, h1, h2⟩ := between_iff.mp h.btw
  have hs : q.occ s = true := by obtain ⟨kd, e, -⟩ := h.piece; exact occ_of_board e
  constructor
  · rintro ⟨e, he, h3, h4⟩
    have := line_dir_unique he hd h3 h2
    subst this
    rcases h4 with h4 | h4
    · rcases line_total h4 h2 with e1 | e1 | e1
      · exact absurd e1 htk
      · exact Or.inr (between_iff.mpr ⟨e, he, line_trans h1 h4, e1⟩)
      · have := hp k (between_iff.mpr ⟨e, he, h2, e1⟩)
        rw [hk] at this; cases this
    · have h1' := line_symm.mp h1
      rcases line_total h4 h1' with e1 | e1 | e1
      · exact Or.inl e1
      · have e2 : Line s e t := line_symm.mpr e1
        have e3 : Line t e f := by rw [line_symm]; exact h4
        exact Or.inr (between_iff.mpr ⟨e, he, e2, line_trans e3 h2⟩)
      · have := hp s (between_iff.mpr ⟨neg e, isDir_neg he, h1', e1⟩)
        rw [hs] at this; cases this
  · rintro (rfl | hb)
    · exact ⟨d, hd, h2, Or.inr (line_symm.mp h1)⟩
    · obtain ⟨h3, h4⟩ := (between_on hd (line_trans h1 h2)).mp hb
      rcases line_total h1 h3 with e1 | e1 | e1
      · exact absurd e1.symm htf
      · exact ⟨d, hd, h2, Or.inl e1⟩
      · exact ⟨d, hd, h2, Or.inr (line_symm.mp e1)⟩

/-! ### Attacks after a piece has moved or been dropped -/

/-- Occupancy after moving from `f` to `t`. -/
def occMove (occ : Square → Bool) (f t : Square) : Square → Bool := fun u => if u = t then true else if u = f then false else occ u
/-- Occupancy after a drop on `t`. -/
def occDrop (occ : Square → Bool) (t : Square) : Square → Bool := fun u => if u = t then true else occ u

theorem free_move {occ : Square → Bool} {f t s k : Square} :
    (∀ u, Between s u k → occMove occ f t u = false) ↔
      ¬ Between s t k ∧ ∀ u, Between s u k → u ≠ f → occ u = false := by
  unfold occMove
  constructor
  · intro h
    refine ⟨fun hb => by simpa using h t hb, fun u hu hf => ?_⟩
    have := h u hu
    split at this
    · cases this
    · simpa [hf] using this
  · rintro ⟨h1, h2⟩ u hu
    rw [if_neg (by rintro rfl; exact h1 hu)]
    split
    · rfl
    · exact h2 u hu (by assumption)

theorem free_drop {occ : Square → Bool} {t s k : Square} :
    (∀ u, Between s u k → occDrop occ t u = false) ↔ ¬ Between s t k ∧ ∀ u, Between s u k → occ u = false := by
  unfold occDrop
  constructor
  · intro h
    refine ⟨fun hb => by simpa using h t hb, fun u hu => ?_⟩
    have := h u hu
    split at this
    · cases this
    · exact this
  · rintro ⟨h1, h2⟩ u hu
    rw [if_neg (by rintro rfl; exact h1 hu)]
    exact h2 u hu

/-- Attacks on `k` after a move from `f` to `t` elsewhere: an old attack not interrupted, or an uncovered one. -/
theorem attacks_move {q : Pos} {a : Color} {kd : Kind} {s k f t : Square} (hs : q.board s = some (a, kd)) :
    Attacks a kd (occMove q.occ f t) s k ↔
      (Attacks a kd q.occ s k ∨ (SlideLine a kd s k ∧ PinLine q a k f s)) ∧ ¬ Between s t k := by
  rw [attacks_iff, attacks_iff, free_move]
  constructor
  · rintro (h | ⟨h1, h2, h3⟩)
    · exact ⟨Or.inl (Or.inl h), h.no_between t⟩
    · refine ⟨?_, h2⟩
      by_cases hf : Between s f k ∧ q.occ f = true
      · refine Or.inr ⟨h1, ⟨kd, hs, h1⟩, hf.1, hf.2, fun u hu ho => ?_⟩
        by_contra hne
        rw [h3 u hu hne] at ho; cases ho
      · refine Or.inl (Or.inr ⟨h1, fun u hu => ?_⟩)
        by_cases huf : u = f
        · subst huf
          rw [Bool.eq_false_iff]
          intro ho; exact hf ⟨hu, ho⟩
        · exact h3 u hu huf
  · rintro ⟨(h | ⟨h1, h2⟩) | ⟨h1, h2⟩, hb⟩
    · exact Or.inl h
    · exact Or.inr ⟨h1, hb, fun u hu _ => h2 u hu⟩
    · refine Or.inr ⟨h1, hb, fun u hu hne => ?_⟩
      rw [Bool.eq_false_iff]
      intro ho; exact hne (h2.only u hu ho)

/-- Attacks on `k` after a drop on `t`. -/
theorem attacks_drop {occ : Square → Bool} {a : Color} {kd : Kind} {s k t : Square} :
    Attacks a kd (occDrop occ t) s k ↔ Attacks a kd occ s k ∧ ¬ Between s t k := by
  rw [attacks_iff, attacks_iff, free_drop]
  constructor
  · rintro (h | ⟨h1, h2, h3⟩)
    · exact ⟨Or.inl h, h.no_between t⟩
    · exact ⟨Or.inr ⟨h1, h3⟩, h2⟩
  · rintro ⟨h | ⟨h1, h2⟩, hb⟩
    · exact Or.inl h
    · exact Or.inr ⟨h1, hb, h2⟩

/-- Only the squares strictly between matter. -/
theorem attacks_congr {occ occ' : Square → Bool} {a : Color} {kd : Kind} {s k : Square}
    (h : ∀ u, Between s u k → occ u = occ' u) : Attacks a kd occ s k ↔ Attacks a kd occ' s k := by
  rw [attacks_iff, attacks_iff]
  refine or_congr_right (and_congr_right fun _ => forall_congr' fun u => forall_congr' fun hu => ?_)
  rw [h u hu]

/-- Fewer pieces, more attacks. -/
theorem attacks_mono {occ occ' : Square → Bool} {a : Color} {kd : Kind} {s k : Square}
    (h : ∀ u, occ' u = true → occ u = true) (ha : Attacks a kd occ s k) : Attacks a kd occ' s k := by
  rw [attacks_iff] at ha ⊢
  refine ha.imp_right fun ⟨h1, h2⟩ => ⟨h1, fun u hu => ?_⟩
  rw [Bool.eq_false_iff]
  intro ho
  have := h u ho
  rw [h2 u hu] at this; cases this

end Verif
