import Verif.Lemmas.Lance

/-! Helper lemmas: step tables, between squares, alignment. -/

namespace Verif
open Bitboard Spec

/-- The square with given integer coordinates on the board. -/
theorem exists_square (x y : Int) (hx : 0 ≤ x ∧ x < 9) (hy : 0 ≤ y ∧ y < 9) : ∃ u : Square, X u = x ∧ Y u = y := by
  refine ⟨sqOf x.toNat y.toNat, ?_⟩
  unfold X Y
  rw [sqOf_val _ _ (by omega) (by omega)]
  omega

theorem X_bounds (s : Square) : 0 ≤ X s ∧ X s < 9 := by unfold X; omega
theorem Y_bounds (s : Square) : 0 ≤ Y s ∧ Y s < 9 := by unfold Y; omega

theorem sq_ext {s t : Square} (hx : X s = X t) (hy : Y s = Y t) : s = t := by
  unfold X Y at *
  apply Fin.ext
  omega

/-- The eight king directions. -/
def IsDir (d : Dir) : Prop := (d.1 = 0 ∨ d.1 = 1 ∨ d.1 = -1) ∧ (d.2 = 0 ∨ d.2 = 1 ∨ d.2 = -1) ∧ ¬ (d.1 = 0 ∧ d.2 = 0)

theorem isDir_mem {d : Dir} : d ∈ orth ++ diag ↔ IsDir d := by
  obtain ⟨x, y⟩ := d
  simp only [orth, diag, IsDir, List.cons_append, List.nil_append, List.mem_cons, Prod.mk.injEq, List.not_mem_nil, or_false]
  omega

theorem isDir_orth {d : Dir} (h : d ∈ orth) : IsDir d := isDir_mem.mp (List.mem_append_left _ h)
theorem isDir_diag {d : Dir} (h : d ∈ diag) : IsDir d := isDir_mem.mp (List.mem_append_right _ h)

theorem IsDir.neg {d : Dir} (h : IsDir d) : IsDir (-d.1, -d.2) := by
  unfold IsDir at *; simp only; omega

theorem IsDir.orient {d : Dir} (h : IsDir d) (c : Color) : IsDir (orient c d) := by
  cases c
  · exact h
  · exact h.neg

theorem at_prefix {s t : Square} {d : Dir} (hd : IsDir d) {j k : Nat} (hjk : j ≤ k) (h : At s d k t) :
    ∃ u, At s d j u := by
  obtain ⟨dx, dy⟩ := d
  unfold At at *
  simp only [IsDir] at *
  have h1 := X_bounds s
  have h2 := X_bounds t
  have h3 := Y_bounds s
  have h4 := Y_bounds t
  apply exists_square
  · rcases hd.1 with rfl | rfl | rfl <;> omega
  · rcases hd.2.1 with rfl | rfl | rfl <;> omega

theorem reach_all (s t : Square) (d : Dir) (hd : IsDir d) : Reach allOne.isSet s d t ↔ At s d 1 t := by
  constructor
  · rintro ⟨k, h1, h2, h3⟩
    by_cases hk : k = 1
    · subst hk; exact h2
    · obtain ⟨u, hu⟩ := at_prefix hd (j := 1) (by omega) h2
      have := h3 1 (by omega) (by omega) u hu
      simp at this
  · intro h
    exact ⟨1, by omega, h, fun j h1 h2 => by omega⟩

theorem isSet_rookAll (s t : Square) : (rookAttack s allOne).isSet t = true ↔ ∃ d ∈ orth, At s d 1 t := by
  rw [isSet_rookAttack]
  exact exists_congr fun d => and_congr_right fun hd => reach_all s t d (isDir_orth hd)

theorem isSet_bishopAll (s t : Square) : (bishopAttack s allOne).isSet t = true ↔ ∃ d ∈ diag, At s d 1 t := by
  rw [isSet_bishopAttack]
  exact exists_congr fun d => and_congr_right fun hd => reach_all s t d (isDir_diag hd)

theorem wf_kingAttack (s : Square) : (kingAttack s).WF := (wf_rookAttack _ _).or (wf_bishopAttack _ _)

theorem isSet_kingAttack (s t : Square) : (kingAttack s).isSet t = true ↔ ∃ d ∈ orth ++ diag, At s d 1 t := by
  unfold kingAttack
  rw [isSet_or, Bool.or_eq_true, isSet_rookAll, isSet_bishopAll]
  simp only [List.mem_append]
  constructor
  · rintro (⟨d, h, h'⟩ | ⟨d, h, h'⟩)
    · exact ⟨d, Or.inl h, h'⟩
    · exact ⟨d, Or.inr h, h'⟩
  · rintro ⟨d, h | h, h'⟩
    · exact Or.inl ⟨d, h, h'⟩
    · exact Or.inr ⟨d, h, h'⟩

theorem isSet_front (c : Color) (s t : Square) :
    (inFrontMask c (rank s)).isSet t = true ↔ (match c with | .black => Y t < Y s | .white => Y s < Y t) := by
  rw [isSet_inFront c _ (rank_lt s)]
  cases c <;> simp only [rank, Y] <;> omega

theorem wf_front (c : Color) (s : Square) : (inFrontMask c (rank s)).WF := wf_inFront c _ (rank_lt s)

/-- Membership in explicit lists of displacements, in coordinates. -/
theorem step_iff (l : List Dir) (c : Color) (s t : Square) :
    (∃ d ∈ l, At s (orient c d) 1 t) ↔
      (match c with | .black => (X t - X s, Y t - Y s) ∈ l | .white => (X s - X t, Y s - Y t) ∈ l) := by
  constructor
  · rintro ⟨⟨dx, dy⟩, hd, h⟩
    cases c <;> simp only [orient, At] at h ⊢
    · have : (X t - X s, Y t - Y s) = (dx, dy) := by ext <;> simp only <;> omega
      rw [this]; exact hd
    · have : (X s - X t, Y s - Y t) = (dx, dy) := by ext <;> simp only <;> omega
      rw [this]; exact hd
  · intro h
    cases c <;> simp only at h
    · exact ⟨_, h, by simp only [orient, At]; omega⟩
    · exact ⟨_, h, by simp only [orient, At]; omega⟩

theorem step_iff' (l : List Dir) (s t : Square) : (∃ d ∈ l, At s d 1 t) ↔ (X t - X s, Y t - Y s) ∈ l :=
  step_iff l .black s t

theorem isSet_goldAttack (c : Color) (s t : Square) :
    (goldAttack c s).isSet t = true ↔ ∃ d ∈ Kind.goldSteps, At s (orient c d) 1 t := by
  unfold goldAttack
  rw [isSet_or, Bool.or_eq_true, isSet_and, Bool.and_eq_true, isSet_kingAttack, isSet_front, isSet_rookAll,
    step_iff, step_iff', step_iff']
  simp only [orth, diag, Kind.goldSteps, List.cons_append, List.nil_append, List.mem_cons, Prod.mk.injEq,
    List.not_mem_nil, or_false]
  cases c <;> simp only <;> omega

theorem wf_goldAttack (c : Color) (s : Square) : (goldAttack c s).WF :=
  (wf_kingAttack s).and_left.or (wf_rookAttack _ _)

theorem isSet_silverAttack (c : Color) (s t : Square) :
    (silverAttack c s).isSet t = true ↔ ∃ d ∈ Kind.silver.steps, At s (orient c d) 1 t := by
  unfold silverAttack
  rw [isSet_or, Bool.or_eq_true, isSet_and, Bool.and_eq_true, isSet_kingAttack, isSet_front, isSet_bishopAll,
    step_iff, step_iff', step_iff']
  simp only [orth, diag, Kind.steps, List.cons_append, List.nil_append, List.mem_cons, Prod.mk.injEq,
    List.not_mem_nil, or_false]
  cases c <;> simp only <;> omega

theorem wf_silverAttack (c : Color) (s : Square) : (silverAttack c s).WF :=
  (wf_kingAttack s).and_left.or (wf_bishopAttack _ _)

theorem isSet_pawnAttack (c : Color) (s t : Square) :
    (pawnAttack c s).isSet t = true ↔ ∃ d ∈ Kind.pawn.steps, At s (orient c d) 1 t := by
  have hx : ∀ a b : Bool, (a ^^ b) = true ↔ ((a = true ∧ ¬ b = true) ∨ (¬ a = true ∧ b = true)) := by decide
  unfold pawnAttack
  rw [isSet_xor, hx, isSet_silverAttack, isSet_bishopAll, step_iff, step_iff', step_iff]
  simp only [diag, Kind.steps, List.mem_cons, Prod.mk.injEq,
    List.not_mem_nil, or_false]
  cases c <;> simp only <;> omega

theorem wf_pawnAttack (c : Color) (s : Square) : (pawnAttack c s).WF := (wf_silverAttack c s).xor (wf_bishopAttack _ _)

theorem isSet_bishopStep (s t : Square) : (bishopStepAttacks s).isSet t = true ↔ ∃ d ∈ diag, At s d 1 t := by
  unfold bishopStepAttacks
  rw [isSet_and, Bool.and_eq_true, isSet_silverAttack, isSet_silverAttack, step_iff, step_iff, step_iff']
  simp only [diag, Kind.steps, List.mem_cons, Prod.mk.injEq,
    List.not_mem_nil, or_false]
  omega

theorem isSet_rookStep (s t : Square) : (rookStepAttacks s).isSet t = true ↔ ∃ d ∈ orth, At s d 1 t := by
  unfold rookStepAttacks
  rw [isSet_and, Bool.and_eq_true, isSet_goldAttack, isSet_goldAttack, step_iff, step_iff, step_iff']
  simp only [orth, Kind.goldSteps, List.mem_cons, Prod.mk.injEq,
    List.not_mem_nil, or_false]
  omega

theorem isSet_goldAndSilver (c : Color) (s t : Square) :
    (goldAndSilverAttacks c s).isSet t = true ↔ ∃ d ∈ ([(-1, -1), (0, -1), (1, -1)] : List Dir), At s (orient c d) 1 t := by
  unfold goldAndSilverAttacks
  rw [isSet_and, Bool.and_eq_true, isSet_goldAttack, isSet_silverAttack, step_iff, step_iff, step_iff]
  simp only [Kind.steps, Kind.goldSteps, List.mem_cons, Prod.mk.injEq,
    List.not_mem_nil, or_false]
  cases c <;> simp only <;> omega

theorem isSet_knightAttack (c : Color) (s t : Square) :
    (knightAttack c s).isSet t = true ↔ ∃ d ∈ Kind.knight.steps, At s (orient c d) 1 t := by
  unfold knightAttack
  simp only
  by_cases h : (pawnAttack c s).isAny = true
  · rw [if_pos h]
    obtain ⟨p, hp⟩ := (wf_pawnAttack c s).isAny_iff.mp h
    have hf : (pawnAttack c s).first = p.val := by
      refine (wf_pawnAttack c s).first_eq p hp (fun q hq => ?_)
      have : p = q := by
        rw [isSet_pawnAttack, step_iff] at hp hq
        simp only [Kind.steps, List.mem_cons, Prod.mk.injEq, List.not_mem_nil, or_false] at hp hq
        apply sq_ext <;> cases c <;> simp only at hp hq <;> omega
      rw [this]
    have hsq : sqN (pawnAttack c s).first = p := by
      rw [hf]; apply Fin.ext; unfold sqN Fin.ofNat; simp only; omega
    rw [hsq, isSet_and, Bool.and_eq_true, isSet_bishopStep, isSet_front, step_iff', step_iff]
    rw [isSet_pawnAttack, step_iff] at hp
    simp only [diag, Kind.steps, List.mem_cons, Prod.mk.injEq, List.not_mem_nil, or_false] at hp ⊢
    cases c <;> simp only at hp ⊢ <;> omega
  · rw [if_neg h, isSet_zero]
    constructor
    · intro h; cases h
    · intro hk
      exfalso
      apply h
      rw [(wf_pawnAttack c s).isAny_iff]
      rw [step_iff] at hk
      simp only [Kind.steps, List.mem_cons, Prod.mk.injEq, List.not_mem_nil, or_false] at hk
      have := X_bounds s
      have := Y_bounds s
      have := X_bounds t
      have := Y_bounds t
      obtain ⟨u, h1, h2⟩ := exists_square (X s) (match c with | .black => Y s - 1 | .white => Y s + 1) (by omega)
        (by cases c <;> simp only at hk ⊢ <;> omega)
      refine ⟨u, ?_⟩
      rw [isSet_pawnAttack, step_iff]
      simp only [Kind.steps, List.mem_cons, Prod.mk.injEq, List.not_mem_nil, or_false]
      cases c <;> simp only at h2 ⊢ <;> omega

theorem wf_knightAttack (c : Color) (s : Square) : (knightAttack c s).WF := by
  unfold knightAttack
  simp only
  split
  · exact (wf_silverAttack _ _).and_left.and_left
  · exact WF.zero

theorem wf_dragonAttack (s : Square) (occ : Bitboard) : (dragonAttack s occ).WF :=
  (wf_rookAttack _ _).or (wf_kingAttack _)
theorem wf_horseAttack (s : Square) (occ : Bitboard) : (horseAttack s occ).WF :=
  (wf_bishopAttack _ _).or (wf_kingAttack _)
theorem wf_queenAttack (s : Square) (occ : Bitboard) : (queenAttack s occ).WF :=
  (wf_rookAttack _ _).or (wf_bishopAttack _ _)

theorem reach_of_at_one {occ : Square → Bool} {s : Square} {d : Dir} {t : Square} (h : At s d 1 t) :
    Reach occ s d t := ⟨1, by omega, h, fun j h1 h2 => by omega⟩

theorem isSet_dragonAttack (s : Square) (occ : Bitboard) (t : Square) :
    (dragonAttack s occ).isSet t = true ↔ (∃ d ∈ diag, At s d 1 t) ∨ ∃ d ∈ orth, Reach occ.isSet s d t := by
  unfold dragonAttack
  rw [isSet_or, Bool.or_eq_true, isSet_rookAttack, isSet_kingAttack]
  constructor
  · rintro (h | ⟨d, hd, h⟩)
    · exact Or.inr h
    · rcases List.mem_append.mp hd with hd | hd
      · exact Or.inr ⟨d, hd, reach_of_at_one h⟩
      · exact Or.inl ⟨d, hd, h⟩
  · rintro (⟨d, hd, h⟩ | h)
    · exact Or.inr ⟨d, List.mem_append_right _ hd, h⟩
    · exact Or.inl h

theorem isSet_horseAttack (s : Square) (occ : Bitboard) (t : Square) :
    (horseAttack s occ).isSet t = true ↔ (∃ d ∈ orth, At s d 1 t) ∨ ∃ d ∈ diag, Reach occ.isSet s d t := by
  unfold horseAttack
  rw [isSet_or, Bool.or_eq_true, isSet_bishopAttack, isSet_kingAttack]
  constructor
  · rintro (h | ⟨d, hd, h⟩)
    · exact Or.inr h
    · rcases List.mem_append.mp hd with hd | hd
      · exact Or.inl ⟨d, hd, h⟩
      · exact Or.inr ⟨d, hd, reach_of_at_one h⟩
  · rintro (⟨d, hd, h⟩ | h)
    · exact Or.inr ⟨d, List.mem_append_left _ hd, h⟩
    · exact Or.inl h

/-! ### Relations -/

theorem squareRelation_eq (s t : Square) :
    squareRelation s t =
      (if X s = X t ∧ Y s = Y t then 0 else if X s = X t then 2 else if Y s = Y t then 3
       else if Y s - Y t = X s - X t then 4 else if Y s - Y t = X t - X s then 5 else 0) := by
  unfold squareRelation
  have hst : s = t ↔ X s = X t ∧ Y s = Y t := ⟨fun h => by subst h; exact ⟨rfl, rfl⟩, fun h => sq_ext h.1 h.2⟩
  simp only [hst]
  have h1 : file s = file t ↔ X s = X t := by unfold file X; omega
  have h2 : rank s = rank t ↔ Y s = Y t := by unfold rank Y; omega
  have h3 : (rank s : Int) = Y s := by unfold rank Y; omega
  have h4 : (rank t : Int) = Y t := by unfold rank Y; omega
  have h5 : (file s : Int) = X s := by unfold file X; omega
  have h6 : (file t : Int) = X t := by unfold file X; omega
  simp only [h1, h2, h3, h4, h5, h6]

theorem squareRelation_ne_zero (s t : Square) : squareRelation s t ≠ 0 ↔ Aligned2 s t := by
  rw [squareRelation_eq]
  unfold Aligned2 At
  constructor
  · intro h
    split at h
    · exact absurd rfl h
    · rename_i h0
      split at h
      · rename_i hx
        by_cases hlt : Y s < Y t
        · exact ⟨(0, 1), by simp [orth], (Y t - Y s).toNat, by omega, by simp only; omega⟩
        · exact ⟨(0, -1), by simp [orth], (Y s - Y t).toNat, by omega, by simp only; omega⟩
      · rename_i hx
        split at h
        · by_cases hlt : X s < X t
          · exact ⟨(1, 0), by simp [orth], (X t - X s).toNat, by omega, by simp only; omega⟩
          · exact ⟨(-1, 0), by simp [orth], (X s - X t).toNat, by omega, by simp only; omega⟩
        · rename_i hy
          split at h
          · by_cases hlt : X s < X t
            · exact ⟨(1, 1), by simp [diag], (X t - X s).toNat, by omega, by simp only; omega⟩
            · exact ⟨(-1, -1), by simp [diag], (X s - X t).toNat, by omega, by simp only; omega⟩
          · split at h
            · by_cases hlt : X s < X t
              · exact ⟨(1, -1), by simp [diag], (X t - X s).toNat, by omega, by simp only; omega⟩
              · exact ⟨(-1, 1), by simp [diag], (X s - X t).toNat, by omega, by simp only; omega⟩
            · exact absurd rfl h
  · rintro ⟨⟨dx, dy⟩, hd, k, hk, h1, h2⟩ h
    rw [isDir_mem] at hd
    simp only [IsDir] at hd h1 h2
    obtain ⟨ha, hb, hc⟩ := hd
    rcases ha with rfl | rfl | rfl <;> rcases hb with rfl | rfl | rfl <;>
      (split at h <;> try omega) <;> (split at h <;> try omega) <;> (split at h <;> try omega) <;>
      (split at h <;> try omega) <;> (split at h <;> try omega)

/-- The code of a direction. -/
def dirRel (d : Dir) : Nat := if d.1 = 0 then 2 else if d.2 = 0 then 3 else if d.1 = d.2 then 4 else 5

theorem rel_of_line {s t : Square} {d : Dir} (hd : IsDir d) (h : Line s d t) : squareRelation s t = dirRel d := by
  obtain ⟨dx, dy⟩ := d
  obtain ⟨k, hk, h1, h2⟩ := h
  obtain ⟨ha, hb, hc⟩ := hd
  simp only at ha hb hc h1 h2
  rw [squareRelation_eq]
  unfold dirRel
  simp only
  rcases ha with rfl | rfl | rfl <;> rcases hb with rfl | rfl | rfl <;> (repeat' split) <;> omega

theorem dirRel_inj {d e : Dir} (hd : IsDir d) (he : IsDir e) :
    dirRel d = dirRel e ↔ e = d ∨ e = (-d.1, -d.2) := by
  rw [← isDir_mem] at hd he
  have : ∀ d ∈ orth ++ diag, ∀ e ∈ orth ++ diag, (dirRel d = dirRel e ↔ e = d ∨ e = (-d.1, -d.2)) := by decide
  exact this d hd e he

/-- Same relation from `s`: same line through `s`. -/
theorem squareRelation_line (s t u : Square) (ht : squareRelation s t ≠ 0) :
    squareRelation s t = squareRelation s u ↔
      ∃ d, IsDir d ∧ (Line s d t ∧ (Line s d u ∨ Line s (-d.1, -d.2) u)) := by
  constructor
  · intro h
    obtain ⟨d, hd, hk⟩ := (squareRelation_ne_zero s t).mp ht
    obtain ⟨e, he, hm⟩ := (squareRelation_ne_zero s u).mp (h ▸ ht)
    rw [isDir_mem] at hd he
    rw [rel_of_line hd hk, rel_of_line he hm, dirRel_inj hd he] at h
    refine ⟨d, hd, hk, ?_⟩
    rcases h with rfl | rfl
    · exact Or.inl hm
    · exact Or.inr hm
  · rintro ⟨d, hd, h1, h2 | h2⟩
    · rw [rel_of_line hd h1, rel_of_line hd h2]
    · rw [rel_of_line hd h1, rel_of_line hd.neg h2, dirRel_inj hd hd.neg]
      exact Or.inr rfl

end Verif
