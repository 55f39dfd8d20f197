import Verif.Lemmas.MateTests
import Verif.Lemmas.MateLines

/-!
The groups of `mateMoveIn1Ply` that put a piece next to the king find every mate of their kind.
-/

namespace Verif
open Spec Bitboard Position

/-! ### Loops -/

/-- A loop or a group that returns a move. -/
def Hit (o : Option Move) : Prop := ∃ m, o = some m

theorem hit_find {α : Type} {l : List α} {f : α → Option Move} {a : α} (ha : a ∈ l) (h : Hit (f a)) : Hit (l.findSome? f) := by
  obtain ⟨m, hm⟩ := h
  cases e : l.findSome? f with
  | some x => exact ⟨x, rfl⟩
  | none => rw [List.findSome?_eq_none_iff] at e; rw [e a ha] at hm; cases hm

theorem hit_left {a b : Option Move} (h : Hit a) : Hit (a <|> b) := by
  obtain ⟨m, rfl⟩ := h; exact ⟨m, rfl⟩

theorem hit_right {a b : Option Move} (h : Hit b) : Hit (a <|> b) := by
  cases a with
  | some x => exact ⟨x, rfl⟩
  | none => exact h

theorem hit_if {b : Bool} {x : Option Move} (hb : b = true) (h : Hit x) : Hit (if b = true then x else none) := by
  rw [if_pos hb]; exact h

/-! ### Contact -/

/-- The piece stands on the next square in one of its directions. -/
theorem contact_at {c : Color} {kt : Kind} {t k : Square} (h : Attacks c kt (fun _ => true) t k) :
    ∃ d ∈ kt.steps ++ kt.slides, At t (orient c d) 1 k := by
  rcases h with ⟨d, hd, h⟩ | ⟨d, hd, h⟩
  · exact ⟨d, List.mem_append_left _ hd, h⟩
  · refine ⟨d, List.mem_append_right _ hd, ?_⟩
    rw [← reach_all _ _ _ ((isDir_slides kt d hd).orient c)]
    have : (fun _ : Square => true) = allOne.isSet := by funext u; rw [isSet_allOne]
    rw [← this]; exact h

/-- An attack over nothing. -/
theorem contact_full {c : Color} {kt : Kind} {occ : Square → Bool} {t k : Square} (h : Attacks c kt occ t k) (hnb : ∀ u, ¬ Between t u k) :
    Attacks c kt (fun _ => true) t k :=
  attacks_mono' (fun u hu _ => absurd hu (hnb u)) h

theorem dirs_king (kt : Kind) (hk : kt ≠ .knight) : ∀ d ∈ kt.steps ++ kt.slides, d ∈ Kind.king.steps := by
  cases kt <;> first | exact absurd rfl hk | decide

theorem contact_adj {c : Color} (c' : Color) {kt : Kind} {t k : Square} (hk : kt ≠ .knight) (h : Attacks c kt (fun _ => true) t k) :
    StepAt c' .king k t := by
  obtain ⟨d, hd, ha⟩ := contact_at h
  rw [← isSet_king_step c' k t, back_king c k t (fun _ => true)]
  exact .inl ⟨d, dirs_king kt hk d hd, ha⟩

theorem contact_rook {c : Color} {t k : Square} (h : Attacks c .rook (fun _ => true) t k) : (rookStepAttacks k).isSet t = true := by
  obtain ⟨d, hd, h1, h2⟩ := contact_at h
  rw [isSet_rookStep, step_iff']
  obtain ⟨a, b⟩ := d
  cases c <;> simp [Kind.steps, Kind.slides, orth, orient] at hd h1 h2 ⊢ <;> omega

theorem contact_bishop {c : Color} {t k : Square} (h : Attacks c .bishop (fun _ => true) t k) : (bishopStepAttacks k).isSet t = true := by
  obtain ⟨d, hd, h1, h2⟩ := contact_at h
  rw [isSet_bishopStep, step_iff']
  obtain ⟨a, b⟩ := d
  cases c <;> simp [Kind.steps, Kind.slides, diag, orient] at hd h1 h2 ⊢ <;> omega

theorem contact_lance {c : Color} {t k : Square} (h : Attacks c .lance (fun _ => true) t k) : Attacks c .pawn (fun _ => true) t k := by
  obtain ⟨d, hd, h1⟩ := contact_at h
  exact .inl ⟨d, hd, h1⟩

/-! ### What the arriving piece attacks -/

section
variable {q' : Pos} {c : Color} {t k : Square}

theorem within_gold {kt : Kind} (hg : goldLike kt = true) : Within q' c kt t k (goldAttack c t) := by
  intro u _ hu
  refine ((C13_steps c t u (occWithout q'.occ k)).2.2.2.1 kt ?_).mpr hu
  cases kt <;> simp [goldLike] at hg ⊢

theorem within_silver : Within q' c .silver t k (silverAttack c t) :=
  fun u _ hu => (C13_steps c t u (occWithout q'.occ k)).2.2.1.mpr hu

/-- Pieces that only slide. -/
theorem within_slide {kt : Kind} (hs : kt.steps = []) {bb : Bitboard} (h : ∀ u, SlideLine c kt t u → bb.isSet u = true) :
    Within q' c kt t k bb := by
  intro u _ hu
  rcases (attacks_iff ..).mp hu with ⟨d, hd, -⟩ | e
  · rw [hs] at hd; cases hd
  · exact h u e.1

theorem within_rook : Within q' c .rook t k (rookAttackToEdge t) := within_slide rfl fun u => (isSet_rookEdge c t u).mpr
theorem within_bishop : Within q' c .bishop t k (bishopAttackToEdge t) := within_slide rfl fun u => (isSet_bishopEdge c t u).mpr
theorem within_lance : Within q' c .lance t k (lanceAttackToEdge c t) := within_slide rfl fun u => (isSet_lanceEdge c t u).mpr

/-- A rook covers what a lance covers. -/
theorem within_lance_rook : Within q' c .lance t k (rookAttackToEdge t) := by
  refine within_slide rfl fun u hu => (isSet_rookEdge c t u).mpr ?_
  obtain ⟨d, hd, h⟩ := hu
  exact ⟨d, (show ∀ d ∈ Kind.lance.slides, d ∈ Kind.rook.slides by decide) d hd, h⟩

theorem within_knight (hk : Attacks c .knight (fun _ => true) t k) : Within q' c .knight t k zero := by
  intro u hst hu
  exfalso
  have h1 := knight_coord hk
  have h2 := knight_coord hu
  have h3 := king_step_coord hst
  have h4 := king_step_ne hst
  refine h4 (sq_ext ?_ ?_)
  · omega
  · have : farRank c u = farRank c k := by omega
    unfold farRank at this
    cases c <;> simp only at this <;> omega

theorem within_pawn (hk : Attacks c .pawn (fun _ => true) t k) (bb : Bitboard) : Within q' c .pawn t k bb := by
  intro u hst hu
  exfalso
  rw [pawn_attack_iff] at hk hu
  refine king_step_ne hst (sq_ext (by omega) ?_)
  have : farRank c u = farRank c k := by omega
  unfold farRank at this
  cases c <;> simp only at this <;> omega

theorem within_horse {kt : Kind} (hkt : kt = .horse ∨ kt = .bishop) : Within q' c kt t k (bishopAttackToEdge t ||| kingAttack t) := by
  intro u _ hu
  rw [isSet_or, Bool.or_eq_true]
  rcases hkt with rfl | rfl
  · rcases (attacks_iff ..).mp hu with ⟨d, hd, h⟩ | e
    · right
      rw [isSet_king_step c]
      exact ⟨d, dirs_king .horse (by decide) d (List.mem_append_left _ hd), h⟩
    · left
      exact (isSet_bishopEdge c t u).mpr e.1
  · rcases (attacks_iff ..).mp hu with ⟨d, hd, -⟩ | e
    · cases hd
    · left
      exact (isSet_bishopEdge c t u).mpr e.1

theorem within_dragon {kt : Kind} (hkt : kt = .dragon ∨ kt = .rook) {occ : Bitboard}
    (ho : ∀ u w, Between t w u → occ.isSet w = true → occWithout q'.occ k w = true) : Within q' c kt t k (dragonAttack t occ) := by
  intro u _ hu
  refine (isSet_attacksFrom .dragon c t u occ).mpr (attacks_mono' (ho u) ?_)
  rcases hkt with rfl | rfl
  · exact hu
  · exact line_attack c (by decide) rfl hu

/-- Next to a king that stands in front of it, or diagonally in front, a silver covers no more than a gold. -/
theorem within_silver_gold (hk : Attacks c .silver (fun _ => true) t k) (hf : farRank c k < farRank c t) :
    (goldAttack c.opp k).isSet t = true ∧ Within q' c .silver t k (goldAttack c t) := by
  have h1 := (C13_steps c t k (fun _ => true)).2.2.1.mpr hk
  rw [isSet_silverAttack, step_iff] at h1
  unfold farRank at hf
  constructor
  · rw [isSet_goldAttack, step_iff]
    cases c <;> simp [Kind.steps, Kind.goldSteps, Color.opp] at h1 hf ⊢ <;> omega
  · intro u hst hu
    have h2 := (C13_steps c t u (occWithout q'.occ k)).2.2.1.mpr hu
    rw [isSet_silverAttack, step_iff] at h2
    have h3 := king_step_coord hst
    rw [isSet_goldAttack, step_iff]
    cases c <;> simp [Kind.steps, Kind.goldSteps] at h1 h2 hf ⊢ <;> omega

/-- Diagonally behind the king, the silver covers nothing else next to it. -/
theorem within_silver_bishop (hk : Attacks c .silver (fun _ => true) t k) (hf : ¬ farRank c k < farRank c t) (bb : Bitboard) :
    (bishopStepAttacks k).isSet t = true ∧ Within q' c .silver t k bb := by
  have h1 := (C13_steps c t k (fun _ => true)).2.2.1.mpr hk
  rw [isSet_silverAttack, step_iff] at h1
  unfold farRank at hf
  constructor
  · rw [isSet_bishopStep, step_iff']
    cases c <;> simp [Kind.steps, diag] at h1 hf ⊢ <;> omega
  · intro u hst hu
    exfalso
    have h2 := (C13_steps c t u (occWithout q'.occ k)).2.2.1.mpr hu
    rw [isSet_silverAttack, step_iff] at h2
    have h3 := king_step_coord hst
    refine king_step_ne hst (sq_ext ?_ ?_) <;> cases c <;> simp [Kind.steps] at h1 h2 hf ⊢ <;> omega

/-- Straight behind the king, a rook covers what a gold covers. -/
theorem within_gold_rook (hp : (pawnAttack c k).isSet t = true) : (rookStepAttacks k).isSet t = true ∧ Within q' c .gold t k (rookAttackToEdge t) := by
  have hp' := hp
  rw [isSet_pawnAttack, step_iff] at hp
  constructor
  · rw [isSet_rookStep, step_iff']
    cases c <;> simp [Kind.steps, orth] at hp ⊢ <;> omega
  · intro u hst hu
    have h2 := ((C13_steps c t u (occWithout q'.occ k)).2.2.2.1 .gold (by simp)).mpr hu
    rw [isSet_goldAttack, step_iff] at h2
    have h3 := king_step_coord hst
    have h4 : (rookStepAttacks t).isSet u = true := by
      rw [isSet_rookStep, step_iff']
      cases c <;> simp [Kind.steps, Kind.goldSteps, orth] at hp h2 ⊢ <;> omega
    rw [isSet_rookStep] at h4
    exact rook_of_step h4

end

end Verif
