import Mathlib.Algebra.Order.Field.Rat
import Mathlib.Tactic.Linarith
import Mathlib.Tactic.Positivity
import Mathlib.Tactic.FieldSimp
import Mathlib.Tactic.IntervalCases
import Verif.Spec.Svg
import Verif.Lemmas.Ki2Moves

/-!
# Lemmas about drawings
-/

namespace Verif.Svg
open Verif.Spec

/-! ### Places -/

/-- Texts that are no label of a file or a rank. -/
theorem file_append {a b : List Item} (h : ∀ x, Spec.Svg.file a x = none) (x : Rat) : Spec.Svg.file (a ++ b) x = Spec.Svg.file b x := by
  have := h x
  unfold Spec.Svg.file at this ⊢
  rw [List.findSome?_append, this]; rfl

theorem rank_append {a b : List Item} (h : ∀ x, Spec.Svg.rank a x = none) (x : Rat) : Spec.Svg.rank (a ++ b) x = Spec.Svg.rank b x := by
  have := h x
  unfold Spec.Svg.rank at this ⊢
  rw [List.findSome?_append, this]; rfl

theorem file_marks (m : Option Move) (x : Rat) : Spec.Svg.file (marks m) x = none := by
  cases m with
  | none => rfl
  | some m => unfold marks; dsimp only; split <;> rfl

theorem rank_marks (m : Option Move) (x : Rat) : Spec.Svg.rank (marks m) x = none := by
  cases m with
  | none => rfl
  | some m => unfold marks; dsimp only; split <;> rfl

theorem place_coordinates : ∀ s : Square, (Spec.Svg.file coordinates (left s.val)) = some (s.val / 9) ∧
    Spec.Svg.rank coordinates (top s.val) = some (s.val % 9) := by decide +kernel

theorem place_at (p : Position) (m : Option Move) (s : Square) : Spec.Svg.place (toSvg p m) (left s.val) (top s.val) = some s.val := by
  obtain ⟨h1, h2⟩ := place_coordinates s
  have e1 : Spec.Svg.file (toSvg p m) (left s.val) = some (s.val / 9) := by
    unfold toSvg
    simp only [List.append_assoc]
    rw [file_append (file_marks m)]
    unfold Spec.Svg.file at h1 ⊢
    rw [List.findSome?_append, h1]; rfl
  have e2 : Spec.Svg.rank (toSvg p m) (top s.val) = some (s.val % 9) := by
    unfold toSvg
    simp only [List.append_assoc]
    rw [rank_append (rank_marks m)]
    unfold Spec.Svg.rank at h2 ⊢
    rw [List.findSome?_append, h2]; rfl
  unfold Spec.Svg.place
  rw [e1, e2, Option.bind_some, Option.map_some]
  congr 1; omega

/-! ### The board -/

theorem shows_piece (c : Color) (k : Kind) : pieceCode (some (c, k)) ≠ 0 ∧
    Spec.Svg.shows ('#' :: (defIds[pieceCode (some (c, k))]?).getD []) = some (Spec.Svg.name k, decide (c = .white)) := by
  cases c <;> cases k <;> decide +kernel

/-! ### The columns -/

/-- The texts for one kind, without their numbers. -/
def cellsOf (hp n : Nat) : List (List Char) := (handStep 0 hp n).map (·.2)

theorem handStep_eq (i hp n : Nat) : handStep i hp n = ((cellsOf hp n).zipIdx i).map (fun x => (x.2, x.1)) := by
  unfold cellsOf handStep
  by_cases h1 : 11 ≤ n
  · have h2 : 1 ≤ n := by omega
    simp [h1, h2]
  · by_cases h2 : 2 ≤ n
    · have h3 : 1 ≤ n := by omega
      simp [h1, h2, h3]
    · by_cases h3 : 1 ≤ n
      · simp [h1, h2, h3]
      · simp [h1, h2, h3]

theorem handLoop_eq : ∀ (l : List (Nat × Nat)) (i : Nat), handLoop i l =
    (((l.flatMap fun x => cellsOf x.1 x.2).zipIdx i).map (fun x => (x.2, x.1)), i + (l.flatMap fun x => cellsOf x.1 x.2).length)
  | [], i => by simp [handLoop]
  | (hp, n) :: l, i => by
    have hl : (handStep i hp n).length = (cellsOf hp n).length := by rw [handStep_eq]; simp
    rw [handLoop, hl, handLoop_eq l, handStep_eq]
    simp only [List.flatMap_cons, List.zipIdx_append, List.map_append, List.length_append]
    rw [Nat.add_assoc]

/-- The column of a player from the bottom, without the numbers. -/
def cellsUp (p : Position) (c : Color) : List (List Char) := ((List.range 7).zip (p.piecesInHand c)).flatMap fun x => cellsOf x.1 x.2

def titleUp (c : Color) : List (List Char) := [['手'], if c = .black then ['先'] else ['後'], if c = .black then ['☗'] else ['☖']]

theorem handPieces_eq (p : Position) (c : Color) : handPieces p c =
    ((cellsUp p c).zipIdx.map fun x => (x.2, x.1)) ++ ((titleUp c).zipIdx ((cellsUp p c).length + 1)).map fun x => (x.2, x.1) := by
  unfold handPieces
  rw [handLoop_eq]
  simp [cellsUp, titleUp]

theorem handPieces_length (p : Position) (c : Color) : (handPieces p c).length = (cellsUp p c).length + 3 := by
  rw [handPieces_eq]; simp [titleUp]

theorem handPieces_chars (p : Position) (c : Color) : (handPieces p c).map (·.2) = cellsUp p c ++ titleUp c := by
  rw [handPieces_eq]
  simp only [List.map_append, List.map_map]
  congr 1
  exact List.zipIdx_map_fst _ _

theorem handPieces_index (p : Position) (c : Color) : (handPieces p c).Pairwise fun a b => a.1 < b.1 := by
  rw [handPieces_eq]
  have key : ∀ (l : List (List Char)) (n : Nat), ((l.zipIdx n).map fun x => (x.2, x.1)).Pairwise fun a b => a.1 < b.1 := by
    intro l n
    rw [List.pairwise_map]
    induction l generalizing n with
    | nil => exact List.Pairwise.nil
    | cons a l ih =>
      rw [List.zipIdx_cons]
      refine List.Pairwise.cons ?_ (ih (n + 1))
      intro x hx
      have := List.snd_lt_add_of_mem_zipIdx hx
      have h2 := List.le_snd_of_mem_zipIdx hx
      show n < x.2
      omega
  refine List.pairwise_append.mpr ⟨key _ _, key _ _, ?_⟩
  intro a ha b hb
  obtain ⟨x, hx, rfl⟩ := List.mem_map.mp ha
  obtain ⟨y, hy, rfl⟩ := List.mem_map.mp hb
  have h1 := List.snd_lt_add_of_mem_zipIdx hx
  have h2 := List.le_snd_of_mem_zipIdx hy
  show x.2 < y.2
  omega

theorem handPieces_bound (p : Position) (c : Color) : ∀ x ∈ handPieces p c, x.1 ≤ (handPieces p c).length := by
  intro x hx
  rw [handPieces_length]
  rw [handPieces_eq] at hx
  rcases List.mem_append.mp hx with h | h
  · obtain ⟨y, hy, rfl⟩ := List.mem_map.mp h
    have := List.snd_lt_add_of_mem_zipIdx hy
    show y.2 ≤ _
    omega
  · obtain ⟨y, hy, rfl⟩ := List.mem_map.mp h
    have := List.snd_lt_add_of_mem_zipIdx hy
    have h3 : (titleUp c).length = 3 := rfl
    show y.2 ≤ _
    omega

/-! ### Sizes -/

theorem scale_pos (n : Nat) : 0 < scaleOf n := by
  unfold scaleOf
  split
  · positivity
  · norm_num

theorem scale_le (n : Nat) : scaleOf n * (n + 1) ≤ 13 := by
  unfold scaleOf
  have h : (0 : Rat) < (n : Rat) + 1 := by positivity
  split
  · rw [div_mul_cancel₀ _ (ne_of_gt h)]
  · next h1 =>
    have : n + 1 ≤ 13 := by omega
    have h2 : ((n + 1 : Nat) : Rat) ≤ ((13 : Nat) : Rat) := Nat.cast_le.mpr this
    push_cast at h2
    linarith

theorem scale_one (n : Nat) : scaleOf n ≤ 1 := by
  unfold scaleOf
  have h : (0 : Rat) < (n : Rat) + 1 := by positivity
  split
  · next h1 =>
    rw [div_le_one h]
    have h2 : ((13 : Nat) : Rat) ≤ ((n + 1 : Nat) : Rat) := Nat.cast_le.mpr (by omega)
    push_cast at h2
    linarith
  · exact le_refl _

/-! ### Reading a column -/

theorem counts_digits (h : HKind) (n : Nat) (h2 : 2 ≤ n) (h18 : n ≤ 18) (l : List Char) :
    Spec.Svg.counts (some (h, 0)) (((if 11 ≤ n then [kanji (n % 10), kanji 10] else [kanji n]).reverse.flatten) ++ l) =
      Spec.Svg.counts (some (h, n)) l := by
  interval_cases n <;> rfl

/-- The characters for one kind, from the top. -/
theorem cells_down (hp n : Nat) : (cellsOf hp n).reverse.flatten = if n = 0 then [] else if n = 1 then handSymbol hp else
    handSymbol hp ++ (if 11 ≤ n then [kanji (n % 10), kanji 10] else [kanji n]).reverse.flatten := by
  unfold cellsOf handStep
  by_cases h1 : 11 ≤ n
  · rw [if_neg (show ¬ n = 0 by omega), if_neg (show ¬ n = 1 by omega)]
    have h2 : 1 ≤ n := by omega
    simp [h1, h2]
  · by_cases h2 : 2 ≤ n
    · rw [if_neg (show ¬ n = 0 by omega), if_neg (show ¬ n = 1 by omega)]
      have h3 : 1 ≤ n := by omega
      simp [h1, h2, h3]
    · by_cases h3 : n = 1
      · subst h3; simp
      · have : n = 0 := by omega
        subst this; rfl

theorem counts_kind (cur : Option (HKind × Nat)) (h : HKind) (n : Nat) (h18 : n ≤ 18) (l : List Char) :
    Spec.Svg.counts cur ((cellsOf h.code n).reverse.flatten ++ l) =
      if n = 0 then Spec.Svg.counts cur l
      else (Spec.Svg.counts (some (h, if n = 1 then 0 else n)) l).map (Spec.Svg.once cur ++ ·) := by
  obtain ⟨c, hc, hk⟩ : ∃ c, handSymbol h.code = [c] ∧ Spec.Svg.kindOf c = some h := by
    cases h <;> exact ⟨_, rfl, by decide⟩
  rw [cells_down]
  by_cases h0 : n = 0
  · rw [if_pos h0, if_pos h0]; rfl
  · rw [if_neg h0, if_neg h0, hc]
    by_cases h1 : n = 1
    · rw [if_pos h1, if_pos h1, List.singleton_append, Spec.Svg.counts, hk]
    · rw [if_neg h1, if_neg h1, List.append_assoc, List.singleton_append, Spec.Svg.counts, hk]
      dsimp only
      rw [counts_digits h n (by omega) h18]

theorem counts_kinds (f : HKind → Nat) (hf : ∀ h, f h ≤ 18) : ∀ (l : List HKind) (cur : Option (HKind × Nat)),
    Spec.Svg.counts cur (l.flatMap fun h => (cellsOf h.code (f h)).reverse.flatten) =
      some (Spec.Svg.once cur ++ (l.filter fun h => f h ≠ 0).map fun h => (h, f h))
  | [], cur => by simp [Spec.Svg.counts]
  | h :: l, cur => by
    rw [List.flatMap_cons, counts_kind cur h (f h) (hf h)]
    by_cases h0 : f h = 0
    · rw [if_pos h0, counts_kinds f hf l cur]
      simp [h0]
    · rw [if_neg h0, counts_kinds f hf l]
      have e : Spec.Svg.once (some (h, if f h = 1 then 0 else f h)) = [(h, f h)] := by
        unfold Spec.Svg.once
        by_cases h1 : f h = 1
        · simp [h1]
        · simp [h1, h0]
      rw [e, Option.map_some]
      simp [h0]

/-- The kinds of pieces in a column from the top. -/
def kindsDown : List HKind := [.rook, .bishop, .gold, .silver, .knight, .lance, .pawn]

theorem cellsUp_down (p : Position) (c : Color) : (cellsUp p c).reverse.flatten =
    kindsDown.flatMap fun h => (cellsOf h.code ((absPos p).hand c h)).reverse.flatten := by
  have e : cellsUp p c = cellsOf 0 ((absPos p).hand c .pawn) ++ (cellsOf 1 ((absPos p).hand c .lance) ++ (cellsOf 2 ((absPos p).hand c .knight) ++
      (cellsOf 3 ((absPos p).hand c .silver) ++ (cellsOf 4 ((absPos p).hand c .gold) ++ (cellsOf 5 ((absPos p).hand c .bishop) ++
      (cellsOf 6 ((absPos p).hand c .rook) ++ [])))))) := rfl
  have e2 : ∀ g : HKind → List Char, kindsDown.flatMap g = g .rook ++ (g .bishop ++ (g .gold ++ (g .silver ++ (g .knight ++ (g .lance ++ (g .pawn ++ [])))))) :=
    fun g => rfl
  rw [e, e2]
  simp only [List.reverse_append, List.flatten_append, List.append_assoc, List.append_nil]
  rfl

end Verif.Svg
