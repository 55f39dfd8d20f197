import Verif.Lemmas.CheckMoves

/-!
A line piece standing on a line with the king: the only ways to give check with it.
-/

namespace Verif
open Spec Bitboard Position

theorem at_same {s t u : Square} {d : Dir} {n : Nat} (h1 : At s d n t) (h2 : At s d n u) : t = u :=
  sq_ext (by rw [h1.1, h2.1]) (by rw [h1.2, h2.2])

/-- Directions and distances for a bishop or horse on a diagonal with the king. -/
theorem diag_coord {f t k : Square} {d e g : Dir} {m n j : Nat} (hd : d ∈ diag) (hm : 1 ≤ m) (hn : 1 ≤ n) (hj : 1 ≤ j)
    (h1 : At f d m k) (h2 : At f e n t) (h3 : At t g j k) (he : (e ∈ orth ∧ n = 1) ∨ e ∈ diag) (hg : (g ∈ orth ∧ j = 1) ∨ g ∈ diag) :
    (e = d ∧ n < m ∧ g = d ∧ n + j = m) ∨ (e = d ∧ m < n) ∨ (g = d ∧ m + n = j) ∨ m = 1 := by
  obtain ⟨a1, a2⟩ := h1
  obtain ⟨b1, b2⟩ := h2
  obtain ⟨c1, c2⟩ := h3
  simp only [orth, diag, List.mem_cons, List.not_mem_nil, or_false] at hd he hg
  rcases hd with rfl | rfl | rfl | rfl <;> rcases he with ⟨rfl | rfl | rfl | rfl, rfl⟩ | rfl | rfl | rfl | rfl <;>
    rcases hg with ⟨rfl | rfl | rfl | rfl, rfl⟩ | rfl | rfl | rfl | rfl <;>
    simp only [Prod.mk.injEq, Int.reduceEq, Int.reduceNeg, true_and, false_and, and_true, and_false, false_or, or_false] at a1 a2 b1 b2 c1 c2 ⊢ <;> omega

/-- Directions and distances for a rook or dragon on a file or rank with the king. -/
theorem orth_coord {f t k : Square} {d e g : Dir} {m n j : Nat} (hd : d ∈ orth) (hm : 1 ≤ m) (hn : 1 ≤ n) (hj : 1 ≤ j)
    (h1 : At f d m k) (h2 : At f e n t) (h3 : At t g j k) (he : (e ∈ diag ∧ n = 1) ∨ e ∈ orth) (hg : (g ∈ diag ∧ j = 1) ∨ g ∈ orth) :
    (e = d ∧ n < m ∧ g = d ∧ n + j = m) ∨ (e = d ∧ m < n) ∨ (g = d ∧ m + n = j) ∨ m = 1 ∨ (e ∈ diag ∧ n = 1 ∧ g ∈ diag ∧ j = 1) := by
  obtain ⟨a1, a2⟩ := h1
  obtain ⟨b1, b2⟩ := h2
  obtain ⟨c1, c2⟩ := h3
  simp only [orth, diag, List.mem_cons, List.not_mem_nil, or_false] at hd he hg
  rcases hd with rfl | rfl | rfl | rfl <;> rcases he with ⟨rfl | rfl | rfl | rfl, rfl⟩ | rfl | rfl | rfl | rfl <;>
    rcases hg with ⟨rfl | rfl | rfl | rfl, rfl⟩ | rfl | rfl | rfl | rfl <;>
    simp only [diag, List.mem_cons, List.not_mem_nil, Prod.mk.injEq, Int.reduceEq, Int.reduceNeg, true_and, false_and, and_true, and_false, false_or, or_false, true_or, or_true] at a1 a2 b1 b2 c1 c2 ⊢ <;> omega

/-- Travelling to `t` and on to `k` in one direction passes over free squares only, except `t`. -/
theorem through_free {occ : Square → Bool} {f t k : Square} {d : Dir} {m n j : Nat} (hd : IsDir d) (hn : 1 ≤ n) (hj : 1 ≤ j) (hm : n + j = m)
    (h1 : At f d m k) (h2 : At f d n t) (p1 : ∀ i, 1 ≤ i → i < n → ∀ u, At f d i u → occ u = false)
    (p2 : ∀ i, 1 ≤ i → i < j → ∀ u, At t d i u → occ u = false) (hna : ¬ Reach occ f d k) :
    Between f t k ∧ (∀ u, Between f u k → u ≠ t → occ u = false) ∧ occ t = true := by
  have hfree : ∀ i u, 1 ≤ i → i < m → At f d i u → u ≠ t → occ u = false := by
    intro i u hi him hu hne
    rcases Nat.lt_trichotomy i n with hlt | heq | hgt
    · exact p1 i hi hlt u hu
    · subst heq; exact absurd (at_same hu h2) hne
    · exact p2 (i - n) (by omega) (by omega) u (at_sub (by omega) h2 hu)
  refine ⟨⟨d, isDir_mem.mpr hd, n, m, hn, by omega, h2, h1⟩, ?_, ?_⟩
  · rintro u ⟨d', hd', i, i', hi, hii, a1, a2⟩ hne
    have : d' = d := line_dir_unique (isDir_mem.mp hd') hd ⟨i', by omega, a2⟩ ⟨m, by omega, h1⟩
    subst this
    have hmm : i' = m := by
      obtain ⟨x1, x2⟩ := a2
      obtain ⟨y1, y2⟩ := h1
      obtain ⟨e1, e2, e3⟩ := hd
      rcases e1 with e | e | e <;> rcases e2 with e' | e' | e' <;> simp only [e, e'] at x1 x2 y1 y2 e3 <;> first | omega | exact absurd ⟨trivial, trivial⟩ e3
    exact hfree i u hi (by omega) a1 hne
  · by_contra ho
    rw [Bool.not_eq_true] at ho
    refine hna ⟨m, by omega, h1, fun i hi him u hu => ?_⟩
    by_cases hut : u = t
    · rw [hut]; exact ho
    · exact hfree i u hi him hu hut

section
variable {occ : Square → Bool} {f t k : Square} {d : Dir} {m : Nat} (hof : occ f = true) (hok : occ k = true)
include hof hok

/-- A bishop or horse on a diagonal with the king gives check only by capturing the single piece between. -/
theorem diag_through (hd : d ∈ diag) (hm : 1 ≤ m) (h1 : At f d m k)
    (hat : (∃ e ∈ orth, At f e 1 t) ∨ ∃ e ∈ diag, Reach occ f e t) (ha : (∃ e ∈ orth, At t e 1 k) ∨ ∃ e ∈ diag, Reach occ t e k)
    (hna : ¬ ∃ e ∈ diag, Reach occ f e k) :
    Between f t k ∧ (∀ u, Between f u k → u ≠ t → occ u = false) ∧ occ t = true := by
  have hdd : IsDir d := isDir_mem.mp (List.mem_append_right _ hd)
  have hna' : ¬ Reach occ f d k := fun e => hna ⟨d, hd, e⟩
  obtain ⟨e, n, hn, h2, he, p1⟩ : ∃ e n, 1 ≤ n ∧ At f e n t ∧ ((e ∈ orth ∧ n = 1) ∨ e ∈ diag) ∧
      ∀ i, 1 ≤ i → i < n → ∀ u, At f e i u → occ u = false := by
    rcases hat with ⟨e, he, h⟩ | ⟨e, he, n, hn, h, hp⟩
    · exact ⟨e, 1, le_rfl, h, .inl ⟨he, rfl⟩, fun i h1 h2 => by omega⟩
    · exact ⟨e, n, hn, h, .inr he, hp⟩
  obtain ⟨g, j, hj, h3, hg, p2⟩ : ∃ e n, 1 ≤ n ∧ At t e n k ∧ ((e ∈ orth ∧ n = 1) ∨ e ∈ diag) ∧
      ∀ i, 1 ≤ i → i < n → ∀ u, At t e i u → occ u = false := by
    rcases ha with ⟨e, he, h⟩ | ⟨e, he, n, hn, h, hp⟩
    · exact ⟨e, 1, le_rfl, h, .inl ⟨he, rfl⟩, fun i h1 h2 => by omega⟩
    · exact ⟨e, n, hn, h, .inr he, hp⟩
  rcases diag_coord hd hm hn hj h1 h2 h3 he hg with ⟨rfl, c1, rfl, c2⟩ | ⟨rfl, c⟩ | ⟨rfl, c⟩ | rfl
  · exact through_free hdd hn hj c2 h1 h2 p1 p2 hna'
  · rw [p1 m hm c k h1] at hok; cases hok
  · have hback : At t g n f := by
      obtain ⟨x1, x2⟩ := h3
      obtain ⟨y1, y2⟩ := h1
      subst c
      rw [Int.natCast_add, Int.add_mul] at x1 x2
      exact ⟨by omega, by omega⟩
    rw [p2 n hn (by omega) f hback] at hof; cases hof
  · exact absurd ⟨1, le_rfl, h1, fun i a b => by omega⟩ hna'

/-- A rook or dragon on a file or rank with the king gives check only by capturing the single piece between, or by a diagonal
step to a square next to the king. -/
theorem orth_through (hd : d ∈ orth) (hm : 1 ≤ m) (h1 : At f d m k)
    (hat : (∃ e ∈ diag, At f e 1 t) ∨ ∃ e ∈ orth, Reach occ f e t) (ha : (∃ e ∈ diag, At t e 1 k) ∨ ∃ e ∈ orth, Reach occ t e k)
    (hna : ¬ ∃ e ∈ orth, Reach occ f e k) :
    (Between f t k ∧ (∀ u, Between f u k → u ≠ t → occ u = false) ∧ occ t = true) ∨ ((∃ e ∈ diag, At f e 1 t) ∧ ∃ e ∈ diag, At t e 1 k) := by
  have hdd : IsDir d := isDir_mem.mp (List.mem_append_left _ hd)
  have hna' : ¬ Reach occ f d k := fun e => hna ⟨d, hd, e⟩
  obtain ⟨e, n, hn, h2, he, p1⟩ : ∃ e n, 1 ≤ n ∧ At f e n t ∧ ((e ∈ diag ∧ n = 1) ∨ e ∈ orth) ∧
      ∀ i, 1 ≤ i → i < n → ∀ u, At f e i u → occ u = false := by
    rcases hat with ⟨e, he, h⟩ | ⟨e, he, n, hn, h, hp⟩
    · exact ⟨e, 1, le_rfl, h, .inl ⟨he, rfl⟩, fun i h1 h2 => by omega⟩
    · exact ⟨e, n, hn, h, .inr he, hp⟩
  obtain ⟨g, j, hj, h3, hg, p2⟩ : ∃ e n, 1 ≤ n ∧ At t e n k ∧ ((e ∈ diag ∧ n = 1) ∨ e ∈ orth) ∧
      ∀ i, 1 ≤ i → i < n → ∀ u, At t e i u → occ u = false := by
    rcases ha with ⟨e, he, h⟩ | ⟨e, he, n, hn, h, hp⟩
    · exact ⟨e, 1, le_rfl, h, .inl ⟨he, rfl⟩, fun i h1 h2 => by omega⟩
    · exact ⟨e, n, hn, h, .inr he, hp⟩
  rcases orth_coord hd hm hn hj h1 h2 h3 he hg with ⟨rfl, c1, rfl, c2⟩ | ⟨rfl, c⟩ | ⟨rfl, c⟩ | rfl | ⟨c1, rfl, c2, rfl⟩
  · exact .inl (through_free hdd hn hj c2 h1 h2 p1 p2 hna')
  · rw [p1 m hm c k h1] at hok; cases hok
  · have hback : At t g n f := by
      obtain ⟨x1, x2⟩ := h3
      obtain ⟨y1, y2⟩ := h1
      subst c
      rw [Int.natCast_add, Int.add_mul] at x1 x2
      exact ⟨by omega, by omega⟩
    rw [p2 n hn (by omega) f hback] at hof; cases hof
  · exact absurd ⟨1, le_rfl, h1, fun i a b => by omega⟩ hna'
  · exact .inr ⟨⟨e, c1, h2⟩, g, c2, h3⟩

end
end Verif
