import Verif.Lemmas.DfpnLine

/-!
# Listing the positions a df-pn search may come to

For concrete positions the hypothesis `Clean` is checked by listing.
-/

namespace Verif
open Spec Bitboard Position HandDom

namespace Dfpn

/-- The positions one move further. -/
def kids (Z : Zobrist) (maxDepth : Int) (A : Color) (p : Position) : List Position :=
  if p.turn = A then
    if p.gamePly + 1 ≤ maxDepth then ((genLegal p true).getD []).filterMap fun m => if p.moveGivesCheck m then doMove Z p m else none
    else []
  else ((genLegal p true).getD []).filterMap (doMove Z p)

/-- The positions after `n` moves. -/
def level (Z : Zobrist) (maxDepth : Int) (A : Color) (p0 : Position) : Nat → List Position
  | 0 => [p0]
  | n + 1 => (level Z maxDepth A p0 n).flatMap (kids Z maxDepth A)

theorem Line.level {Z : Zobrist} {maxDepth : Int} {A : Color} {p0 : Position} (h0 : Sound Z p0) {p : Position}
    (h : Line Z maxDepth A p0 p) : ∃ n, p ∈ level Z maxDepth A p0 n := by
  induction h with
  | root => exact ⟨0, List.mem_singleton.mpr rfl⟩
  | @check p p' mv h ht hd hm hc he ih =>
    obtain ⟨n, ih⟩ := ih
    refine ⟨n + 1, List.mem_flatMap.mpr ⟨p, ih, ?_⟩⟩
    have hs := h.sound h0
    obtain ⟨l, el, -, hl⟩ := genLegal_spec hs.inv.views hs.checks hs.regular
    unfold kids
    rw [el, if_pos ht, if_pos hd]
    refine List.mem_filterMap.mpr ⟨encode p mv, (hl _).mpr ⟨mv, rfl, hm⟩, ?_⟩
    rw [if_pos ((C22_moveGivesCheck p hs.inv.views hs.regular.waiting mv hm.1).mpr hc)]
    exact he
  | @reply p p' mv h ht hm he ih =>
    obtain ⟨n, ih⟩ := ih
    refine ⟨n + 1, List.mem_flatMap.mpr ⟨p, ih, ?_⟩⟩
    have hs := h.sound h0
    obtain ⟨l, el, -, hl⟩ := genLegal_spec hs.inv.views hs.checks hs.regular
    unfold kids
    rw [el, if_neg (by rw [ht]; exact opp_ne A)]
    exact List.mem_filterMap.mpr ⟨encode p mv, (hl _).mpr ⟨mv, rfl, hm⟩, he⟩

theorem level_end {Z : Zobrist} {maxDepth : Int} {A : Color} {p0 : Position} {N : Nat} (h : level Z maxDepth A p0 N = []) :
    ∀ n, N ≤ n → level Z maxDepth A p0 n = [] := by
  intro n hn
  induction n, hn using Nat.le_induction with
  | base => exact h
  | succ n _ ih => show (level Z maxDepth A p0 n).flatMap _ = []; rw [ih]; rfl

/-- All positions after fewer than `N` moves. -/
def upTo (Z : Zobrist) (maxDepth : Int) (A : Color) (p0 : Position) (N : Nat) : List Position :=
  (List.range N).flatMap (level Z maxDepth A p0)

/-- What `Clean` asks, in a form that can be computed. -/
def cleanB (A : Color) (l : List Position) : Bool :=
  l.all fun p => l.all (fun q => !(p.st.boardKey == q.st.boardKey) ||
    ((List.finRange 81).all (fun s => p.piece s == q.piece s) && decide (p.turn = q.turn))) &&
    (if p.turn = A then decide (p.isDraw 16 ≠ some .win) else decide (p.isDraw 16 ≠ some .lose))

theorem clean_of_list {Z : Zobrist} {maxDepth : Int} {A : Color} {p0 : Position} (h0 : Sound Z p0) {N : Nat}
    (hN : (level Z maxDepth A p0 N).isEmpty = true) (hb : cleanB A (upTo Z maxDepth A p0 N) = true) : Clean Z maxDepth A p0 := by
  have hmem : ∀ p, Line Z maxDepth A p0 p → p ∈ upTo Z maxDepth A p0 N := by
    intro p hp
    obtain ⟨n, hn⟩ := hp.level h0
    refine List.mem_flatMap.mpr ⟨n, List.mem_range.mpr ?_, hn⟩
    by_contra hlt
    rw [level_end (List.isEmpty_iff.mp hN) n (by omega)] at hn
    cases hn
  have hall := List.all_eq_true.mp hb
  refine ⟨fun p q hp hq hk => ?_, fun p hp ht => ?_, fun p hp ht => ?_⟩
  · have h1 := (Bool.and_eq_true_iff.mp (hall p (hmem p hp))).1
    have h2 := List.all_eq_true.mp h1 q (hmem q hq)
    rw [hk, beq_self_eq_true, Bool.not_true, Bool.false_or, Bool.and_eq_true_iff] at h2
    refine ⟨funext fun s => ?_, of_decide_eq_true h2.2⟩
    have h3 := eq_of_beq (List.all_eq_true.mp h2.1 s (List.mem_finRange s))
    show decodePiece (p.piece s) = decodePiece (q.piece s)
    rw [h3]
  · have h1 := (Bool.and_eq_true_iff.mp (hall p (hmem p hp))).2
    rw [if_pos ht] at h1
    exact of_decide_eq_true h1
  · have h1 := (Bool.and_eq_true_iff.mp (hall p (hmem p hp))).2
    rw [if_neg (by rw [ht]; exact opp_ne A)] at h1
    exact of_decide_eq_true h1

end Dfpn
end Verif
