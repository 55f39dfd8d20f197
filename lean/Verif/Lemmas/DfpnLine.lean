import Verif.Lemmas.DfpnSearch
import Verif.Lemmas.Material

/-!
# The positions a df-pn search may come to
-/

namespace Verif
open Spec Bitboard Position HandDom

namespace Dfpn

/-- The positions that may come up when `A` looks for a mate from `p0`: `A` gives check by legal moves, in positions before the ply
`maxDepth`, and the opponent replies by legal moves. -/
inductive Line (Z : Zobrist) (maxDepth : Int) (A : Color) (p0 : Position) : Position → Prop
  | root : Line Z maxDepth A p0 p0
  | check {p p' : Position} {mv : Mv} (h : Line Z maxDepth A p0 p) (ht : p.turn = A) (hd : p.gamePly + 1 ≤ maxDepth)
      (hm : (absPos p).Legal mv) (hc : ((absPos p).play mv).InCheck p.turn.opp) (he : doMove Z p (encode p mv) = some p') :
      Line Z maxDepth A p0 p'
  | reply {p p' : Position} {mv : Mv} (h : Line Z maxDepth A p0 p) (ht : p.turn = A.opp) (hm : (absPos p).Legal mv)
      (he : doMove Z p (encode p mv) = some p') : Line Z maxDepth A p0 p'

/-- What is asked of the hash keys and of repetitions. -/
structure Clean (Z : Zobrist) (maxDepth : Int) (A : Color) (p0 : Position) : Prop where
  /-- Positions with the same board key have the same board and side to move. -/
  keys : ∀ p q, Line Z maxDepth A p0 p → Line Z maxDepth A p0 q → p.st.boardKey = q.st.boardKey →
    (absPos p).board = (absPos q).board ∧ p.turn = q.turn
  /-- No repetition is judged as won by the attacker. -/
  win : ∀ p, Line Z maxDepth A p0 p → p.turn = A → p.isDraw 16 ≠ some .win
  lose : ∀ p, Line Z maxDepth A p0 p → p.turn = A.opp → p.isDraw 16 ≠ some .lose

variable {Z : Zobrist} {maxDepth : Int} {A : Color} {p0 : Position}

theorem Line.sound (h0 : Sound Z p0) {p : Position} (h : Line Z maxDepth A p0 p) : Sound Z p := by
  induction h with
  | root => exact h0
  | check _ _ _ hm _ he ih => obtain ⟨p2, e, -, h2, -⟩ := ih.step hm; cases e.symm.trans he; exact h2
  | reply _ _ hm he ih => obtain ⟨p2, e, -, h2, -⟩ := ih.step hm; cases e.symm.trans he; exact h2

theorem Line.inCheck (h0 : Sound Z p0) (hin : p0.turn = A.opp → (absPos p0).InCheck p0.turn) {p : Position} (h : Line Z maxDepth A p0 p)
    (ht : p.turn = A.opp) : (absPos p).InCheck p.turn := by
  cases h with
  | root => exact hin ht
  | check h ht' hd hm hc he =>
    obtain ⟨p2, e, -, -, h2, -, h3, -⟩ := (h.sound h0).step hm
    cases e.symm.trans he
    rw [h2, h3]; exact hc
  | reply h ht' hm he =>
    obtain ⟨p2, e, -, -, h2, -, h3, -⟩ := (h.sound h0).step hm
    cases e.symm.trans he
    rw [h3, ht'] at ht
    exact absurd ht (by cases A <;> decide)

theorem Line.material (h0 : Sound Z p0) {p : Position} (h : Line Z maxDepth A p0 p) (k : HKind) :
    (absPos p).material k = (absPos p0).material k := by
  induction h with
  | root => rfl
  | check h _ _ hm _ he ih =>
    obtain ⟨p2, e, -, -, h2, -⟩ := (h.sound h0).step hm
    cases e.symm.trans he
    rw [h2, material_play (pseudo_playable hm.1.1 (h.sound h0).regular.waiting), ih]
  | reply h _ hm he ih =>
    obtain ⟨p2, e, -, -, h2, -⟩ := (h.sound h0).step hm
    cases e.symm.trans he
    rw [h2, material_play (pseudo_playable hm.1.1 (h.sound h0).regular.waiting), ih]

theorem Line.ply {p : Position} (h : Line Z maxDepth A p0 p) : p0.gamePly ≤ p.gamePly ∧
    (p.turn = A.opp → p.gamePly ≤ max p0.gamePly maxDepth) ∧ p.gamePly ≤ max p0.gamePly maxDepth + 1 := by
  induction h with
  | root => omega
  | check _ ht hd _ _ he ih => rw [doMove_ply he]; omega
  | reply _ ht _ he ih =>
    have h3 := (doMove_record he).2.2.1
    refine ⟨by rw [doMove_ply he]; omega, fun hc => ?_, by rw [doMove_ply he]; have := ih.2.1 ht; omega⟩
    rw [h3, ht] at hc
    exact absurd hc (by cases A <;> decide)

theorem line_tree (h0 : Sound Z p0) (hin : p0.turn = A.opp → (absPos p0).InCheck p0.turn) (hp : 0 ≤ p0.gamePly ∧ p0.gamePly ≤ 65533)
    (hd : maxDepth ≤ 65533) (hc : Clean Z maxDepth A p0) : Tree Z maxDepth A (Line Z maxDepth A p0) where
  sound p h := h.sound h0
  check p mv p' h := fun a b c d e => .check h a b c d e
  reply p mv p' h := fun a b c => .reply h a b c
  inCheck p h := h.inCheck h0 hin
  keys p q hp hq hk := by
    obtain ⟨hb, ht⟩ := hc.keys p q hp hq hk
    refine ⟨⟨hb, ht⟩, fun k => ?_⟩
    have := (hp.material h0 k).trans (hq.material h0 k).symm
    unfold Pos.material Pos.onBoard at this
    rw [hb] at this
    omega
  ply p h := by have := h.ply; omega
  win := hc.win
  lose := hc.lose

end Dfpn
end Verif
