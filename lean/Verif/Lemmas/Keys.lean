import Mathlib.Data.BitVec
import Mathlib.Data.Nat.Bitwise
import Mathlib.Algebra.BigOperators.Fin
import Mathlib.Algebra.BigOperators.Group.Finset.Basic
import Mathlib.Tactic.Abel
import Verif.Lemmas.Setup

namespace Verif
open Spec Bitboard Position

theorem foldl_add_eq {α : Type} (l : List α) (f : α → BitVec 64) (r : BitVec 64) :
    l.foldl (fun r s => r + f s) r = r + (l.map f).sum := by
  induction l generalizing r with
  | nil => simp
  | cons a l ih => simp only [List.foldl_cons, ih, List.map_cons, List.sum_cons, add_assoc]

theorem sum_upd {α : Type} [Fintype α] [DecidableEq α] {β M : Type} [AddCommGroup M] (F : α → β → M) (g : α → β) (a : α) (v : β) :
    ∑ s, F s (upd g a v s) = ∑ s, F s (g s) - F a (g a) + F a v := by
  have h1 := Finset.sum_erase_add Finset.univ (fun s => F s (upd g a v s)) (Finset.mem_univ a)
  have h2 := Finset.sum_erase_add Finset.univ (fun s => F s (g s)) (Finset.mem_univ a)
  have h3 : ∑ s ∈ Finset.univ.erase a, F s (upd g a v s) = ∑ s ∈ Finset.univ.erase a, F s (g s) := by
    apply Finset.sum_congr rfl
    intro s hs
    rw [upd_ne g v (Finset.ne_of_mem_erase hs)]
  rw [← h1, ← h2, h3]
  simp only [upd_same]
  abel

/-- Contribution of one square to the board key. -/
def keyAt (Z : Zobrist) (s : Square) (pc : Piece) : BitVec 64 :=
  if pc ≠ 0 then Z.board (pieceType pc) s (pieceColor pc) else 0

theorem keyAt_zero (Z : Zobrist) (s : Square) : keyAt Z s 0 = 0 := rfl
theorem keyAt_mk (Z : Zobrist) (s : Square) (c : Color) (k : Kind) :
    keyAt Z s (mkPiece c k.code) = Z.board k.code s c := by
  unfold keyAt
  rw [if_pos (mkPiece_ne_zero c k), pieceType_mkPiece, pieceColor_mkPiece]

theorem computeBoardKey_eq (Z : Zobrist) (p : Position) :
    p.computeBoardKey Z = if p.turn = .white then (∑ s, keyAt Z s (p.piece s)) ^^^ zobTurn
      else ∑ s, keyAt Z s (p.piece s) := by
  unfold computeBoardKey
  have : (List.finRange 81).foldl (fun r s =>
    if p.piece s ≠ 0 then r + Z.board (pieceType (p.piece s)) s (pieceColor (p.piece s)) else r) 0#64
      = ∑ s, keyAt Z s (p.piece s) := by
    have e : (fun (r : BitVec 64) s =>
      if p.piece s ≠ 0 then r + Z.board (pieceType (p.piece s)) s (pieceColor (p.piece s)) else r) =
      (fun r s => r + keyAt Z s (p.piece s)) := by
      funext r s
      unfold keyAt
      split <;> simp
    rw [e, foldl_add_eq, Fin.sum_univ_def]; simp
  rw [this]

/-! ### Flipping the turn bit -/

theorem getLsbD_zero_iff (e : BitVec 64) : e.getLsbD 0 = false ↔ e.toNat % 2 = 0 := by
  rw [BitVec.getLsbD, Nat.testBit_zero]
  simp

theorem xor_one_add (x e : BitVec 64) (he : e.getLsbD 0 = false) :
    (x ^^^ zobTurn) + e = (x + e) ^^^ zobTurn := by
  rw [getLsbD_zero_iff] at he
  have hx := x.isLt
  have hE := e.isLt
  apply BitVec.eq_of_toNat_eq
  rw [BitVec.toNat_add, BitVec.toNat_xor, BitVec.toNat_xor, BitVec.toNat_add, show zobTurn.toNat = 1 from rfl]
  rcases Nat.even_or_odd x.toNat with h | h
  · have h' : Even ((x.toNat + e.toNat) % 2^64) := by
      rw [Nat.even_iff] at h ⊢; omega
    rw [Nat.xor_one_of_even h, Nat.xor_one_of_even h']
    rw [Nat.even_iff] at h h'
    omega
  · have h' : Odd ((x.toNat + e.toNat) % 2^64) := by
      rw [Nat.odd_iff] at h ⊢; omega
    rw [Nat.xor_one_of_odd h, Nat.xor_one_of_odd h']
    rw [Nat.odd_iff] at h h'
    omega

theorem xor_one_sub (x e : BitVec 64) (he : e.getLsbD 0 = false) :
    (x ^^^ zobTurn) - e = (x - e) ^^^ zobTurn := by
  have := xor_one_add (x - e) e he
  rw [sub_add_cancel] at this
  rw [← this, add_sub_cancel_right]

theorem xor_turn_cancel (x : BitVec 64) : x ^^^ zobTurn ^^^ zobTurn = x := by
  rw [BitVec.xor_assoc, BitVec.xor_self, BitVec.xor_zero]

/-- The turn part of a key. -/
def withTurn (t : Color) (x : BitVec 64) : BitVec 64 := if t = .white then x ^^^ zobTurn else x

theorem withTurn_opp (t : Color) (x : BitVec 64) : withTurn t.opp x = withTurn t x ^^^ zobTurn := by
  cases t <;> simp [withTurn, Color.opp, xor_turn_cancel]

theorem withTurn_add (t : Color) (x e : BitVec 64) (he : e.getLsbD 0 = false) : withTurn t x + e = withTurn t (x + e) := by
  cases t <;> simp [withTurn, xor_one_add _ _ he]
theorem withTurn_sub (t : Color) (x e : BitVec 64) (he : e.getLsbD 0 = false) : withTurn t x - e = withTurn t (x - e) := by
  cases t <;> simp [withTurn, xor_one_sub _ _ he]

/-- The contribution of a square to the board key. -/
def pieceKey (Z : Zobrist) (s : Square) : Option (Color × Kind) → BitVec 64
  | none => 0
  | some (c, k) => Z.board k.code s c

/-- The board key from the board alone. -/
def placeKey (Z : Zobrist) (b : Square → Option (Color × Kind)) : BitVec 64 := ∑ s, pieceKey Z s (b s)

theorem boardKey_place {p : Position} (Z : Zobrist) (h : ∀ s, p.piece s = pieceCode ((absPos p).board s)) :
    p.computeBoardKey Z = withTurn p.turn (placeKey Z (absPos p).board) := by
  rw [computeBoardKey_eq]
  have : ∑ s, keyAt Z s (p.piece s) = placeKey Z (absPos p).board := by
    apply Finset.sum_congr rfl
    intro s _
    rw [h s]
    rcases (absPos p).board s with _ | ⟨c, k⟩
    · rfl
    · exact keyAt_mk Z s c k
  rw [this]; rfl

theorem placeKey_set (Z : Zobrist) (b : Square → Option (Color × Kind)) (s : Square) (v : Option (Color × Kind)) :
    placeKey Z (Pos.set b s v) = placeKey Z b - pieceKey Z s (b s) + pieceKey Z s v :=
  sum_upd (pieceKey Z) b s v

theorem pieceKey_even (Z : Zobrist) (s : Square) (v : Option (Color × Kind)) : (pieceKey Z s v).getLsbD 0 = false := by
  rcases v with _ | ⟨c, k⟩
  · simp [pieceKey]
  · exact Z.board_even _ _ _

/-! ### Hand key -/

/-- The hand key from counts alone. -/
def handKeyOf (Z : Zobrist) (n : Color → Nat → Nat) : BitVec 64 :=
  ∑ i : Fin 7, ((n .black i) • Z.hand i .black + (n .white i) • Z.hand i .white)

theorem foldl_const_add (n : Nat) (z r : BitVec 64) : (List.range n).foldl (fun r _ => r + z) r = r + n • z := by
  rw [foldl_add_eq]
  congr 1
  induction n with
  | zero => simp
  | succ n ih => rw [List.range_succ, List.map_append, List.sum_append, ih, succ_nsmul]; simp

theorem computeHandKey_eq (Z : Zobrist) (p : Position) :
    p.computeHandKey Z = handKeyOf Z (fun c i => (p.hand c).numOf i) := by
  unfold computeHandKey handKeyOf
  simp only [List.foldl_cons, List.foldl_nil, foldl_const_add]
  have e : (fun (r : BitVec 64) hp => r + (p.hand .black).numOf hp • Z.hand hp .black +
      (p.hand .white).numOf hp • Z.hand hp .white) =
      (fun r hp => r + ((p.hand .black).numOf hp • Z.hand hp .black + (p.hand .white).numOf hp • Z.hand hp .white)) := by
    funext r hp; rw [add_assoc]
  rw [e, foldl_add_eq, Fin.sum_univ_def]
  rw [show List.range 7 = (List.finRange 7).map (fun i => i.val) by decide, List.map_map]
  rw [show (0#64 : BitVec 64) = 0 from rfl, zero_add]
  rfl

/-- Changing one counter. -/
theorem handKeyOf_upd (Z : Zobrist) (n n' : Color → Nat → Nat) (c : Color) (i : Nat) (hi : i < 7)
    (hsame : ∀ c' j, j < 7 → ¬ (c' = c ∧ j = i) → n' c' j = n c' j) :
    handKeyOf Z n' - n' c i • Z.hand i c = handKeyOf Z n - n c i • Z.hand i c := by
  unfold handKeyOf
  rw [← Finset.sum_erase_add Finset.univ _ (Finset.mem_univ (⟨i, hi⟩ : Fin 7)),
    ← Finset.sum_erase_add Finset.univ (fun i : Fin 7 => ((n .black i) • Z.hand i .black + (n .white i) • Z.hand i .white))
      (Finset.mem_univ (⟨i, hi⟩ : Fin 7))]
  have h3 : ∑ j ∈ Finset.univ.erase (⟨i, hi⟩ : Fin 7), ((n' .black j) • Z.hand j .black + (n' .white j) • Z.hand j .white)
      = ∑ j ∈ Finset.univ.erase (⟨i, hi⟩ : Fin 7), ((n .black j) • Z.hand j .black + (n .white j) • Z.hand j .white) := by
    apply Finset.sum_congr rfl
    intro j hj
    have hne : j.val ≠ i := fun e => Finset.ne_of_mem_erase hj (Fin.ext e)
    rw [hsame .black j.val j.isLt (fun h => hne h.2), hsame .white j.val j.isLt (fun h => hne h.2)]
  rw [h3]
  cases c
  · rw [hsame .white i hi (by simp)]; simp only; abel
  · rw [hsame .black i hi (by simp)]; simp only; abel

end Verif
