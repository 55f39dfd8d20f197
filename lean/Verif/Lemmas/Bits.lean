import Verif.Model.Move
import Mathlib.Data.Nat.Basic
import Mathlib.Tactic.IntervalCases

/-! Helper lemmas: bit fields as arithmetic on natural numbers. -/

namespace Verif

theorem ofNat_shl_toNat (n k : Nat) (h : n * 2^k < 2^32) : (BitVec.ofNat 32 n <<< k).toNat = n * 2^k := by
  simp only [BitVec.toNat_shiftLeft, BitVec.toNat_ofNat, Nat.shiftLeft_eq]
  have : n < 2^32 := Nat.lt_of_le_of_lt (Nat.le_mul_of_pos_right _ (Nat.two_pow_pos k)) h
  rw [Nat.mod_eq_of_lt this, Nat.mod_eq_of_lt h]

theorem or_eq_add (a b k : Nat) (ha : 2^k ∣ a) (hb : b < 2^k) : a ||| b = a + b := by
  obtain ⟨c, rfl⟩ := ha
  rw [Nat.two_pow_add_eq_or_of_lt hb]

theorem or_eq_add' (a b k : Nat) (ha : 2^k ∣ b) (hb : a < 2^k) : a ||| b = a + b := by
  rw [Nat.or_comm, or_eq_add _ _ k ha hb, Nat.add_comm]

namespace Move
theorem dst_eq (m : Move) : m.dst = m.toNat % 128 := by
  simp [dst, Nat.and_two_pow_sub_one_eq_mod _ 7]
theorem src_eq (m : Move) : m.src = m.toNat / 128 % 128 := by
  simp [src, Nat.shiftRight_eq_div_pow, Nat.and_two_pow_sub_one_eq_mod _ 7]
theorem cap_eq (m : Move) : m.cap = m.toNat / 2^20 % 16 := by
  simp [cap, Nat.shiftRight_eq_div_pow, Nat.and_two_pow_sub_one_eq_mod _ 4]
theorem pieceTypeFrom_eq (m : Move) : m.pieceTypeFrom = m.toNat / 2^16 % 16 := by
  simp [pieceTypeFrom, Nat.shiftRight_eq_div_pow, Nat.and_two_pow_sub_one_eq_mod _ 4]

theorem promoteFlag_eq : promoteFlag = BitVec.twoPow 32 14 := by decide
theorem promoteFlag_toNat : promoteFlag.toNat = 2^14 := by decide

theorem isPromotion_eq (m : Move) : m.isPromotion = decide (m.toNat / 2^14 % 2 = 1) := by
  unfold isPromotion
  rw [promoteFlag_eq, BitVec.and_twoPow, ← Nat.testBit_eq_decide_div_mod_eq]
  show _ = m.getLsbD 14
  cases m.getLsbD 14 <;> decide

theorem isDrop_eq (m : Move) : m.isDrop = decide (81 ≤ m.toNat / 128 % 128) := by
  rw [isDrop, src_eq]

theorem pieceTypeToOf_eq (m : Move) (p : PieceType) :
    m.pieceTypeToOf p = p + if m.isPromotion then 8 else 0 := by
  unfold pieceTypeToOf isPromotion
  rw [promoteFlag_eq, BitVec.and_twoPow]
  cases m.getLsbD 14
  · simp
  · simp only [if_true]
    have h1 : (BitVec.twoPow 32 14 != 0#32) = true := by decide
    have h2 : (BitVec.twoPow 32 14 >>> 11).toNat = 8 := by decide
    rw [h1, h2]; rfl
end Move

theorem makeMove_toNat (pt f t : Nat) (hp : pt < 16) (hf : f < 128) (ht : t < 128) :
    (makeMove pt f t).toNat = pt * 2^16 + f * 2^7 + t := by
  unfold makeMove pieceType2Move from2Move to2Move
  rw [BitVec.toNat_or, BitVec.toNat_or, ofNat_shl_toNat _ _ (by omega), ofNat_shl_toNat _ _ (by omega),
    ofNat_shl_toNat _ _ (by omega)]
  rw [or_eq_add (pt * 2^16) _ 16 (by omega) (by omega), or_eq_add _ (t * 2^0) 7 (by omega) (by omega)]
  omega

theorem makeCaptureMove_toNat (cap pt f t : Nat) (hc : cap < 16) (hp : pt < 16) (hf : f < 128) (ht : t < 128) :
    (makeCaptureMove cap pt f t).toNat = cap * 2^20 + (pt * 2^16 + f * 2^7 + t) := by
  unfold makeCaptureMove captured2Move
  rw [BitVec.toNat_or, makeMove_toNat pt f t hp hf ht, ofNat_shl_toNat _ _ (by omega),
    or_eq_add _ _ 20 (by omega) (by omega)]

theorem makeCapturePromoteMove_toNat (cap pt f t : Nat) (hc : cap < 16) (hp : pt < 16) (hf : f < 128)
    (ht : t < 128) :
    (makeCapturePromoteMove cap pt f t).toNat = cap * 2^20 + (pt * 2^16 + f * 2^7 + t) + 2^14 := by
  unfold makeCapturePromoteMove
  rw [BitVec.toNat_or, makeCaptureMove_toNat cap pt f t hc hp hf ht, Move.promoteFlag_toNat]
  obtain ⟨x, hx⟩ : ∃ x, x = f * 2^7 + t := ⟨_, rfl⟩
  obtain ⟨y, hy⟩ : ∃ y, y = cap * 2^20 + pt * 2^16 := ⟨_, rfl⟩
  have e : cap * 2^20 + (pt * 2^16 + f * 2^7 + t) = y ||| x := by
    rw [or_eq_add y x 14 (by omega) (by omega)]; omega
  have e2 : (y ||| x) ||| 2^14 = y + (x + 2^14) := by
    rw [Nat.or_assoc, or_eq_add' x (2^14) 14 (by omega) (by omega), or_eq_add y _ 15 (by omega) (by omega)]
  have e3 : cap * 2^20 + (pt * 2^16 + f * 2^7 + t) = y + x := by omega
  rw [e, e2, ← e, e3, Nat.add_assoc]

theorem makeDropMove_toNat (pt t : Nat) (hp : pt < 48) (ht : t < 128) :
    (makeDropMove pt t).toNat = (80 + pt) * 2^7 + t := by
  unfold makeDropMove from2Move to2Move drop2From
  rw [BitVec.toNat_or, ofNat_shl_toNat _ _ (by omega), ofNat_shl_toNat _ _ (by omega),
    or_eq_add _ _ 7 (by omega) (by omega)]
  omega

end Verif
