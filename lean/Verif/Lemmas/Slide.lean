import Verif.Model.Attack
import Verif.Lemmas.Bitboard
import Mathlib.Tactic.IntervalCases

/-! Helper lemmas: the subtraction trick for sliding attacks, on 128-bit boards. -/

namespace Verif
namespace Bitboard

/-- Bit `i` of the board seen as one 128-bit word. -/
def bit (b : Bitboard) (i : Nat) : Bool := if i < 64 then b.p0.getLsbD i else b.p1.getLsbD (i - 64)

/-- Bit index of a square in the 128-bit view. -/
def idx (s : Square) : Nat := if s.val < 63 then s.val else s.val + 1

theorem isSet_bit (b : Bitboard) (s : Square) : b.isSet s = b.bit (idx s) := by
  rw [isSet_eq, idx, bit]
  by_cases h : s.val < 63
  · simp only [h, if_true]; rw [if_pos (by omega)]
  · simp only [h, if_false]
    rw [if_neg (by omega)]
    congr 1

theorem bit_ge (b : Bitboard) (i : Nat) (hi : 128 ≤ i) : b.bit i = false := by
  rw [bit, if_neg (by omega), BitVec.getLsbD_of_ge _ _ (by omega)]

theorem WF.bit_idx {b : Bitboard} (hb : b.WF) (i : Nat) (h : b.bit i = true) : ∃ s, i = idx s := by
  rw [bit] at h
  by_cases hi : i < 64
  · rw [if_pos hi] at h
    have : i ≠ 63 := by rintro rfl; rw [hb.1] at h; cases h
    exact ⟨⟨i, by omega⟩, by rw [idx]; simp only; rw [if_pos (by omega)]⟩
  · rw [if_neg hi] at h
    have : i - 64 < 18 := by
      by_contra hc
      rw [hb.2 _ (by omega)] at h; cases h
    exact ⟨⟨i - 1, by omega⟩, by rw [idx]; simp only; rw [if_neg (by omega)]; omega⟩

theorem wf_of_bit {b : Bitboard} (h : ∀ i, b.bit i = true → ∃ s, i = idx s) : b.WF := by
  have key : ∀ i, (∃ s, i = idx s) → i ≠ 63 ∧ i < 82 := by
    rintro i ⟨s, rfl⟩
    unfold idx; have := s.isLt
    split <;> omega
  constructor
  · cases hc : b.p0.getLsbD 63
    · rfl
    · have := key 63 (h 63 (by rw [bit]; simp only [show (63:Nat) < 64 by decide, if_true]; exact hc))
      omega
  · intro i hi
    cases hc : b.p1.getLsbD i
    · rfl
    · have := key (i + 64) (h (i + 64) (by rw [bit, if_neg (by omega), Nat.add_sub_cancel]; exact hc))
      omega

theorem wf_of_le {a b : Bitboard} (hb : b.WF) (h : ∀ i, a.bit i = true → b.bit i = true) : a.WF :=
  wf_of_bit fun i hi => hb.bit_idx i (h i hi)

theorem bit_or (a b : Bitboard) (i : Nat) : (a ||| b).bit i = (a.bit i || b.bit i) := by
  unfold bit; split <;> simp [or_p0, or_p1, BitVec.getLsbD_or]

theorem bit_ext {a b : Bitboard} (h : ∀ i, a.bit i = b.bit i) : a = b := by
  obtain ⟨a0, a1⟩ := a
  obtain ⟨b0, b1⟩ := b
  congr 1
  · apply BitVec.eq_of_getLsbD_eq
    intro i hi
    have := h i
    unfold bit at this
    rwa [if_pos hi, if_pos hi] at this
  · apply BitVec.eq_of_getLsbD_eq
    intro i hi
    have := h (i + 64)
    unfold bit at this
    rwa [if_neg (by omega), if_neg (by omega), Nat.add_sub_cancel] at this

/-- Byte-reversed bit index. -/
def rev (i : Nat) : Nat := 8 * (15 - i / 8) + i % 8

theorem bswap64_getLsbD (x : BitVec 64) (i : Nat) (hi : i < 64) :
    (bswap64 x).getLsbD i = x.getLsbD (8 * (7 - i / 8) + i % 8) := by
  have key : ∀ i : Fin 64, (bswap64 x).getLsbD i.val = x.getLsbD (8 * (7 - i.val / 8) + i.val % 8) := by
    intro i
    unfold bswap64
    simp only [BitVec.getLsbD_or, BitVec.getLsbD_shiftLeft, BitVec.getLsbD_and, BitVec.getLsbD_ushiftRight]
    obtain ⟨i, hi⟩ := i
    simp only
    interval_cases i <;> simp
  exact key ⟨i, hi⟩

theorem bit_byteReverse (b : Bitboard) (i : Nat) (hi : i < 128) : b.byteReverse.bit i = b.bit (rev i) := by
  unfold byteReverse bit rev
  by_cases h : i < 64
  · rw [if_pos h, if_neg (by omega)]
    simp only
    rw [bswap64_getLsbD _ _ h]
    congr 1; omega
  · rw [if_neg h, if_pos (by omega)]
    simp only
    rw [bswap64_getLsbD _ _ (by omega)]
    congr 1; omega

theorem rev_lt (i : Nat) (h : i < 128) : rev i < 128 := by unfold rev; omega
theorem rev_rev (i : Nat) (h : i < 128) : rev (rev i) = i := by unfold rev; omega

theorem byteReverse_byteReverse (b : Bitboard) : b.byteReverse.byteReverse = b := by
  apply bit_ext
  intro i
  by_cases h : i < 128
  · rw [bit_byteReverse _ _ h, bit_byteReverse _ _ (rev_lt i h), rev_rev i h]
  · rw [bit_ge _ _ (by omega), bit_ge _ _ (by omega)]

/-- One lane of the trick: decrement the masked occupancy as a 128-bit number, keep the changed bits in the mask. -/
def lane (m occ : Bitboard) : Bitboard :=
  let l := occ.p0 &&& m.p0
  let h := occ.p1 &&& m.p1
  ⟨((l - 1#64) ^^^ l) &&& m.p0, ((h - (if l = 0#64 then 1#64 else 0#64)) ^^^ h) &&& m.p1⟩

theorem bit_lane (m occ : Bitboard) (i : Nat) :
    (lane m occ).bit i = true ↔ m.bit i = true ∧ ∀ j, j < i → ¬ (occ.bit j = true ∧ m.bit j = true) := by
  unfold lane
  simp only
  have hl : ∀ j, j < 64 → ((occ.p0 &&& m.p0).getLsbD j = true ↔ (occ.bit j = true ∧ m.bit j = true)) := by
    intro j hj
    simp only [bit, if_pos hj, BitVec.getLsbD_and, Bool.and_eq_true]
  have hh : ∀ j, 64 ≤ j → ((occ.p1 &&& m.p1).getLsbD (j - 64) = true ↔ (occ.bit j = true ∧ m.bit j = true)) := by
    intro j hj
    simp only [bit, if_neg (show ¬ j < 64 by omega), BitVec.getLsbD_and, Bool.and_eq_true]
  obtain ⟨l, el⟩ : ∃ l, l = occ.p0 &&& m.p0 := ⟨_, rfl⟩
  obtain ⟨h, eh⟩ : ∃ h, h = occ.p1 &&& m.p1 := ⟨_, rfl⟩
  rw [← el] at hl ⊢
  rw [← eh] at hh ⊢
  by_cases hi : i < 64
  · have e1 : bit ⟨((l - 1#64) ^^^ l) &&& m.p0, ((h - (if l = 0#64 then 1#64 else 0#64)) ^^^ h) &&& m.p1⟩ i
        = ((l ^^^ (l - 1#64)).getLsbD i && m.bit i) := by
      simp only [bit, if_pos hi, BitVec.getLsbD_and]
      rw [BitVec.xor_comm]
    rw [e1, Bool.and_eq_true, xor_sub_one _ _ hi, decide_eq_true_iff, and_comm]
    refine and_congr_right fun _ => ?_
    constructor
    · intro hj j hji hc
      have := (hl j (by omega)).mpr hc
      rw [hj j hji] at this; cases this
    · intro hj j hji
      have := mt (hl j (by omega)).mp (hj j hji)
      simpa using this
  · have e1 : bit ⟨((l - 1#64) ^^^ l) &&& m.p0, ((h - (if l = 0#64 then 1#64 else 0#64)) ^^^ h) &&& m.p1⟩ i
        = ((h ^^^ (h - (if l = 0#64 then 1#64 else 0#64))).getLsbD (i - 64) && m.bit i) := by
      simp only [bit, if_neg hi, BitVec.getLsbD_and]
      rw [BitVec.xor_comm]
    rw [e1, Bool.and_eq_true]
    by_cases hz : l = 0#64
    · rw [if_pos hz]
      by_cases h128 : i - 64 < 64
      · rw [xor_sub_one _ _ h128, decide_eq_true_iff, and_comm]
        refine and_congr_right fun _ => ?_
        constructor
        · intro hj j hji hc
          by_cases hj64 : j < 64
          · have := (hl j hj64).mpr hc
            rw [hz] at this; simp at this
          · have := (hh j (by omega)).mpr hc
            rw [hj (j - 64) (by omega)] at this; cases this
        · intro hj j hji
          have := mt (hh (j + 64) (by omega)).mp (hj (j + 64) (by omega))
          rw [Nat.add_sub_cancel] at this
          simpa using this
      · rw [bit_ge m i (by omega)]; simp
    · rw [if_neg hz]
      have e2 : h ^^^ (h - 0#64) = 0#64 := by simp
      rw [e2]
      constructor
      · rintro ⟨h', _⟩; simp at h'
      · rintro ⟨_, hj⟩
        exfalso
        have hs := ctz_spec l hz
        have := (hl (ctz l) hs.1).mp hs.2.1
        exact hj (ctz l) (by have := hs.1; omega) this

theorem wf_lane {m : Bitboard} (hm : m.WF) (occ : Bitboard) : (lane m occ).WF :=
  wf_of_le hm fun i hi => ((bit_lane m occ i).mp hi).1

theorem isSet_lane {m : Bitboard} (hm : m.WF) (occ : Bitboard) (t : Square) :
    (lane m occ).isSet t = true ↔
      m.isSet t = true ∧ ∀ u, m.isSet u = true → idx u < idx t → occ.isSet u = false := by
  rw [isSet_bit, bit_lane, ← isSet_bit]
  refine and_congr_right fun _ => ?_
  constructor
  · intro h u hu hlt
    have := h _ hlt
    rw [← isSet_bit, ← isSet_bit] at this
    cases ho : occ.isSet u
    · rfl
    · exact absurd ⟨ho, hu⟩ this
  · rintro h j hj ⟨h1, h2⟩
    obtain ⟨u, rfl⟩ := hm.bit_idx j h2
    rw [← isSet_bit] at h1 h2
    rw [h u h2 hj] at h1; cases h1

/-- The lane on byte-reversed boards. -/
def rlane (m occ : Bitboard) : Bitboard := (lane m.byteReverse occ.byteReverse).byteReverse

theorem bit_rlane (m occ : Bitboard) (i : Nat) (hi : i < 128) :
    (rlane m occ).bit i = true ↔
      m.bit i = true ∧ ∀ j, j < 128 → rev j < rev i → ¬ (occ.bit j = true ∧ m.bit j = true) := by
  unfold rlane
  rw [bit_byteReverse _ _ hi, bit_lane, bit_byteReverse _ _ (rev_lt i hi), rev_rev i hi]
  refine and_congr_right fun _ => ?_
  constructor
  · intro h j hj hlt
    have := h (rev j) hlt
    rwa [bit_byteReverse _ _ (rev_lt j hj), bit_byteReverse _ _ (rev_lt j hj), rev_rev j hj] at this
  · intro h j hj
    have hj' : j < 128 := by have := rev_lt i hi; omega
    rw [bit_byteReverse _ _ hj', bit_byteReverse _ _ hj']
    exact h (rev j) (rev_lt j hj') (by rw [rev_rev j hj']; exact hj)

theorem wf_rlane {m : Bitboard} (hm : m.WF) (occ : Bitboard) : (rlane m occ).WF := by
  refine wf_of_le hm fun i hi => ?_
  by_cases h : i < 128
  · exact ((bit_rlane m occ i h).mp hi).1
  · rw [bit_ge _ _ (by omega)] at hi; cases hi

theorem idx_lt (s : Square) : idx s < 128 := by unfold idx; split <;> omega

theorem isSet_rlane {m : Bitboard} (hm : m.WF) (occ : Bitboard) (t : Square) :
    (rlane m occ).isSet t = true ↔
      m.isSet t = true ∧ ∀ u, m.isSet u = true → rev (idx u) < rev (idx t) → occ.isSet u = false := by
  rw [isSet_bit, bit_rlane _ _ _ (idx_lt t), ← isSet_bit]
  refine and_congr_right fun _ => ?_
  constructor
  · intro h u hu hlt
    have := h _ (idx_lt u) hlt
    rw [← isSet_bit, ← isSet_bit] at this
    cases ho : occ.isSet u
    · rfl
    · exact absurd ⟨ho, hu⟩ this
  · rintro h j hj hlt ⟨h1, h2⟩
    obtain ⟨u, rfl⟩ := hm.bit_idx j h2
    rw [← isSet_bit] at h1 h2
    rw [h u h2 hlt] at h1; cases h1

end Bitboard

open Bitboard

theorem rookAttackRank_eq (s : Square) (occ : Bitboard) :
    rookAttackRank s occ = rlane (rookRight s) occ ||| lane (rookLeft s) occ := rfl

theorem byteReverse_or (a b : Bitboard) : (a ||| b).byteReverse = a.byteReverse ||| b.byteReverse := by
  apply bit_ext
  intro i
  by_cases h : i < 128
  · rw [bit_or, bit_byteReverse _ _ h, bit_byteReverse _ _ h, bit_byteReverse _ _ h, bit_or]
  · rw [bit_ge _ _ (by omega), bit_ge _ _ (by omega)]

theorem bishopAttackV_true (s : Square) (occ : Bitboard) :
    bishopAttackV true s occ =
      (rlane (bishopDiag false true s) occ ||| lane (bishopDiag true true s) occ) |||
      (rlane (bishopDiag false false s) occ ||| lane (bishopDiag true false s) occ) := rfl

theorem bishopAttackV_false (s : Square) (occ : Bitboard) :
    bishopAttackV false s occ =
      (rlane (bishopDiag false false s) occ ||| lane (bishopDiag true true s) occ) |||
      (rlane (bishopDiag false true s) occ ||| lane (bishopDiag true false s) occ) := rfl

end Verif
