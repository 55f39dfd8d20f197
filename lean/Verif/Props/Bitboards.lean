import Verif.Lemmas.Bitboard
import Mathlib.Data.Finset.Sort
import Mathlib.Data.Fintype.Basic

/-!
# C11: bitboards are sets of squares

Specification: a bitboard *represents* a set of squares when bit `i` of the first word is set exactly for the
squares `i < 63` of the set and bit `i` of the second word exactly for the squares `i + 63` of the set. Every
operation is then compared with the operation of Mathlib's finite sets.
-/

namespace Verif

/-- Layout of the two words: squares 0..62 (files 1..7) and 63..80 (files 8, 9), no other bit set. -/
def Represents (b : Bitboard) (S : Finset Square) : Prop :=
  (∀ i, b.p0.getLsbD i = true ↔ ∃ s ∈ S, s.val = i ∧ i < 63) ∧
  (∀ i, b.p1.getLsbD i = true ↔ ∃ s ∈ S, s.val = i + 63)

theorem represents_iff (b : Bitboard) (S : Finset Square) :
    Represents b S ↔ b.WF ∧ ∀ s, b.isSet s = true ↔ s ∈ S := by
  constructor
  · rintro ⟨h0, h1⟩
    refine ⟨⟨?_, ?_⟩, ?_⟩
    · cases h : b.p0.getLsbD 63
      · rfl
      · obtain ⟨s, _, _, h⟩ := (h0 63).mp h; omega
    · intro i hi
      cases h : b.p1.getLsbD i
      · rfl
      · obtain ⟨s, _, h⟩ := (h1 i).mp h; omega
    · intro s
      rw [Bitboard.isSet_eq]
      by_cases hs : s.val < 63
      · rw [if_pos hs, h0]
        exact ⟨fun ⟨t, ht, e, _⟩ => (Fin.ext e : t = s) ▸ ht, fun h => ⟨s, h, rfl, hs⟩⟩
      · rw [if_neg hs, h1]
        exact ⟨fun ⟨t, ht, e⟩ => (Fin.ext (by omega) : t = s) ▸ ht, fun h => ⟨s, h, by omega⟩⟩
  · rintro ⟨hw, hm⟩
    constructor
    · intro i
      constructor
      · intro h
        have hi : i < 63 := by
          by_contra hc
          rcases Nat.lt_or_ge 63 i with h' | h'
          · rw [BitVec.getLsbD_of_ge _ _ (by omega)] at h; cases h
          · have : i = 63 := by omega
            subst this; rw [hw.1] at h; cases h
        refine ⟨⟨i, by omega⟩, (hm _).mp ?_, rfl, hi⟩
        rw [Bitboard.isSet_eq, if_pos (by exact hi)]; exact h
      · rintro ⟨s, hs, rfl, hi⟩
        have := (hm s).mpr hs
        rwa [Bitboard.isSet_eq, if_pos hi] at this
    · intro i
      constructor
      · intro h
        have hi : i < 18 := by
          by_contra hc
          rw [hw.2 i (by omega)] at h; cases h
        refine ⟨⟨i + 63, by omega⟩, (hm _).mp ?_, rfl⟩
        rw [Bitboard.isSet_eq, if_neg (by show ¬ i + 63 < 63; omega)]
        show b.p1.getLsbD (i + 63 - 63) = true
        rw [Nat.add_sub_cancel]; exact h
      · rintro ⟨s, hs, e⟩
        have := (hm s).mpr hs
        rw [Bitboard.isSet_eq, if_neg (by omega)] at this
        have e' : i = s.val - 63 := by omega
        rw [e']; exact this

/-- Every set of squares is represented by exactly one bitboard, and every bitboard without stray bits represents
exactly one set. -/
theorem C11_represents_unique (a b : Bitboard) (S T : Finset Square) (ha : Represents a S) (hb : Represents b T) :
    a = b ↔ S = T := by
  rw [represents_iff] at ha hb
  constructor
  · rintro rfl
    ext s; rw [← ha.2, ← hb.2]
  · rintro rfl
    exact Bitboard.WF.ext ha.1 hb.1 (fun s => Bool.eq_iff_iff.mpr ((ha.2 s).trans (hb.2 s).symm))

/-- The constants: the empty board and the full board. -/
theorem C11_constants : Represents Bitboard.zero ∅ ∧ Represents Bitboard.allOne Finset.univ := by
  constructor <;> rw [represents_iff]
  · exact ⟨Bitboard.WF.zero, by simp⟩
  · exact ⟨Bitboard.WF.allOne, by simp⟩

/-- Union, intersection, symmetric difference, differences. -/
theorem C11_set_operations (a b : Bitboard) (S T : Finset Square) (ha : Represents a S) (hb : Represents b T) :
    Represents (a ||| b) (S ∪ T) ∧ Represents (a &&& b) (S ∩ T) ∧
    Represents (a ^^^ b) (Finset.univ.filter fun s => ¬ (s ∈ S ↔ s ∈ T)) ∧
    Represents (a.andNot b) (S \ T) ∧ Represents (a.notAnd b) (T \ S) := by
  rw [represents_iff] at ha hb
  simp only [represents_iff]
  refine ⟨⟨ha.1.or hb.1, ?_⟩, ⟨ha.1.and_left, ?_⟩, ⟨ha.1.xor hb.1, ?_⟩, ⟨ha.1.andNot, ?_⟩, ⟨hb.1.notAnd, ?_⟩⟩ <;>
    intro s <;> have h1 := ha.2 s <;> have h2 := hb.2 s
  · simp [h1, h2]
  · simp [h1, h2]
  · simp only [Bitboard.isSet_xor, Finset.mem_filter, Finset.mem_univ, true_and, ← h1, ← h2]
    cases a.isSet s <;> cases b.isSet s <;> simp
  · simp only [Bitboard.isSet_andNot, Finset.mem_sdiff, ← h1, ← h2]; simp
  · simp only [Bitboard.isSet_notAnd, Finset.mem_sdiff, ← h1, ← h2]
    cases a.isSet s <;> cases b.isSet s <;> simp

/-- Single squares: test, set, clear, flip, flip two. -/
theorem C11_single_square (b : Bitboard) (S : Finset Square) (h : Represents b S) (s t : Square) (hst : s ≠ t) :
    (b.isSet s = true ↔ s ∈ S) ∧ Represents (b.setBit s) (insert s S) ∧ Represents (b.clearBit s) (S.erase s) ∧
    Represents (b.xorBit s) (if s ∈ S then S.erase s else insert s S) ∧
    (s ∈ S → t ∉ S → Represents (b.xorBit2 s t) (insert t (S.erase s))) := by
  rw [represents_iff] at h
  simp only [represents_iff]
  refine ⟨h.2 s, ⟨h.1.setBit s, ?_⟩, ⟨h.1.clearBit s, ?_⟩, ⟨h.1.xorBit s, ?_⟩,
    fun hs ht => ⟨h.1.xorBit2 s t, ?_⟩⟩ <;> intro u <;> have hu := h.2 u
  · simp [hu, or_comm]
  · simp only [Bitboard.isSet_clearBit, Finset.mem_erase, ← hu]; simp [and_comm]
  · have hs := h.2 s
    by_cases hus : u = s
    · subst hus
      simp only [Bitboard.isSet_xorBit]
      by_cases hm : u ∈ S
      · simp [hm, hu.mpr hm]
      · have : b.isSet u = false := by simpa using fun hh => hm (hu.mp hh)
        simp [hm, this]
    · simp only [Bitboard.isSet_xorBit, hus, decide_false, Bool.xor_false, hu]
      split <;> simp [hus]
  · have hs' := (h.2 s).mpr hs
    have ht' : b.isSet t = false := by simpa using fun hh => ht ((h.2 t).mp hh)
    simp only [Bitboard.isSet_xorBit2, Finset.mem_insert, Finset.mem_erase, ← hu]
    by_cases h1 : u = s
    · subst h1; simp [hs', hst]
    · by_cases h2 : u = t
      · subst h2; simp [ht']
      · simp [h1, h2]

/-- Emptiness and intersection tests; the second holds even when one side has stray bits. -/
theorem C11_emptiness (a b : Bitboard) (S T : Finset Square) (ha : Represents a S) (hb : Represents b T) :
    (a.isAny = true ↔ S.Nonempty) ∧ (a.andIsAny b = true ↔ ¬ Disjoint S T) := by
  rw [represents_iff] at ha hb
  constructor
  · rw [ha.1.isAny_iff]
    exact ⟨fun ⟨s, h⟩ => ⟨s, (ha.2 s).mp h⟩, fun ⟨s, h⟩ => ⟨s, (ha.2 s).mpr h⟩⟩
  · rw [Bitboard.andIsAny_iff (Or.inl ha.1), Finset.not_disjoint_iff]
    exact ⟨fun ⟨s, h, h'⟩ => ⟨s, (ha.2 s).mp h, (hb.2 s).mp h'⟩, fun ⟨s, h, h'⟩ => ⟨s, (ha.2 s).mpr h, (hb.2 s).mpr h'⟩⟩

private theorem card_eq (b : Bitboard) (S : Finset Square) (h : b.WF ∧ ∀ s, b.isSet s = true ↔ s ∈ S) :
    ((List.finRange 81).filter (fun s => b.isSet s)).length = S.card := by
  have hn : ((List.finRange 81).filter (fun s => b.isSet s)).Nodup := (List.nodup_finRange 81).filter _
  rw [← List.toFinset_card_of_nodup hn]
  congr 1
  ext s
  simp [h.2 s]

/-- The population count is the number of squares. -/
theorem C11_popCount (b : Bitboard) (S : Finset Square) (h : Represents b S) : b.popCount = S.card := by
  rw [represents_iff] at h
  rw [h.1.popCount_eq, card_eq b S h]

/-- The one-bit tests (with and without POPCNT) decide whether the set has exactly one member. -/
theorem C11_isOneBit (b : Bitboard) (S : Finset Square) (h : Represents b S) :
    (b.isOneBit = true ↔ S.card = 1) ∧ (b.isOneBitPop = true ↔ S.card = 1) := by
  have hc := C11_popCount b S h
  have hl : b.popCount = (Bitboard.bits b.p0).length + (Bitboard.bits b.p1).length := by
    unfold Bitboard.popCount Bitboard.count1s Bitboard.bits
    rw [List.countP_eq_length_filter, List.countP_eq_length_filter]
  have hz : ∀ x : BitVec 64, (Bitboard.bits x).length = 0 ↔ x = 0#64 := by
    intro x
    constructor
    · intro hx
      by_contra hne
      rw [Bitboard.bits_cons x hne] at hx; simp at hx
    · rintro rfl; rw [Bitboard.bits_zero]; rfl
  constructor
  · rw [← hc, hl]
    unfold Bitboard.isOneBit
    by_cases ha : b.isAny = true
    · simp only [ha, Bool.not_true, Bool.false_eq_true, if_false]
      by_cases h0 : b.p0 = 0#64
      · have h1 : b.p1 ≠ 0#64 := by
          intro h1
          have := (Bitboard.not_isAny b).mpr ⟨h0, h1⟩
          rw [ha] at this; cases this
        rw [if_neg (by simpa using h0), h0, Bitboard.bits_zero, Bitboard.bits_cons _ h1]
        have := hz (Bitboard.clearLow b.p1)
        simp only [beq_iff_eq, List.length_nil, List.length_cons]
        rw [show b.p1 &&& (b.p1 - 1#64) = Bitboard.clearLow b.p1 from rfl, ← this]
        omega
      · rw [if_pos (by simpa using h0), Bitboard.bits_cons _ h0]
        have e0 := hz (Bitboard.clearLow b.p0)
        have e1 := hz b.p1
        simp only [beq_iff_eq, List.length_cons]
        rw [show b.p0 &&& (b.p0 - 1#64) = Bitboard.clearLow b.p0 from rfl, BitVec.or_eq_zero_iff, ← e0, ← e1]
        omega
    · have := (Bitboard.not_isAny b).mp (by simpa using ha)
      simp [ha, this.1, this.2, Bitboard.bits_zero]
  · rw [← hc]; unfold Bitboard.isOneBitPop; exact beq_iff_eq

/-- First-square extraction on a non-empty set: the least member, and what remains is the set without it. -/
theorem C11_popFirst (b : Bitboard) (S : Finset Square) (h : Represents b S) (hS : S.Nonempty) :
    b.popFirst.1 = (S.min' hS).val ∧ Represents b.popFirst.2 (S.erase (S.min' hS)) ∧ b.first = (S.min' hS).val := by
  have hr := h
  rw [represents_iff] at h
  have hfirst : b.first = (S.min' hS).val :=
    h.1.first_eq _ ((h.2 _).mpr (S.min'_mem hS)) (fun t ht => S.min'_le t ((h.2 t).mp ht))
  have hf : b.first = b.popFirst.1 := by unfold Bitboard.first Bitboard.popFirst; split <;> rfl
  refine ⟨hf ▸ hfirst, ?_, hfirst⟩
  have hmem := S.min'_mem hS
  obtain ⟨m, hm⟩ : ∃ m, m = S.min' hS := ⟨_, rfl⟩
  rw [← hm] at hfirst hmem ⊢
  have hle : ∀ t ∈ S, m ≤ t := fun t ht => hm ▸ S.min'_le t ht
  unfold Bitboard.popFirst Bitboard.first at *
  by_cases h0 : b.p0 = 0#64
  · rw [if_neg (by simpa using h0)] at hfirst ⊢
    have h1 : b.p1 ≠ 0#64 := by
      intro h1
      have hany := (C11_emptiness b b S S hr hr).1.mpr ⟨m, hmem⟩
      rw [(Bitboard.not_isAny b).mpr ⟨h0, h1⟩] at hany; cases hany
    constructor
    · intro i
      dsimp only
      rw [hr.1 i]
      constructor
      · rintro ⟨s, hs, e, hi⟩
        have := hle s hs
        have hms : m.val ≤ s.val := this
        omega
      · rintro ⟨s, hs, e, hi⟩
        exact ⟨s, Finset.mem_of_mem_erase hs, e, hi⟩
    · intro i
      dsimp only
      rw [Bitboard.clearLow_getLsbD _ h1, Bool.and_eq_true, hr.2 i, decide_eq_true_iff]
      constructor
      · rintro ⟨⟨s, hs, e⟩, hlt⟩
        refine ⟨s, Finset.mem_erase.mpr ⟨?_, hs⟩, e⟩
        intro hsm; rw [hsm] at e; omega
      · rintro ⟨s, hs, e⟩
        obtain ⟨hne, hs⟩ := Finset.mem_erase.mp hs
        refine ⟨⟨s, hs, e⟩, ?_⟩
        have h1 : m.val ≤ s.val := hle s hs
        have h2 : m.val ≠ s.val := fun e => hne (Fin.ext e.symm)
        omega
  · rw [if_pos (by simpa using h0)] at hfirst ⊢
    have hlt := (Bitboard.ctz_spec b.p0 h0)
    have hm63 : m.val < 63 := by
      obtain ⟨s, _, e, hi⟩ := (hr.1 (Bitboard.ctz b.p0)).mp hlt.2.1
      omega
    constructor
    · intro i
      dsimp only
      rw [Bitboard.clearLow_getLsbD _ h0, Bool.and_eq_true, hr.1 i, decide_eq_true_iff]
      constructor
      · rintro ⟨⟨s, hs, e, hi⟩, hlt⟩
        refine ⟨s, Finset.mem_erase.mpr ⟨?_, hs⟩, e, hi⟩
        intro hsm; rw [hsm] at e; omega
      · rintro ⟨s, hs, e, hi⟩
        obtain ⟨hne, hs⟩ := Finset.mem_erase.mp hs
        refine ⟨⟨s, hs, e, hi⟩, ?_⟩
        have h1 : m.val ≤ s.val := hle s hs
        have h2 : m.val ≠ s.val := fun e => hne (Fin.ext e.symm)
        omega
    · intro i
      dsimp only
      rw [hr.2 i]
      constructor
      · rintro ⟨s, hs, e⟩
        refine ⟨s, Finset.mem_erase.mpr ⟨?_, hs⟩, e⟩
        intro hsm; rw [hsm] at e; omega
      · rintro ⟨s, hs, e⟩
        exact ⟨s, Finset.mem_of_mem_erase hs, e⟩

/-- The iteration loop ends (within 128 rounds, whatever the bound given above that) and visits exactly the members,
each once, in ascending order. -/
theorem C11_iteration (b : Bitboard) (S : Finset Square) (h : Represents b S) (extra : Nat) :
    Bitboard.visit (128 + extra) b = (S.sort (· ≤ ·)).map Fin.val := by
  have hr := h
  rw [represents_iff] at h
  have hv : Bitboard.visit (128 + extra) b = Bitboard.visit 128 b := by
    rw [Bitboard.visit_full]
    exact Bitboard.visit_eq _ _ (by
      have := Bitboard.bits_length b.p0
      have := Bitboard.bits_length b.p1
      omega)
  rw [hv, h.1.visit_eq]
  congr 1
  refine Bitboard.sorted_ext (List.Pairwise.filter _ (List.pairwise_lt_finRange 81)) ?_ ?_
  · exact Finset.sortedLT_sort S |>.pairwise
  · intro s; simp [h.2 s]

/-- A set with members in both words (squares 0, 62, 63, 80). -/
example : Represents ⟨0x4000000000000001#64, 0x20001#64⟩ {0, 62, 63, 80} := by
  rw [represents_iff]
  refine ⟨⟨by decide, ?_⟩, by decide +kernel⟩
  intro i hi
  have h : (0x20001#64 : BitVec 64) <<< 0 = 0x20001#64 := by decide
  rcases Nat.lt_or_ge i 64 with h' | h'
  · have : ∀ j : Fin 64, 18 ≤ j.val → (0x20001#64).getLsbD j.val = false := by decide
    exact this ⟨i, h'⟩ hi
  · exact BitVec.getLsbD_of_ge _ _ h'

end Verif
