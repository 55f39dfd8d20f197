import Verif.Model.Bitboard
import Mathlib.Data.List.Basic
import Mathlib.Data.List.FinRange
import Mathlib.Data.Fintype.Basic
import Mathlib.Tactic.IntervalCases

/-! Helper lemmas: bitboards as sets of squares. -/

namespace Verif
namespace Bitboard

theorem and_p0 (a b : Bitboard) : (a &&& b).p0 = a.p0 &&& b.p0 := rfl
theorem and_p1 (a b : Bitboard) : (a &&& b).p1 = a.p1 &&& b.p1 := rfl
theorem or_p0 (a b : Bitboard) : (a ||| b).p0 = a.p0 ||| b.p0 := rfl
theorem or_p1 (a b : Bitboard) : (a ||| b).p1 = a.p1 ||| b.p1 := rfl
theorem xor_p0 (a b : Bitboard) : (a ^^^ b).p0 = a.p0 ^^^ b.p0 := rfl
theorem xor_p1 (a b : Bitboard) : (a ^^^ b).p1 = a.p1 ^^^ b.p1 := rfl
theorem not_p0 (a : Bitboard) : (~~~a).p0 = ~~~a.p0 := rfl
theorem not_p1 (a : Bitboard) : (~~~a).p1 = ~~~a.p1 := rfl

theorem and_twoPow_ne_zero (x : BitVec 64) (i : Nat) (hi : i < 64) :
    ((x &&& (1#64 <<< i)) != 0#64) = x.getLsbD i := by
  rw [← BitVec.twoPow_eq, BitVec.and_twoPow]
  have : (BitVec.twoPow 64 i != 0#64) = true := by
    simp only [bne_iff_ne, ne_eq]
    intro h
    have := congrArg (fun y => y.getLsbD i) h
    simp [hi] at this
  cases x.getLsbD i <;> simp [this]

/-- Which word bit a square is. -/
theorem isSet_eq (b : Bitboard) (s : Square) :
    b.isSet s = if s.val < 63 then b.p0.getLsbD s.val else b.p1.getLsbD (s.val - 63) := by
  unfold isSet andIsAny isAny setMask
  split
  · next h =>
    simp only [and_p0, and_p1, BitVec.and_zero, BitVec.or_zero]
    exact and_twoPow_ne_zero _ _ (by omega)
  · next h =>
    simp only [and_p0, and_p1, BitVec.and_zero, BitVec.zero_or]
    exact and_twoPow_ne_zero _ _ (by omega)

@[simp] theorem isSet_and (a b : Bitboard) (s : Square) : (a &&& b).isSet s = (a.isSet s && b.isSet s) := by
  simp only [isSet_eq, and_p0, and_p1, BitVec.getLsbD_and]; split <;> rfl
@[simp] theorem isSet_or (a b : Bitboard) (s : Square) : (a ||| b).isSet s = (a.isSet s || b.isSet s) := by
  simp only [isSet_eq, or_p0, or_p1, BitVec.getLsbD_or]; split <;> rfl
@[simp] theorem isSet_xor (a b : Bitboard) (s : Square) : (a ^^^ b).isSet s = (a.isSet s ^^ b.isSet s) := by
  simp only [isSet_eq, xor_p0, xor_p1, BitVec.getLsbD_xor]; split <;> rfl
@[simp] theorem isSet_not (a : Bitboard) (s : Square) : (~~~a).isSet s = !(a.isSet s) := by
  have := s.isLt
  simp only [isSet_eq, not_p0, not_p1, BitVec.getLsbD_not]
  split
  · next h => simp; omega
  · next h => simp; omega
@[simp] theorem isSet_andNot (a b : Bitboard) (s : Square) : (a.andNot b).isSet s = (a.isSet s && !b.isSet s) := by
  simp [andNot]
@[simp] theorem isSet_notAnd (a b : Bitboard) (s : Square) : (a.notAnd b).isSet s = (!a.isSet s && b.isSet s) := by
  simp [notAnd]
@[simp] theorem isSet_zero (s : Square) : zero.isSet s = false := by
  rw [isSet_eq]; simp [zero]
@[simp] theorem isSet_allOne (s : Square) : allOne.isSet s = true := by
  revert s; decide +kernel
theorem isSet_setMask (t s : Square) : (setMask t).isSet s = decide (s = t) := by
  have hs := s.isLt
  have ht := t.isLt
  rw [isSet_eq]
  unfold setMask
  by_cases h1 : t.val < 63 <;> by_cases h2 : s.val < 63 <;> simp only [h1, h2, if_true, if_false]
  · rw [← BitVec.twoPow_eq, BitVec.getLsbD_twoPow, Bool.eq_iff_iff]
    simp only [Bool.and_eq_true, decide_eq_true_eq, Fin.ext_iff]; omega
  · simp [Fin.ext_iff]; omega
  · simp [Fin.ext_iff]; omega
  · rw [← BitVec.twoPow_eq, BitVec.getLsbD_twoPow, Bool.eq_iff_iff]
    simp only [Bool.and_eq_true, decide_eq_true_eq, Fin.ext_iff]; omega
@[simp] theorem isSet_setMask_iff (t s : Square) : (setMask t).isSet s = true ↔ s = t := by
  rw [isSet_setMask]; simp
@[simp] theorem isSet_setBit (b : Bitboard) (t s : Square) :
    (b.setBit t).isSet s = (b.isSet s || decide (s = t)) := by
  rw [setBit, isSet_or, isSet_setMask]
@[simp] theorem isSet_clearBit (b : Bitboard) (t s : Square) :
    (b.clearBit t).isSet s = (b.isSet s && !decide (s = t)) := by
  rw [clearBit, isSet_andNot, isSet_setMask]
@[simp] theorem isSet_xorBit (b : Bitboard) (t s : Square) :
    (b.xorBit t).isSet s = (b.isSet s ^^ decide (s = t)) := by
  rw [xorBit, isSet_xor, isSet_setMask]
@[simp] theorem isSet_xorBit2 (b : Bitboard) (t u s : Square) :
    (b.xorBit2 t u).isSet s = (b.isSet s ^^ (decide (s = t) || decide (s = u))) := by
  rw [xorBit2, isSet_xor, isSet_or, isSet_setMask, isSet_setMask]

/-- No bits outside the 81 squares. -/
def WF (b : Bitboard) : Prop := b.p0.getLsbD 63 = false ∧ ∀ i, 18 ≤ i → b.p1.getLsbD i = false

theorem WF.and_left {a b : Bitboard} (h : a.WF) : (a &&& b).WF :=
  ⟨by rw [and_p0, BitVec.getLsbD_and, h.1]; rfl, fun i hi => by rw [and_p1, BitVec.getLsbD_and, h.2 i hi]; rfl⟩
theorem WF.and_right {a b : Bitboard} (h : b.WF) : (a &&& b).WF :=
  ⟨by rw [and_p0, BitVec.getLsbD_and, h.1, Bool.and_false],
    fun i hi => by rw [and_p1, BitVec.getLsbD_and, h.2 i hi, Bool.and_false]⟩
theorem WF.or {a b : Bitboard} (ha : a.WF) (hb : b.WF) : (a ||| b).WF :=
  ⟨by rw [or_p0, BitVec.getLsbD_or, ha.1, hb.1]; rfl,
    fun i hi => by rw [or_p1, BitVec.getLsbD_or, ha.2 i hi, hb.2 i hi]; rfl⟩
theorem WF.xor {a b : Bitboard} (ha : a.WF) (hb : b.WF) : (a ^^^ b).WF :=
  ⟨by rw [xor_p0, BitVec.getLsbD_xor, ha.1, hb.1]; rfl,
    fun i hi => by rw [xor_p1, BitVec.getLsbD_xor, ha.2 i hi, hb.2 i hi]; rfl⟩
theorem WF.andNot {a b : Bitboard} (h : a.WF) : (a.andNot b).WF := h.and_left
theorem WF.notAnd {a b : Bitboard} (h : b.WF) : (a.notAnd b).WF := h.and_right
theorem WF.zero : zero.WF := ⟨rfl, fun _ _ => by simp [Bitboard.zero]⟩
theorem WF.allOne : allOne.WF := by
  refine ⟨by decide, fun i hi => ?_⟩
  by_cases h : i < 64
  · have : ∀ j : Fin 64, 18 ≤ j.val → Bitboard.allOne.p1.getLsbD j.val = false := by decide +kernel
    exact this ⟨i, h⟩ hi
  · exact BitVec.getLsbD_of_ge _ _ (by omega)
theorem WF.setMask (s : Square) : (setMask s).WF := by
  have := s.isLt
  unfold Bitboard.setMask
  split
  · refine ⟨?_, fun i _ => by simp⟩
    rw [← BitVec.twoPow_eq, BitVec.getLsbD_twoPow]; simp; omega
  · refine ⟨by simp, fun i hi => ?_⟩
    rw [← BitVec.twoPow_eq, BitVec.getLsbD_twoPow]; simp; omega
theorem WF.setBit {b : Bitboard} (h : b.WF) (s : Square) : (b.setBit s).WF := h.or (WF.setMask s)
theorem WF.clearBit {b : Bitboard} (h : b.WF) (s : Square) : (b.clearBit s).WF := h.andNot
theorem WF.xorBit {b : Bitboard} (h : b.WF) (s : Square) : (b.xorBit s).WF := h.xor (WF.setMask s)
theorem WF.xorBit2 {b : Bitboard} (h : b.WF) (s t : Square) : (b.xorBit2 s t).WF :=
  h.xor ((WF.setMask s).or (WF.setMask t))

theorem WF.ext {a b : Bitboard} (ha : a.WF) (hb : b.WF) (h : ∀ s, a.isSet s = b.isSet s) : a = b := by
  obtain ⟨a0, a1⟩ := a
  obtain ⟨b0, b1⟩ := b
  have h0 : a0 = b0 := by
    apply BitVec.eq_of_getLsbD_eq
    intro i hi
    by_cases h63 : i < 63
    · have := h ⟨i, by omega⟩
      simp only [isSet_eq, h63, if_true] at this
      exact this
    · have : i = 63 := by omega
      subst this
      exact ha.1.trans hb.1.symm
  have h1 : a1 = b1 := by
    apply BitVec.eq_of_getLsbD_eq
    intro i hi
    by_cases h18 : i < 18
    · have := h ⟨i + 63, by omega⟩
      have e : ¬ i + 63 < 63 := by omega
      simp only [isSet_eq, e, if_false, Nat.add_sub_cancel] at this
      exact this
    · exact (ha.2 i (by omega)).trans (hb.2 i (by omega)).symm
  rw [h0, h1]

theorem not_isAny (b : Bitboard) : b.isAny = false ↔ b.p0 = 0#64 ∧ b.p1 = 0#64 := by
  simp only [isAny, bne_eq_false_iff_eq]
  constructor
  · intro h
    have g : ∀ i, (b.p0.getLsbD i || b.p1.getLsbD i) = false := by
      intro i; rw [← BitVec.getLsbD_or, h]; simp
    constructor
    · apply BitVec.eq_of_getLsbD_eq; intro i _; have := g i; simp at this; simp [this]
    · apply BitVec.eq_of_getLsbD_eq; intro i _; have := g i; simp at this; simp [this]
  · rintro ⟨h0, h1⟩; rw [h0, h1]; rfl

theorem WF.isAny_iff {b : Bitboard} (hb : b.WF) : b.isAny = true ↔ ∃ s, b.isSet s = true := by
  constructor
  · intro h
    by_contra hc
    push Not at hc
    have : b = Bitboard.zero := WF.ext hb WF.zero (fun s => by have := hc s; simp at this; simp [this])
    rw [this] at h
    exact absurd h (by decide)
  · rintro ⟨s, hs⟩
    by_contra hc
    have hc : b.isAny = false := by simpa using hc
    rw [not_isAny] at hc
    rw [isSet_eq, hc.1, hc.2] at hs
    simp at hs

theorem andIsAny_iff {a b : Bitboard} (h : a.WF ∨ b.WF) :
    a.andIsAny b = true ↔ ∃ s, a.isSet s = true ∧ b.isSet s = true := by
  unfold andIsAny
  have hw : (a &&& b).WF := h.elim WF.and_left WF.and_right
  rw [hw.isAny_iff]
  simp

/-! ### Lowest set bit -/

theorem xor_sub_one (x : BitVec 64) (i : Nat) (hi : i < 64) :
    (x ^^^ (x - 1#64)).getLsbD i = decide (∀ j, j < i → x.getLsbD j = false) := by
  have hmod : (∀ j, j < i → x.getLsbD j = false) ↔ x.toNat % 2^i = 0 := by
    constructor
    · intro h
      apply Nat.eq_of_testBit_eq
      intro j
      rw [Nat.testBit_mod_two_pow, Nat.zero_testBit]
      by_cases hj : j < i
      · have : x.toNat.testBit j = false := h j hj
        simp [this]
      · simp [hj]
    · intro h j hj
      have : (x.toNat % 2^i).testBit j = false := by rw [h, Nat.zero_testBit]
      rw [Nat.testBit_mod_two_pow] at this
      simp [hj] at this
      exact this
  have hdec : decide (∀ j, j < i → x.getLsbD j = false) = decide (x.toNat % 2^i = 0) := decide_eq_decide.mpr hmod
  rw [hdec, BitVec.getLsbD_xor]
  show (x.toNat.testBit i ^^ (x - 1#64).toNat.testBit i) = _
  have hx := x.isLt
  rw [BitVec.toNat_sub, Nat.testBit_eq_decide_div_mod_eq, Nat.testBit_eq_decide_div_mod_eq]
  obtain ⟨P, hP⟩ : ∃ P, P = 2^i := ⟨_, rfl⟩
  obtain ⟨Q, hQ⟩ : ∃ Q, Q = 2^(63 - i) := ⟨_, rfl⟩
  have hPQ : P * (2 * Q) = 2^64 := by
    rw [hP, hQ, ← Nat.pow_succ', ← Nat.pow_add]; congr 1; omega
  have hPpos : 0 < P := by rw [hP]; exact Nat.two_pow_pos _
  have hQpos : 0 < Q := by rw [hQ]; exact Nat.two_pow_pos _
  simp only [← hP]
  generalize x.toNat = n at hx ⊢
  have h1 : (1#64).toNat = 1 := rfl
  rw [h1]
  -- n = P * k + r
  obtain ⟨k, hk⟩ : ∃ k, k = n / P := ⟨_, rfl⟩
  obtain ⟨r, hr⟩ : ∃ r, r = n % P := ⟨_, rfl⟩
  have hn : n = P * k + r := by rw [hk, hr]; exact (Nat.div_add_mod n P).symm
  have hrP : r < P := by rw [hr]; exact Nat.mod_lt _ hPpos
  by_cases hr0 : r = 0
  · rw [← hr, hr0]
    by_cases hk0 : k = 0
    · have hn0 : n = 0 := by rw [hn, hk0, hr0]; simp
      subst hn0
      have e : (2^64 - 1 + 0) % 2^64 / P = 2 * Q - 1 := by
        rw [Nat.add_zero, Nat.mod_eq_of_lt (by omega), ← hPQ]
        have : P * (2 * Q) - 1 = P * (2 * Q - 1) + (P - 1) := by
          have : P * (2 * Q) = P * (2 * Q - 1) + P := by
            rw [← Nat.mul_succ]; congr 1; omega
          omega
        rw [this, Nat.mul_add_div hPpos, Nat.div_eq_of_lt (by omega), Nat.add_zero]
      rw [e, Nat.zero_div]
      have : (2 * Q - 1) % 2 = 1 := by omega
      rw [this]; rfl
    · have e : (2^64 - 1 + n) % 2^64 = n - 1 := by
        have : 1 ≤ n := by
          rw [hn]; have : 1 ≤ P * k := Nat.mul_pos hPpos (Nat.pos_of_ne_zero hk0)
          omega
        omega
      have e2 : (n - 1) / P = k - 1 := by
        have : n - 1 = P * (k - 1) + (P - 1) := by
          have : P * k = P * (k - 1) + P := by rw [← Nat.mul_succ]; congr 1; omega
          omega
        rw [this, Nat.mul_add_div hPpos, Nat.div_eq_of_lt (by omega), Nat.add_zero]
      rw [e, e2, ← hk]
      rcases Nat.mod_two_eq_zero_or_one k with h | h
      · have : (k - 1) % 2 = 1 := by omega
        rw [h, this]; rfl
      · have : (k - 1) % 2 = 0 := by omega
        rw [h, this]; rfl
  · have e : (2^64 - 1 + n) % 2^64 = n - 1 := by omega
    have e2 : (n - 1) / P = k := by
      have : n - 1 = P * k + (r - 1) := by omega
      rw [this, Nat.mul_add_div hPpos, Nat.div_eq_of_lt (by omega), Nat.add_zero]
    rw [e, e2, ← hk, ← hr]
    simp [hr0]

theorem ctz_spec (b : BitVec 64) (hb : b ≠ 0#64) :
    ctz b < 64 ∧ b.getLsbD (ctz b) = true ∧ ∀ j, j < ctz b → b.getLsbD j = false := by
  unfold ctz
  cases h : (List.range 64).find? (fun i => b.getLsbD i) with
  | none =>
    exfalso
    apply hb
    rw [List.find?_eq_none] at h
    apply BitVec.eq_of_getLsbD_eq
    intro i hi
    have := h i (by simpa using hi)
    simpa using this
  | some k =>
    have h1 := List.find?_some h
    have h2 := List.mem_of_find?_eq_some h
    refine ⟨by simpa using h2, by simpa using h1, ?_⟩
    intro j hj
    rw [List.find?_range_eq_some] at h
    simpa using h.2.2 j (by simpa using hj)

theorem clearLow_getLsbD (b : BitVec 64) (hb : b ≠ 0#64) (i : Nat) :
    (clearLow b).getLsbD i = (b.getLsbD i && decide (ctz b < i)) := by
  obtain ⟨h1, h2, h3⟩ := ctz_spec b hb
  by_cases hi : i < 64
  · have hx := xor_sub_one b i hi
    rw [BitVec.getLsbD_xor] at hx
    unfold clearLow
    rw [BitVec.getLsbD_and]
    by_cases hlt : ctz b < i
    · have : (decide (∀ j, j < i → b.getLsbD j = false)) = false := by
        simp only [decide_eq_false_iff_not]
        intro h; rw [h _ hlt] at h2; cases h2
      rw [this] at hx
      cases hbi : b.getLsbD i <;> cases hci : (b - 1#64).getLsbD i <;> simp_all
    · have : (decide (∀ j, j < i → b.getLsbD j = false)) = true := by
        simp only [decide_eq_true_eq]
        intro j hj; exact h3 j (by omega)
      rw [this] at hx
      cases hbi : b.getLsbD i <;> cases hci : (b - 1#64).getLsbD i <;> simp_all
  · rw [BitVec.getLsbD_of_ge _ _ (by omega), BitVec.getLsbD_of_ge b _ (by omega)]; rfl

/-! ### Iteration -/

/-- Two strictly ascending lists with the same members are equal. -/
theorem sorted_ext {α : Type} [LinearOrder α] : ∀ {l m : List α}, l.Pairwise (· < ·) → m.Pairwise (· < ·) →
    (∀ x, x ∈ l ↔ x ∈ m) → l = m
  | [], [], _, _, _ => rfl
  | [], b :: m, _, _, h => absurd ((h b).mpr (by simp)) (by simp)
  | a :: l, [], _, _, h => absurd ((h a).mp (by simp)) (by simp)
  | a :: l, b :: m, hl, hm, h => by
    rw [List.pairwise_cons] at hl hm
    have hab : a = b := by
      have h1 := (h a).mp (by simp)
      have h2 := (h b).mpr (by simp)
      rw [List.mem_cons] at h1 h2
      rcases h1 with h1 | h1
      · exact h1
      · rcases h2 with h2 | h2
        · exact h2.symm
        · exact absurd (lt_trans (hm.1 a h1) (hl.1 b h2)) (lt_irrefl _)
    subst hab
    congr 1
    refine sorted_ext hl.2 hm.2 (fun x => ?_)
    have := h x
    rw [List.mem_cons, List.mem_cons] at this
    constructor
    · intro hx
      rcases this.mp (Or.inr hx) with e | e
      · subst e; exact absurd (hl.1 x hx) (lt_irrefl _)
      · exact e
    · intro hx
      rcases this.mpr (Or.inr hx) with e | e
      · subst e; exact absurd (hm.1 x hx) (lt_irrefl _)
      · exact e

/-- Set bit positions of a word. -/
def bits (x : BitVec 64) : List Nat := (List.range 64).filter (fun i => x.getLsbD i)

theorem mem_bits (x : BitVec 64) (i : Nat) : i ∈ bits x ↔ x.getLsbD i = true := by
  simp only [bits, List.mem_filter, List.mem_range]
  constructor
  · exact fun h => h.2
  · intro h
    refine ⟨?_, h⟩
    by_contra hc
    rw [BitVec.getLsbD_of_ge _ _ (by omega)] at h
    cases h

theorem bits_sorted (x : BitVec 64) : (bits x).Pairwise (· < ·) := List.Pairwise.filter _ List.pairwise_lt_range

theorem bits_zero : bits 0#64 = [] := by
  simp [bits]

theorem bits_cons (x : BitVec 64) (hx : x ≠ 0#64) : bits x = ctz x :: bits (clearLow x) := by
  obtain ⟨h1, h2, h3⟩ := ctz_spec x hx
  refine sorted_ext (bits_sorted x) ?_ ?_
  · rw [List.pairwise_cons]
    refine ⟨fun i hi => ?_, bits_sorted _⟩
    rw [mem_bits, clearLow_getLsbD x hx] at hi
    simp at hi
    exact hi.2
  · intro i
    rw [List.mem_cons, mem_bits, mem_bits, clearLow_getLsbD x hx]
    constructor
    · intro hi
      by_cases he : i = ctz x
      · exact Or.inl he
      · right
        have : ¬ i < ctz x := fun hlt => by rw [h3 i hlt] at hi; cases hi
        simp [hi]; omega
    · rintro (rfl | hi)
      · exact h2
      · simp at hi; exact hi.1

theorem visit_eq (fuel : Nat) (b : Bitboard) (hf : (bits b.p0).length + (bits b.p1).length ≤ fuel) :
    visit fuel b = bits b.p0 ++ (bits b.p1).map (· + 63) := by
  induction fuel generalizing b with
  | zero =>
    have h0 : bits b.p0 = [] := List.length_eq_zero_iff.mp (by omega)
    have h1 : bits b.p1 = [] := List.length_eq_zero_iff.mp (by omega)
    rw [h0, h1]; rfl
  | succ n ih =>
    unfold visit
    by_cases ha : b.isAny = true
    · rw [if_pos ha]
      by_cases h0 : b.p0 = 0#64
      · have h1 : b.p1 ≠ 0#64 := by
          intro h1
          have : b.isAny = false := (not_isAny b).mpr ⟨h0, h1⟩
          rw [this] at ha; cases ha
        have hp : b.popFirst = (ctz b.p1 + 63, ⟨b.p0, clearLow b.p1⟩) := by
          unfold popFirst; rw [if_neg (by simpa using h0)]
        rw [hp]
        have hb := bits_cons b.p1 h1
        rw [ih]
        · dsimp only
          rw [h0, bits_zero, hb]; rfl
        · dsimp only
          rw [hb] at hf
          simp at hf ⊢; omega
      · have hp : b.popFirst = (ctz b.p0, ⟨clearLow b.p0, b.p1⟩) := by
          unfold popFirst; rw [if_pos (by simpa using h0)]
        rw [hp]
        have hb := bits_cons b.p0 h0
        rw [ih]
        · dsimp only
          rw [hb]; rfl
        · dsimp only
          rw [hb] at hf
          simp at hf ⊢; omega
    · rw [if_neg ha]
      have := (not_isAny b).mp (by simpa using ha)
      rw [this.1, this.2, bits_zero]; rfl

theorem bits_length (x : BitVec 64) : (bits x).length ≤ 64 := by
  have := List.length_filter_le (fun i => x.getLsbD i) (List.range 64)
  simpa [bits] using this

theorem visit_full (b : Bitboard) : visit 128 b = bits b.p0 ++ (bits b.p1).map (· + 63) :=
  visit_eq 128 b (by have := bits_length b.p0; have := bits_length b.p1; omega)

theorem WF.visit_eq {b : Bitboard} (hb : b.WF) :
    visit 128 b = ((List.finRange 81).filter (fun s => b.isSet s)).map (fun s => s.val) := by
  rw [visit_full]
  refine sorted_ext ?_ ?_ ?_
  · rw [List.pairwise_append]
    refine ⟨bits_sorted _, ?_, ?_⟩
    · rw [List.pairwise_map]
      exact (bits_sorted _).imp (by intro a b h; omega)
    · intro x hx y hy
      rw [mem_bits] at hx
      rw [List.mem_map] at hy
      obtain ⟨z, -, rfl⟩ := hy
      have h64 : x < 64 := by
        by_contra hc
        rw [BitVec.getLsbD_of_ge _ _ (by omega)] at hx; cases hx
      have : x ≠ 63 := by rintro rfl; rw [hb.1] at hx; cases hx
      omega
  · rw [List.pairwise_map]
    exact (List.Pairwise.filter _ (List.pairwise_lt_finRange 81)).imp (by intro a b h; exact h)
  · intro x
    simp only [List.mem_append, List.mem_map, mem_bits, List.mem_filter, List.mem_finRange, true_and]
    constructor
    · rintro (h | ⟨i, h, rfl⟩)
      · have h64 : x < 64 := by
          by_contra hc
          rw [BitVec.getLsbD_of_ge _ _ (by omega)] at h; cases h
        have h63 : x ≠ 63 := by rintro rfl; rw [hb.1] at h; cases h
        exact ⟨⟨x, by omega⟩, by rw [isSet_eq, if_pos (by show x < 63; omega)]; exact h, rfl⟩
      · have h18 : i < 18 := by
          by_contra hc
          rw [hb.2 i (by omega)] at h; cases h
        refine ⟨⟨i + 63, by omega⟩, ?_, rfl⟩
        rw [isSet_eq, if_neg (by show ¬ i + 63 < 63; omega)]
        show b.p1.getLsbD (i + 63 - 63) = true
        rw [Nat.add_sub_cancel]; exact h
    · rintro ⟨s, h, rfl⟩
      rw [isSet_eq] at h
      by_cases hs : s.val < 63
      · rw [if_pos hs] at h; exact Or.inl h
      · rw [if_neg hs] at h
        exact Or.inr ⟨s.val - 63, h, by omega⟩

theorem WF.toList_eq {b : Bitboard} (hb : b.WF) : b.toList = (List.finRange 81).filter (fun s => b.isSet s) := by
  unfold toList
  rw [hb.visit_eq, List.filterMap_map]
  have : ((fun n => if h : n < 81 then some (⟨n, h⟩ : Square) else none) ∘ fun s : Square => s.val) = some := by
    funext s; simp [s.isLt]
  rw [this, List.filterMap_some]

theorem WF.mem_toList {b : Bitboard} (hb : b.WF) (s : Square) : s ∈ b.toList ↔ b.isSet s = true := by
  rw [hb.toList_eq]; simp

theorem WF.nodup_toList {b : Bitboard} (hb : b.WF) : b.toList.Nodup := by
  rw [hb.toList_eq]; exact (List.nodup_finRange 81).filter _

theorem WF.popCount_eq {b : Bitboard} (hb : b.WF) :
    b.popCount = ((List.finRange 81).filter (fun s => b.isSet s)).length := by
  have h := hb.visit_eq
  rw [visit_full] at h
  have := congrArg List.length h
  simp only [List.length_append, List.length_map] at this
  unfold popCount count1s
  rw [List.countP_eq_length_filter, List.countP_eq_length_filter]
  exact this

theorem WF.first_eq {b : Bitboard} (hb : b.WF) (s : Square) (hs : b.isSet s = true)
    (hmin : ∀ t, b.isSet t = true → s ≤ t) : b.first = s.val := by
  have h := hb.visit_eq
  have ha : b.isAny = true := hb.isAny_iff.mpr ⟨s, hs⟩
  have hv : visit 128 b = b.popFirst.1 :: visit 127 b.popFirst.2 := by
    rw [visit, if_pos ha]
  have hf : b.first = b.popFirst.1 := by unfold first popFirst; split <;> rfl
  rw [hv] at h
  have hmem : b.popFirst.1 ∈ ((List.finRange 81).filter (fun s => b.isSet s)).map (fun s => s.val) := by
    rw [← h]; simp
  have hs' : s.val ∈ b.popFirst.1 :: visit 127 b.popFirst.2 := by
    rw [h]; simp only [List.mem_map, List.mem_filter, List.mem_finRange, true_and]; exact ⟨s, hs, rfl⟩
  have hsort : (b.popFirst.1 :: visit 127 b.popFirst.2).Pairwise (· < ·) := by
    rw [h, List.pairwise_map]
    exact (List.Pairwise.filter _ (List.pairwise_lt_finRange 81)).imp (by intro a b h; exact h)
  rw [List.mem_map] at hmem
  obtain ⟨t, ht, e⟩ := hmem
  simp at ht
  have h1 := hmin t ht
  rw [hf]
  rw [List.mem_cons] at hs'
  rcases hs' with hs' | hs'
  · exact hs'.symm
  · rw [List.pairwise_cons] at hsort
    have h2 := hsort.1 _ hs'
    have : s.val ≤ t.val := h1
    omega

end Bitboard
end Verif
