import Verif.Lemmas.Hand

/-!
# C09, C10: pieces in hand
-/

namespace Verif

/-- Number of pieces of each kind in one shogi set, in `HandPiece` order (pawn, lance, knight, silver, gold,
bishop, rook). -/
def setSize : Nat → Nat
  | 0 => 18 | 1 => 4 | 2 => 4 | 3 => 4 | 4 => 4 | 5 => 2 | 6 => 2
  | _ => 0

/-- A hand value whose counts are `n` and which carries no stray bits: the intended meaning of the packed word. -/
structure HandIs (h : Hand) (n : Nat → Nat) : Prop where
  counts : ∀ i < 7, h.numOf i = n i
  noStray : ∀ h' : Hand, (∀ i < 7, h'.numOf i = n i) → h.toNat ≤ h'.toNat

theorem HandIs.wf {h : Hand} {n : Nat → Nat} (hh : HandIs h n) : h.WF := by
  have hb : ∀ i < 7, h.numOf i < 2^(Hand.width i) := fun i hi => Hand.numOf_lt h i hi
  have e := Hand.ofCounts_toNat h.numOf hb
  have hc := Hand.numOf_of_pack (Hand.ofCounts h.numOf) h.numOf hb e
  have h1 := hh.noStray (Hand.ofCounts h.numOf) (fun i hi => (hc i hi).trans (hh.counts i hi))
  have h2 := Hand.pack_numOf_le h
  unfold Hand.WF
  omega

theorem HandIs.of_wf {h : Hand} (hw : h.WF) (n : Nat → Nat) (hn : ∀ i < 7, h.numOf i = n i) : HandIs h n := by
  refine ⟨hn, fun h' hc => ?_⟩
  have h2 := Hand.pack_numOf_le h'
  have : Hand.pack h.numOf = Hand.pack h'.numOf := by
    unfold Hand.pack
    rw [hn 0 (by decide), hn 1 (by decide), hn 2 (by decide), hn 3 (by decide), hn 4 (by decide),
      hn 5 (by decide), hn 6 (by decide), hc 0 (by decide), hc 1 (by decide), hc 2 (by decide),
      hc 3 (by decide), hc 4 (by decide), hc 5 (by decide), hc 6 (by decide)]
  rw [hw, this]; exact h2

theorem setSize_lt (i : Nat) (hi : i < 7) : setSize i < 2^(Hand.width i) := by
  interval_cases i <;> decide

/-- **C09** (add): adding a piece of kind `hp` raises that count by one and no other, as long as the set size is
not exceeded. -/
theorem C09_plusOne (h : Hand) (n : Nat → Nat) (hh : HandIs h n) (hn : ∀ i < 7, n i ≤ setSize i)
    (hp : Nat) (h7 : hp < 7) (hroom : n hp < setSize hp) :
    HandIs (h.plusOne hp) (fun i => if i = hp then n i + 1 else n i) := by
  have hw := hh.wf
  have key : ∀ i < 7, (fun i => if i = hp then h.numOf i + 1 else h.numOf i) i < 2^(Hand.width i) := by
    intro i hi
    have := setSize_lt i hi
    have h1 := hn i hi
    have h2 := hh.counts i hi
    dsimp only
    split
    · next e => subst e; omega
    · omega
  have e : (h.plusOne hp).toNat = Hand.pack (fun i => if i = hp then h.numOf i + 1 else h.numOf i) := by
    have hl := Hand.pack_lt _ key
    rw [Hand.pack_update_add _ hp h7] at hl ⊢
    unfold Hand.plusOne
    rw [BitVec.toNat_add, Hand.one_toNat hp h7, hw]
    exact Nat.mod_eq_of_lt (by omega)
  have hc := Hand.numOf_of_pack _ _ key e
  refine HandIs.of_wf (Hand.wf_of_pack _ _ key e) _ ?_
  intro i hi
  rw [hc i hi, hh.counts i hi]

/-- **C09** (remove): removing a piece of kind `hp` that is present lowers that count by one and no other. -/
theorem C09_minusOne (h : Hand) (n : Nat → Nat) (hh : HandIs h n)
    (hp : Nat) (h7 : hp < 7) (hsome : 1 ≤ n hp) :
    HandIs (h.minusOne hp) (fun i => if i = hp then n i - 1 else n i) := by
  have hw := hh.wf
  have hb : ∀ i < 7, h.numOf i < 2^(Hand.width i) := fun i hi => Hand.numOf_lt h i hi
  have key : ∀ i < 7, (fun i => if i = hp then h.numOf i - 1 else h.numOf i) i < 2^(Hand.width i) := by
    intro i hi
    have := hb i hi
    dsimp only
    split <;> omega
  have e : (h.minusOne hp).toNat = Hand.pack (fun i => if i = hp then h.numOf i - 1 else h.numOf i) := by
    have hs := Hand.pack_update_sub h.numOf hp h7 (by rw [hh.counts hp h7]; exact hsome)
    have hl := Hand.pack_lt _ hb
    unfold Hand.minusOne
    rw [BitVec.toNat_sub, Hand.one_toNat hp h7, hw]
    generalize 2^(Hand.shiftBits hp) = p at hs ⊢
    omega
  have hc := Hand.numOf_of_pack _ _ key e
  refine HandIs.of_wf (Hand.wf_of_pack _ _ key e) _ ?_
  intro i hi
  rw [hc i hi, hh.counts i hi]

/-- **C09** (set-up): or-ing counts into an empty hand, kind by kind, reads back exactly those counts.
This is how `Position::set` and the decoders fill a hand; order is HRook..HPawn or any other list of distinct
kinds. -/
theorem C09_orEqual (h : Hand) (n : Nat → Nat) (hh : HandIs h n) (hp : Nat) (h7 : hp < 7) (hz : n hp = 0)
    (k : Nat) (hk : k ≤ setSize hp) :
    HandIs (h.orEqual k hp) (fun i => if i = hp then k else n i) := by
  have hw := hh.wf
  have hb : ∀ i < 7, h.numOf i < 2^(Hand.width i) := fun i hi => Hand.numOf_lt h i hi
  have hz' : h.numOf hp = 0 := by rw [hh.counts hp h7]; exact hz
  have hk' := setSize_lt hp h7
  have key : ∀ i < 7, (fun i => if i = hp then k else h.numOf i) i < 2^(Hand.width i) := by
    intro i hi
    have := hb i hi
    dsimp only
    split
    · next e => subst e; omega
    · omega
  have e : (h.orEqual k hp).toNat = Hand.pack (fun i => if i = hp then k else h.numOf i) := by
    unfold Hand.orEqual
    rw [BitVec.toNat_or, hw, ofNat_shl_toNat, Hand.pack_or _ hb hp h7 hz' k (by omega)]
    have : setSize hp * 2^(Hand.shiftBits hp) < 2^32 := by interval_cases hp <;> decide
    exact Nat.lt_of_le_of_lt (Nat.mul_le_mul_right _ hk) this
  have hc := Hand.numOf_of_pack _ _ key e
  refine HandIs.of_wf (Hand.wf_of_pack _ _ key e) _ ?_
  intro i hi
  rw [hc i hi, hh.counts i hi]

/-- The empty hand has no pieces. -/
theorem C09_empty : HandIs Hand.empty (fun _ => 0) :=
  HandIs.of_wf (by decide) _ (by intro i hi; interval_cases i <;> decide)

/-- An addition (`true`) or removal (`false`) of a piece kind. -/
abbrev HandOp := Bool × Nat

/-- Run operations on the packed hand. -/
def runHand (h : Hand) (ops : List HandOp) : Hand :=
  ops.foldl (fun h op => if op.1 then h.plusOne op.2 else h.minusOne op.2) h

/-- Run operations on seven plain counters. -/
def runCounts (n : Nat → Nat) (ops : List HandOp) : Nat → Nat :=
  ops.foldl (fun n op => fun i => if i = op.2 then (if op.1 then n i + 1 else n i - 1) else n i) n

/-- Every step stays within the shogi set: no removal of an absent piece, no addition beyond the set. -/
def OpsFit (n : Nat → Nat) : List HandOp → Prop
  | [] => True
  | op :: ops => op.2 < 7 ∧ (if op.1 then n op.2 < setSize op.2 else 1 ≤ n op.2) ∧
      OpsFit (runCounts n [op]) ops

/-- **C09** (any history): after any sequence of additions and removals that stays within a shogi set, the packed
hand reads back as seven independent counters. -/
theorem C09_history (ops : List HandOp) (h : Hand) (n : Nat → Nat) (hh : HandIs h n)
    (hn : ∀ i < 7, n i ≤ setSize i) (hfit : OpsFit n ops) :
    HandIs (runHand h ops) (runCounts n ops) := by
  induction ops generalizing h n with
  | nil => exact hh
  | cons op ops ih =>
    obtain ⟨b, hp⟩ := op
    obtain ⟨h7, hroom, hrest⟩ := hfit
    cases b with
    | true =>
      simp only [if_true] at hroom
      refine ih (h.plusOne hp) _ ?_ ?_ hrest
      · exact C09_plusOne h n hh hn hp h7 hroom
      · intro i hi
        show (if i = hp then _ else n i) ≤ _
        have := hn i hi
        split
        · next e => subst e; exact hroom
        · exact this
    | false =>
      simp only [reduceCtorEq, if_false] at hroom
      refine ih (h.minusOne hp) _ ?_ ?_ hrest
      · exact C09_minusOne h n hh hp h7 hroom
      · intro i hi
        show (if i = hp then _ else n i) ≤ _
        have := hn i hi
        split
        · simp; omega
        · exact this

example : OpsFit (fun _ => 0) [(true, 0), (true, 6), (true, 0), (false, 0), (true, 5)] := by
  simp [OpsFit, runCounts, setSize]

/-- Filling a hand from seven counts, in the given order of kinds. -/
def fillHand (k : Nat → Nat) (order : List Nat) : Hand :=
  order.foldl (fun h hp => h.orEqual (k hp) hp) Hand.empty

/-- **C09** (set-up): filling an empty hand from counts within a shogi set reads back the same counts. -/
theorem C09_fill (k : Nat → Nat) (hk : ∀ i < 7, k i ≤ setSize i) (order : List Nat) (hnd : order.Nodup)
    (h7 : ∀ i ∈ order, i < 7) :
    HandIs (fillHand k order) (fun i => if i ∈ order then k i else 0) := by
  unfold fillHand
  suffices H : ∀ (order : List Nat) (h : Hand) (n : Nat → Nat), HandIs h n → order.Nodup → (∀ i ∈ order, i < 7) →
      (∀ i ∈ order, n i = 0) →
      HandIs (order.foldl (fun h hp => h.orEqual (k hp) hp) h) (fun i => if i ∈ order then k i else n i) by
    exact H order _ _ C09_empty hnd h7 (fun _ _ => rfl)
  intro order
  induction order with
  | nil => intro h n hh _ _ _; simpa using hh
  | cons a l ih =>
    intro h n hh hnd h7 hz
    have hnd' := List.nodup_cons.mp hnd
    have step := C09_orEqual h n hh a (h7 a (by simp)) (hz a (by simp)) (k a) (hk a (h7 a (by simp)))
    have := ih _ _ step hnd'.2 (fun i hi => h7 i (by simp [hi])) (by
      intro i hi
      have : i ≠ a := by rintro rfl; exact hnd'.1 hi
      simp [this, hz i (by simp [hi])])
    have e : (fun i => if i ∈ a :: l then k i else n i) =
        (fun i => if i ∈ l then k i else if i = a then k a else n i) := by
      funext i
      by_cases h1 : i ∈ l <;> by_cases h2 : i = a <;> simp [h1, h2]
    rw [e]; exact this

/-- **C09**: the template accessor (unmasked rook field) agrees with the table accessor on proper hands. -/
theorem C09_numOfT (h : Hand) (n : Nat → Nat) (hh : HandIs h n) (hp : Nat) (h7 : hp < 7) :
    h.numOfT hp = n hp := by
  by_cases e : hp = 6
  · subst e
    rw [Hand.numOfT, if_pos rfl, ← hh.counts 6 (by decide), BitVec.toNat_ushiftRight,
      Nat.shiftRight_eq_div_pow, hh.wf]
    have := Hand.numOf_bounds h
    simp only [Hand.pack, Hand.shiftBits]
    omega
  · rw [Hand.numOfT, if_neg e]; exact hh.counts hp h7

/-- **C09**: the existence test agrees with the count. -/
theorem C09_has (h : Hand) (n : Nat → Nat) (hh : HandIs h n) (hp : Nat) (h7 : hp < 7) :
    h.has hp = true ↔ 1 ≤ n hp := by
  rw [← hh.counts hp h7, Hand.has, Hand.numOf]
  constructor
  · intro h1
    by_contra hc
    have h0 : ((h &&& Hand.mask hp) >>> Hand.shiftBits hp) = 0#32 := by
      apply BitVec.eq_of_toNat_eq; simp at hc ⊢; omega
    have : (h &&& Hand.mask hp) = 0#32 := by
      apply BitVec.eq_of_getLsbD_eq
      intro i hi
      by_cases hs : i < Hand.shiftBits hp
      · rw [BitVec.getLsbD_and, Hand.mask, BitVec.getLsbD_shiftLeft]; simp [hs]
      · have := congrArg (fun x => x.getLsbD (i - Hand.shiftBits hp)) h0
        simp only [BitVec.getLsbD_ushiftRight] at this
        rw [show Hand.shiftBits hp + (i - Hand.shiftBits hp) = i by omega] at this
        rw [this]; simp
    rw [this] at h1; simp at h1
  · intro h1
    by_contra hc
    simp only [bne_iff_ne, ne_eq, not_not] at hc
    rw [hc] at h1; simp at h1

/-! ## C10 -/

theorem borrow_bits (x : BitVec 32) : (x &&& Hand.borrowMask) = 0#32 ↔
    (x.getLsbD 5 = false ∧ x.getLsbD 9 = false ∧ x.getLsbD 13 = false ∧ x.getLsbD 17 = false ∧
      x.getLsbD 21 = false ∧ x.getLsbD 24 = false ∧ x.getLsbD 27 = false) := by
  constructor
  · intro h
    have g : ∀ i, (x.getLsbD i && Hand.borrowMask.getLsbD i) = false := by
      intro i; rw [← BitVec.getLsbD_and, h]; simp
    have k : ∀ i, Hand.borrowMask.getLsbD i = true → x.getLsbD i = false := by
      intro i hi; have := g i; rw [hi] at this; simpa using this
    exact ⟨k 5 (by decide), k 9 (by decide), k 13 (by decide), k 17 (by decide), k 21 (by decide),
      k 24 (by decide), k 27 (by decide)⟩
  · rintro ⟨h1, h2, h3, h4, h5, h6, h7⟩
    apply BitVec.eq_of_getLsbD_eq
    intro i hi
    rw [BitVec.getLsbD_and]
    by_cases hb : Hand.borrowMask.getLsbD i = true
    · have : i = 5 ∨ i = 9 ∨ i = 13 ∨ i = 17 ∨ i = 21 ∨ i = 24 ∨ i = 27 := by
        revert hb; interval_cases i <;> decide
      rcases this with rfl | rfl | rfl | rfl | rfl | rfl | rfl <;> rw [BitVec.getLsbD_zero] <;>
        simp only [h1, h2, h3, h4, h5, h6, h7, Bool.false_and]
    · simp [hb]

/-- **C10**: the packed-subtraction test is exactly the pointwise comparison of the seven counts. -/
theorem C10_superior_iff (h r : Hand) (n m : Nat → Nat) (hh : HandIs h n) (hr : HandIs r m) :
    h.isEqualOrSuperior r = true ↔ ∀ i < 7, m i ≤ n i := by
  have hw := hh.wf
  have rw' := hr.wf
  have hb := Hand.numOf_bounds h
  have rb := Hand.numOf_bounds r
  have hc := hh.counts
  have rc := hr.counts
  rw [hc 0 (by decide), hc 1 (by decide), hc 2 (by decide), hc 3 (by decide), hc 4 (by decide),
    hc 5 (by decide), hc 6 (by decide)] at hb
  rw [rc 0 (by decide), rc 1 (by decide), rc 2 (by decide), rc 3 (by decide), rc 4 (by decide),
    rc 5 (by decide), rc 6 (by decide)] at rb
  unfold Hand.WF Hand.pack at hw rw'
  rw [hc 0 (by decide), hc 1 (by decide), hc 2 (by decide), hc 3 (by decide), hc 4 (by decide),
    hc 5 (by decide), hc 6 (by decide)] at hw
  rw [rc 0 (by decide), rc 1 (by decide), rc 2 (by decide), rc 3 (by decide), rc 4 (by decide),
    rc 5 (by decide), rc 6 (by decide)] at rw'
  have all7 : (∀ i < 7, m i ≤ n i) ↔ (m 0 ≤ n 0 ∧ m 1 ≤ n 1 ∧ m 2 ≤ n 2 ∧ m 3 ≤ n 3 ∧ m 4 ≤ n 4 ∧ m 5 ≤ n 5 ∧
      m 6 ≤ n 6) := by
    constructor
    · intro H
      exact ⟨H 0 (by decide), H 1 (by decide), H 2 (by decide), H 3 (by decide), H 4 (by decide), H 5 (by decide),
        H 6 (by decide)⟩
    · rintro ⟨h0, h1, h2, h3, h4, h5, h6⟩ i hi
      interval_cases i <;> assumption
  have bit : ∀ (x : BitVec 32) (i : Nat), x.getLsbD i = false ↔ x.toNat / 2^i % 2 = 0 := by
    intro x i
    show x.toNat.testBit i = false ↔ _
    rw [Nat.testBit_eq_decide_div_mod_eq]
    simp only [decide_eq_false_iff_not]; omega
  rw [all7, Hand.isEqualOrSuperior, beq_iff_eq, borrow_bits]
  simp only [bit]
  rw [BitVec.toNat_sub, hw, rw']
  clear hw rw' hh hr hc rc all7 bit
  generalize n 0 = n0 at *
  generalize n 1 = n1 at *
  generalize n 2 = n2 at *
  generalize n 3 = n3 at *
  generalize n 4 = n4 at *
  generalize n 5 = n5 at *
  generalize n 6 = n6 at *
  generalize m 0 = m0 at *
  generalize m 1 = m1 at *
  generalize m 2 = m2 at *
  generalize m 3 = m3 at *
  generalize m 4 = m4 at *
  generalize m 5 = m5 at *
  generalize m 6 = m6 at *
  obtain ⟨d, hd⟩ : ∃ d, d = (2^32 - (m0 + m1 * 2^6 + m2 * 2^10 + m3 * 2^14 + m4 * 2^18 + m5 * 2^22 + m6 * 2^25) +
    (n0 + n1 * 2^6 + n2 * 2^10 + n3 * 2^14 + n4 * 2^18 + n5 * 2^22 + n6 * 2^25)) % 2^32 := ⟨_, rfl⟩
  rw [← hd]
  obtain ⟨hb0, hb1, hb2, hb3, hb4, hb5, hb6⟩ := hb
  obtain ⟨rb0, rb1, rb2, rb3, rb4, rb5, rb6⟩ := rb
  -- peel off one digit at a time; `E` is the (signed) difference of the remaining digits
  obtain ⟨E1, hE1⟩ : ∃ E : Int, E = (n1 - m1) + 16 * ((n2 - m2) + 16 * ((n3 - m3) + 16 * ((n4 - m4) + 16 *
    ((n5 - m5) + 8 * (n6 - m6))))) := ⟨_, rfl⟩
  have k0 : ∃ q : Int, (d : Int) = (n0 - m0) + 64 * E1 + 2^32 * q := by
    refine ⟨((d : Int) - ((n0 - m0) + 64 * E1)) / 2^32, ?_⟩
    omega
  clear hd
  obtain ⟨E2, hE2⟩ : ∃ E : Int, E = (n2 - m2) + 16 * ((n3 - m3) + 16 * ((n4 - m4) + 16 *
    ((n5 - m5) + 8 * (n6 - m6)))) := ⟨_, rfl⟩
  obtain ⟨E3, hE3⟩ : ∃ E : Int, E = (n3 - m3) + 16 * ((n4 - m4) + 16 * ((n5 - m5) + 8 * (n6 - m6))) := ⟨_, rfl⟩
  obtain ⟨E4, hE4⟩ : ∃ E : Int, E = (n4 - m4) + 16 * ((n5 - m5) + 8 * (n6 - m6)) := ⟨_, rfl⟩
  obtain ⟨E5, hE5⟩ : ∃ E : Int, E = (n5 - m5) + 8 * (n6 - m6) := ⟨_, rfl⟩
  rw [← hE5] at hE4 hE3 hE2 hE1
  rw [← hE4] at hE3 hE2 hE1
  rw [← hE3] at hE2 hE1
  rw [← hE2] at hE1
  obtain ⟨q, k0⟩ := k0
  have s0 : d / 2^5 % 2 = 0 ↔ m0 ≤ n0 := by clear hE1 hE2 hE3 hE4 hE5; omega
  rw [s0]
  refine and_congr_right fun c0 => ?_
  have k1 : ((d / 2^6 : Nat) : Int) = E1 + 2^26 * q := by clear hE1 hE2 hE3 hE4 hE5; omega
  have b1 : d / 2^9 = d / 2^6 / 2^3 := by omega
  have b2 : d / 2^13 = d / 2^6 / 2^7 := by omega
  have b3 : d / 2^17 = d / 2^6 / 2^11 := by omega
  have b4 : d / 2^21 = d / 2^6 / 2^15 := by omega
  have b5 : d / 2^24 = d / 2^6 / 2^18 := by omega
  have b6 : d / 2^27 = d / 2^6 / 2^21 := by omega
  rw [b1, b2, b3, b4, b5, b6]
  generalize d / 2^6 = d1 at k1
  clear b1 b2 b3 b4 b5 b6 s0 k0
  have s1 : d1 / 2^3 % 2 = 0 ↔ m1 ≤ n1 := by clear hE2 hE3 hE4 hE5; omega
  rw [s1]
  refine and_congr_right fun c1 => ?_
  have k2 : ((d1 / 2^4 : Nat) : Int) = E2 + 2^22 * q := by clear hE2 hE3 hE4 hE5; omega
  have b2 : d1 / 2^7 = d1 / 2^4 / 2^3 := by omega
  have b3 : d1 / 2^11 = d1 / 2^4 / 2^7 := by omega
  have b4 : d1 / 2^15 = d1 / 2^4 / 2^11 := by omega
  have b5 : d1 / 2^18 = d1 / 2^4 / 2^14 := by omega
  have b6 : d1 / 2^21 = d1 / 2^4 / 2^17 := by omega
  rw [b2, b3, b4, b5, b6]
  generalize d1 / 2^4 = d2 at k2
  clear b2 b3 b4 b5 b6 s1 k1 hE1
  have s2 : d2 / 2^3 % 2 = 0 ↔ m2 ≤ n2 := by clear hE3 hE4 hE5; omega
  rw [s2]
  refine and_congr_right fun c2 => ?_
  have k3 : ((d2 / 2^4 : Nat) : Int) = E3 + 2^18 * q := by clear hE3 hE4 hE5; omega
  have b3 : d2 / 2^7 = d2 / 2^4 / 2^3 := by omega
  have b4 : d2 / 2^11 = d2 / 2^4 / 2^7 := by omega
  have b5 : d2 / 2^14 = d2 / 2^4 / 2^10 := by omega
  have b6 : d2 / 2^17 = d2 / 2^4 / 2^13 := by omega
  rw [b3, b4, b5, b6]
  generalize d2 / 2^4 = d3 at k3
  clear b3 b4 b5 b6 s2 k2 hE2
  have s3 : d3 / 2^3 % 2 = 0 ↔ m3 ≤ n3 := by clear hE4 hE5; omega
  rw [s3]
  refine and_congr_right fun c3 => ?_
  have k4 : ((d3 / 2^4 : Nat) : Int) = E4 + 2^14 * q := by clear hE4 hE5; omega
  have b4 : d3 / 2^7 = d3 / 2^4 / 2^3 := by omega
  have b5 : d3 / 2^10 = d3 / 2^4 / 2^6 := by omega
  have b6 : d3 / 2^13 = d3 / 2^4 / 2^9 := by omega
  rw [b4, b5, b6]
  generalize d3 / 2^4 = d4 at k4
  clear b4 b5 b6 s3 k3 hE3
  have s4 : d4 / 2^3 % 2 = 0 ↔ m4 ≤ n4 := by clear hE5; omega
  rw [s4]
  refine and_congr_right fun c4 => ?_
  have k5 : ((d4 / 2^4 : Nat) : Int) = E5 + 2^10 * q := by clear hE5; omega
  have b5 : d4 / 2^6 = d4 / 2^4 / 2^2 := by omega
  have b6 : d4 / 2^9 = d4 / 2^4 / 2^5 := by omega
  rw [b5, b6]
  generalize d4 / 2^4 = d5 at k5
  clear b5 b6 s4 k4 hE4
  have s5 : d5 / 2^2 % 2 = 0 ↔ m5 ≤ n5 := by omega
  rw [s5]
  refine and_congr_right fun c5 => ?_
  omega

-- five pawns and a rook against four pawns: superior
example : HandIs (Hand.ofCounts fun i => if i = 0 then 5 else if i = 6 then 1 else 0)
    (fun i => if i = 0 then 5 else if i = 6 then 1 else 0) :=
  HandIs.of_wf (by decide) _ (by intro i hi; interval_cases i <;> decide)
example : (Hand.ofCounts fun i => if i = 0 then 5 else if i = 6 then 1 else 0).isEqualOrSuperior
    (Hand.ofCounts fun i => if i = 0 then 4 else 0) = true := by decide
example : (Hand.ofCounts fun i => if i = 0 then 5 else 0).isEqualOrSuperior
    (Hand.ofCounts fun i => if i = 1 then 1 else 0) = false := by decide

end Verif
