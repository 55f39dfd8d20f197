import Verif.Model.Dfpn
import Verif.Props.Hands

/-!
# Packed hands in the df-pn search: fields, their union, `setPP`, `dp`, and an underflow
-/

namespace Verif
namespace Hand

theorem superior_iff {a b : Hand} (ha : a.WF) (hb : b.WF) : a.isEqualOrSuperior b = true ↔ ∀ i < 7, b.numOf i ≤ a.numOf i :=
  C10_superior_iff a b a.numOf b.numOf (HandIs.of_wf ha _ fun _ _ => rfl) (HandIs.of_wf hb _ fun _ _ => rfl)

theorem plus_wf {h : Hand} (hw : h.WF) {hp : Nat} (h7 : hp < 7) (hr : h.numOf hp + 1 < 2 ^ width hp) :
    (h.plusOne hp).WF ∧ ∀ i < 7, (h.plusOne hp).numOf i = if i = hp then h.numOf i + 1 else h.numOf i := by
  have key : ∀ i < 7, (fun i => if i = hp then h.numOf i + 1 else h.numOf i) i < 2^(width i) := by
    intro i hi
    have := numOf_lt h i hi
    dsimp only
    split
    · next e => subst e; omega
    · omega
  have e : (h.plusOne hp).toNat = pack (fun i => if i = hp then h.numOf i + 1 else h.numOf i) := by
    have hl := pack_lt _ key
    rw [pack_update_add _ hp h7] at hl ⊢
    unfold plusOne
    rw [BitVec.toNat_add, one_toNat hp h7, hw]
    exact Nat.mod_eq_of_lt (by omega)
  exact ⟨wf_of_pack _ _ key e, numOf_of_pack _ _ key e⟩

theorem minus_wf {h : Hand} (hw : h.WF) {hp : Nat} (h7 : hp < 7) (h1 : 1 ≤ h.numOf hp) :
    (h.minusOne hp).WF ∧ ∀ i < 7, (h.minusOne hp).numOf i = if i = hp then h.numOf i - 1 else h.numOf i :=
  have := C09_minusOne h h.numOf (HandIs.of_wf hw _ fun _ _ => rfl) hp h7 h1
  ⟨this.wf, this.counts⟩

theorem has_iff {h : Hand} (hw : h.WF) {hp : Nat} (h7 : hp < 7) : h.has hp = true ↔ 1 ≤ h.numOf hp :=
  C09_has h h.numOf (HandIs.of_wf hw _ fun _ _ => rfl) hp h7

theorem and_field (x w s : Nat) : x &&& ((2 ^ w - 1) <<< s) = (x >>> s % 2 ^ w) <<< s := by
  apply Nat.eq_of_testBit_eq
  intro i
  rw [Nat.testBit_and, Nat.testBit_shiftLeft, Nat.testBit_shiftLeft, Nat.testBit_mod_two_pow, Nat.testBit_two_pow_sub_one, Nat.testBit_shiftRight]
  by_cases h : s ≤ i
  · rw [show s + (i - s) = i by omega]
    simp only [h, decide_true, Bool.true_and]
    exact Bool.and_comm _ _
  · simp [h]

theorem field_toNat (h : Hand) {hp : Nat} (h7 : hp < 7) : (h.field hp).toNat = h.numOf hp * 2 ^ shiftBits hp := by
  have hm : (mask hp).toNat = (2 ^ width hp - 1) <<< shiftBits hp := by interval_cases hp <;> decide
  rw [numOf_eq h hp h7]
  unfold field
  rw [BitVec.toNat_and, hm, and_field, Nat.shiftLeft_eq, Nat.shiftRight_eq_div_pow]

theorem join_toNat {f : Nat → BitVec 32} {c : Nat → Nat} (hc : ∀ i < 7, c i < 2 ^ width i)
    (hf : ∀ i < 7, (f i).toNat = c i * 2 ^ shiftBits i) : (join f).toNat = pack c := by
  unfold join
  simp only [BitVec.toNat_or]
  rw [hf 0 (by decide), hf 1 (by decide), hf 2 (by decide), hf 3 (by decide), hf 4 (by decide), hf 5 (by decide), hf 6 (by decide)]
  have step : ∀ (n : Nat → Nat) (hn : ∀ i < 7, n i = 0 ∨ n i = c i) (hp : Nat) (h7 : hp < 7) (hz : n hp = 0),
      pack n ||| c hp * 2 ^ shiftBits hp = pack (fun i => if i = hp then c hp else n i) := fun n hn hp h7 hz =>
    pack_or n (fun i hi => by rcases hn i hi with e | e <;> rw [e]; exacts [Nat.two_pow_pos _, hc i hi]) hp h7 hz _ (hc hp h7)
  have e0 : c 0 * 2 ^ shiftBits 0 = pack (fun i => if i < 1 then c i else 0) := by simp [pack, shiftBits]
  have st : ∀ k, k < 7 → pack (fun i => if i < k then c i else 0) ||| c k * 2 ^ shiftBits k = pack (fun i => if i < k + 1 then c i else 0) := by
    intro k hk
    rw [step _ (fun i _ => by by_cases h : i < k <;> simp [h]) k hk (by simp)]
    congr 1
    funext i
    by_cases h1 : i = k
    · subst h1; simp
    · by_cases h2 : i < k
      · simp [h1, h2, show i < k + 1 by omega]
      · simp [h1, h2, show ¬ i < k + 1 by omega]
  rw [e0, st 1 (by decide), st 2 (by decide), st 3 (by decide), st 4 (by decide), st 5 (by decide), st 6 (by decide)]
  rfl

theorem join_wf {f : Nat → BitVec 32} {c : Nat → Nat} (hc : ∀ i < 7, c i < 2 ^ width i)
    (hf : ∀ i < 7, (f i).toNat = c i * 2 ^ shiftBits i) : (join f).WF ∧ ∀ i < 7, (join f).numOf i = c i :=
  ⟨wf_of_pack _ _ hc (join_toNat hc hf), numOf_of_pack _ _ hc (join_toNat hc hf)⟩

theorem join_field {h : Hand} (hw : h.WF) : join h.field = h := by
  have := join_wf (f := h.field) (c := h.numOf) (fun i hi => numOf_lt h i hi) (fun i hi => field_toNat h hi)
  exact ext_numOf _ _ this.1 hw this.2

/-- Masks chosen kind by kind. -/
def someMask (b : Nat → Bool) : BitVec 32 :=
  (if b 0 then 0#32 else mask 0) ||| (if b 1 then 0#32 else mask 1) ||| (if b 2 then 0#32 else mask 2) |||
  (if b 3 then 0#32 else mask 3) ||| (if b 4 then 0#32 else mask 4) ||| (if b 5 then 0#32 else mask 5) |||
  (if b 6 then 0#32 else mask 6)

theorem someMask_and (b : Nat → Bool) (i : Nat) (hi : i < 7) : someMask b &&& mask i = if b i then 0#32 else mask i := by
  have key : ∀ b0 b1 b2 b3 b4 b5 b6 : Bool, ∀ i : Fin 7,
      ((if b0 then 0#32 else mask 0) ||| (if b1 then 0#32 else mask 1) ||| (if b2 then 0#32 else mask 2) |||
        (if b3 then 0#32 else mask 3) ||| (if b4 then 0#32 else mask 4) ||| (if b5 then 0#32 else mask 5) |||
        (if b6 then 0#32 else mask 6)) &&& mask i.val =
      if [b0, b1, b2, b3, b4, b5, b6][i.val]! then 0#32 else mask i.val := by decide +kernel
  have := key (b 0) (b 1) (b 2) (b 3) (b 4) (b 5) (b 6) ⟨i, hi⟩
  unfold someMask
  rw [this]
  interval_cases i <;> rfl

theorem wf_iff (h : Hand) : h.WF ↔ h &&& ~~~(someMask fun _ => false) = 0#32 := by
  have e : h &&& someMask (fun _ => false) = join h.field := by
    unfold someMask join field
    simp only [Bool.false_eq_true, if_false]
    ext i hi
    simp only [BitVec.getElem_and, BitVec.getElem_or]
    cases h[i] <;> simp
  constructor
  · intro hw
    rw [← join_field hw, ← e]
    ext i hi
    simp
  · intro h0
    have : h = join h.field := by
      rw [← e]
      ext i hi
      have := congrArg (fun x => x[i]) h0
      simp only [BitVec.getElem_and, BitVec.getElem_not, BitVec.getElem_zero] at this ⊢
      revert this
      cases h[i] <;> simp
    rw [this]
    exact (join_wf (f := h.field) (c := h.numOf) (fun i hi => numOf_lt h i hi) (fun i hi => field_toNat h hi)).1

theorem setPP_wf {h us : Hand} (them : Hand) (hw : h.WF) (hu : us.WF) : (h.setPP us them).WF ∧
    ∀ i < 7, (h.setPP us them).numOf i = if them.has i then h.numOf i else us.numOf i := by
  have hM : absentMask them = someMask them.has := rfl
  refine ⟨?_, fun i hi => ?_⟩
  · rw [wf_iff] at hw hu ⊢
    unfold setPP
    ext i hi
    have h1 := congrArg (fun x => x[i]) hw
    have h2 := congrArg (fun x => x[i]) hu
    simp only [BitVec.getElem_and, BitVec.getElem_or, BitVec.getElem_not, BitVec.getElem_zero] at h1 h2 ⊢
    revert h1 h2
    cases h[i] <;> cases us[i] <;> cases (someMask fun _ => false)[i] <;> simp
  · unfold numOf
    have e : h.setPP us them &&& mask i = if them.has i then h &&& mask i else us &&& mask i := by
      unfold setPP
      rw [hM]
      have hA := someMask_and them.has i hi
      split
      · next hb =>
        rw [if_pos hb] at hA
        ext j hj
        have := congrArg (fun x => x[j]) hA
        simp only [BitVec.getElem_and, BitVec.getElem_or, BitVec.getElem_not, BitVec.getElem_zero] at this ⊢
        revert this
        cases (someMask them.has)[j] <;> cases (mask i)[j] <;> simp
      · next hb =>
        rw [if_neg hb] at hA
        ext j hj
        have := congrArg (fun x => x[j]) hA
        simp only [BitVec.getElem_and, BitVec.getElem_or, BitVec.getElem_not] at this ⊢
        revert this
        cases (someMask them.has)[j] <;> cases (mask i)[j] <;> simp
    rw [e]
    split <;> rfl

theorem dp_wf {us them : Hand} (hu : us.WF) (hs : ∀ i < 7, us.numOf i + them.numOf i < 2 ^ width i) : (dp us them).WF ∧
    ∀ i < 7, (dp us them).numOf i = if us.has i then us.numOf i + them.numOf i else 0 := by
  obtain ⟨c, hc⟩ : ∃ c : Nat → Nat, c = fun i => if us.has i then us.numOf i + them.numOf i else 0 := ⟨_, rfl⟩
  have hlt : ∀ i < 7, c i < 2 ^ width i := by
    intro i hi
    have := hs i hi
    rw [hc]; dsimp only
    split <;> omega
  have hf : ∀ i < 7, (dpField us them i).toNat = c i * 2 ^ shiftBits i := by
    intro i hi
    have h1 := hs i hi
    unfold dpField
    rw [hc]; dsimp only
    split
    · rw [BitVec.toNat_add, field_toNat us hi, field_toNat them hi, ← Nat.add_mul]
      apply Nat.mod_eq_of_lt
      calc (us.numOf i + them.numOf i) * 2 ^ shiftBits i < 2 ^ width i * 2 ^ shiftBits i := Nat.mul_lt_mul_of_pos_right h1 (Nat.two_pow_pos _)
        _ ≤ 2 ^ 32 := by interval_cases i <;> decide
    · simp
  have e : (dp us them).toNat = pack c := by
    have hl := pack_lt c hlt
    unfold dp
    simp only [BitVec.toNat_add]
    rw [hf 0 (by decide), hf 1 (by decide), hf 2 (by decide), hf 3 (by decide), hf 4 (by decide), hf 5 (by decide), hf 6 (by decide)]
    unfold pack at hl ⊢
    simp only [shiftBits]
    omega
  exact ⟨wf_of_pack _ _ hlt e, fun i hi => by rw [numOf_of_pack _ _ hlt e i hi, hc]⟩

/-! ### Underflow -/

/-- A value that is not a hand and is not at least any hand. -/
def Dead (h : Hand) : Prop := ¬ h.WF ∧ ∀ b : Hand, b.WF → h.isEqualOrSuperior b = false

theorem digits_of_borrow {x : Hand} (h : x &&& borrowMask = 0#32) :
    ∃ hi, hi < 16 ∧ x.toNat = pack x.numOf + hi * 2 ^ 28 := by
  have hb := (borrow_bits x).mp h
  have bit : ∀ (i : Nat), x.getLsbD i = false ↔ x.toNat / 2^i % 2 = 0 := by
    intro i
    show x.toNat.testBit i = false ↔ _
    rw [Nat.testBit_eq_decide_div_mod_eq]
    simp only [decide_eq_false_iff_not]; omega
  simp only [bit] at hb
  have hx := x.isLt
  refine ⟨x.toNat / 2 ^ 28, by omega, ?_⟩
  unfold pack
  rw [numOf_eq x 0 (by decide), numOf_eq x 1 (by decide), numOf_eq x 2 (by decide), numOf_eq x 3 (by decide), numOf_eq x 4 (by decide),
    numOf_eq x 5 (by decide), numOf_eq x 6 (by decide)]
  simp only [shiftBits, width]
  generalize x.toNat = y at *
  omega

/-- Fields with their gaps are determined by the sum. -/
theorem wide_digits {a b : Nat → Nat} {u v : Nat} (ha : ∀ i < 7, a i < 2 * 2 ^ width i) (hb : ∀ i < 7, b i < 2 * 2 ^ width i)
    (hu : u < 16) (hv : v < 16) (h : pack a + u * 2 ^ 28 = pack b + v * 2 ^ 28) : ∀ i < 7, a i = b i := by
  have a0 : a 0 < 64 := ha 0 (by decide)
  have a1 : a 1 < 16 := ha 1 (by decide)
  have a2 : a 2 < 16 := ha 2 (by decide)
  have a3 : a 3 < 16 := ha 3 (by decide)
  have a4 : a 4 < 16 := ha 4 (by decide)
  have a5 : a 5 < 8 := ha 5 (by decide)
  have a6 : a 6 < 8 := ha 6 (by decide)
  have b0 : b 0 < 64 := hb 0 (by decide)
  have b1 : b 1 < 16 := hb 1 (by decide)
  have b2 : b 2 < 16 := hb 2 (by decide)
  have b3 : b 3 < 16 := hb 3 (by decide)
  have b4 : b 4 < 16 := hb 4 (by decide)
  have b5 : b 5 < 8 := hb 5 (by decide)
  have b6 : b 6 < 8 := hb 6 (by decide)
  unfold pack at h
  clear ha hb
  have e0 : a 0 = b 0 := by omega
  have e1 : a 1 = b 1 := by omega
  have e2 : a 2 = b 2 := by omega
  have e3 : a 3 = b 3 := by omega
  have e4 : a 4 = b 4 := by omega
  have e5 : a 5 = b 5 := by omega
  have e6 : a 6 = b 6 := by omega
  intro i hi
  interval_cases i <;> assumption

theorem minus_dead {h : Hand} (hw : h.WF) {hp : Nat} (h7 : hp < 7) (h0 : h.numOf hp = 0) : Dead (h.minusOne hp) := by
  -- `x` plus a hand plus one piece cannot be a hand without that piece
  have key : ∀ (x b : Hand), x &&& borrowMask = 0#32 → b.WF → x + b + one hp ≠ h := by
    intro x b hx hb e
    obtain ⟨u, hu, ex⟩ := digits_of_borrow hx
    have e' := congrArg BitVec.toNat e
    rw [BitVec.toNat_add, BitVec.toNat_add, ex, hb, hw, one_toNat hp h7] at e'
    have hxl := numOf_lt x
    have hbl := numOf_lt b
    have hhl := numOf_lt h
    have hp1 := pack_update_add (fun i => x.numOf i + b.numOf i) hp h7
    have hp2 : pack (fun i => x.numOf i + b.numOf i) = pack x.numOf + pack b.numOf := by unfold pack; dsimp only; omega
    have hlt : ∀ i < 7, (fun i => if i = hp then x.numOf i + b.numOf i + 1 else x.numOf i + b.numOf i) i < 2 * 2 ^ width i := by
      intro i hi
      have := hxl i hi
      have := hbl i hi
      dsimp only
      split <;> omega
    have hsum : pack (fun i => if i = hp then x.numOf i + b.numOf i + 1 else x.numOf i + b.numOf i) < 2 ^ 28 := by
      have l0 := hlt 0 (by decide)
      have l1 := hlt 1 (by decide)
      have l2 := hlt 2 (by decide)
      have l3 := hlt 3 (by decide)
      have l4 := hlt 4 (by decide)
      have l5 := hlt 5 (by decide)
      have l6 := hlt 6 (by decide)
      unfold pack
      simp only [width] at l0 l1 l2 l3 l4 l5 l6 ⊢
      clear * - l0 l1 l2 l3 l4 l5 l6
      omega
    have hh := pack_lt h.numOf hhl
    have := wide_digits (a := fun i => if i = hp then x.numOf i + b.numOf i + 1 else x.numOf i + b.numOf i) (b := h.numOf) (u := u) (v := 0)
      hlt (fun i hi => by have := hhl i hi; omega) hu (by decide) (by
        rw [hp1] at hsum ⊢
        clear hp1 hlt
        generalize 2 ^ shiftBits hp = s at *
        omega) hp h7
    simp only [if_true] at this
    omega
  refine ⟨fun hwf => ?_, fun b hb => ?_⟩
  · apply key (h.minusOne hp) 0#32 _ (by decide)
    · unfold minusOne
      rw [BitVec.add_zero, BitVec.sub_add_cancel]
    · rw [wf_iff] at hwf
      rw [borrow_bits]
      have : ∀ i, (someMask fun _ => false).getLsbD i = false → i < 32 → (h.minusOne hp).getLsbD i = false := by
        intro i hi h32
        have := congrArg (fun x => x.getLsbD i) hwf
        simp only [BitVec.getLsbD_and, BitVec.getLsbD_not, hi, h32, decide_true, Bool.not_false, Bool.and_true, BitVec.getLsbD_zero] at this
        exact this
      exact ⟨this 5 (by decide) (by decide), this 9 (by decide) (by decide), this 13 (by decide) (by decide), this 17 (by decide) (by decide),
        this 21 (by decide) (by decide), this 24 (by decide) (by decide), this 27 (by decide) (by decide)⟩
  · by_contra hc
    rw [Bool.not_eq_false, isEqualOrSuperior, beq_iff_eq] at hc
    apply key _ b hc hb
    unfold minusOne
    rw [BitVec.sub_add_cancel, BitVec.sub_add_cancel]

end Hand
end Verif
