import Verif.Model.Hand
import Verif.Lemmas.Bits

/-! Helper lemmas: a packed hand as seven digits. -/

namespace Verif
namespace Hand

/-- Number of values of each field: 32, 8, 8, 8, 8, 4, 4. -/
def width (hp : Nat) : Nat :=
  match hp with
  | 0 => 5 | 1 => 3 | 2 => 3 | 3 => 3 | 4 => 3 | 5 => 2 | 6 => 2 | _ => 0

theorem numOf_eq (h : Hand) (hp : Nat) (hlt : hp < 7) :
    h.numOf hp = h.toNat / 2^(shiftBits hp) % 2^(width hp) := by
  unfold numOf mask
  rw [BitVec.toNat_ushiftRight, BitVec.toNat_and, Nat.shiftRight_and_distrib]
  have : (rawMask hp <<< shiftBits hp).toNat >>> shiftBits hp = 2^(width hp) - 1 := by
    interval_cases hp <;> decide
  rw [this, Nat.and_two_pow_sub_one_eq_mod, Nat.shiftRight_eq_div_pow]

/-- The number packed from seven digits. -/
def pack (n : Nat → Nat) : Nat :=
  n 0 + n 1 * 2^6 + n 2 * 2^10 + n 3 * 2^14 + n 4 * 2^18 + n 5 * 2^22 + n 6 * 2^25

/-- Well-formed hand: the gap bits and the bits above the rook field are zero. -/
def WF (h : Hand) : Prop := h.toNat = pack h.numOf

instance (h : Hand) : Decidable (WF h) := by unfold WF; infer_instance

theorem numOf_lt (h : Hand) (hp : Nat) (hlt : hp < 7) : h.numOf hp < 2^(width hp) := by
  rw [numOf_eq h hp hlt]; exact Nat.mod_lt _ (Nat.two_pow_pos _)

theorem numOf_bounds (h : Hand) : h.numOf 0 < 32 ∧ h.numOf 1 < 8 ∧ h.numOf 2 < 8 ∧ h.numOf 3 < 8 ∧
    h.numOf 4 < 8 ∧ h.numOf 5 < 4 ∧ h.numOf 6 < 4 :=
  ⟨numOf_lt h 0 (by decide), numOf_lt h 1 (by decide), numOf_lt h 2 (by decide), numOf_lt h 3 (by decide),
    numOf_lt h 4 (by decide), numOf_lt h 5 (by decide), numOf_lt h 6 (by decide)⟩

/-- Digits of a packed number. -/
theorem numOf_of_pack (h : Hand) (n : Nat → Nat) (hn : ∀ i < 7, n i < 2^(width i)) (e : h.toNat = pack n)
    (i : Nat) (hi : i < 7) : h.numOf i = n i := by
  rw [numOf_eq h i hi, e]
  have h0 : n 0 < 32 := hn 0 (by decide)
  have h1 : n 1 < 8 := hn 1 (by decide)
  have h2 : n 2 < 8 := hn 2 (by decide)
  have h3 : n 3 < 8 := hn 3 (by decide)
  have h4 : n 4 < 8 := hn 4 (by decide)
  have h5 : n 5 < 4 := hn 5 (by decide)
  have h6 : n 6 < 4 := hn 6 (by decide)
  interval_cases i <;> simp only [shiftBits, width, pack] <;> omega

theorem wf_of_pack (h : Hand) (n : Nat → Nat) (hn : ∀ i < 7, n i < 2^(width i)) (e : h.toNat = pack n) :
    h.WF := by
  have := numOf_of_pack h n hn e
  unfold WF
  rw [e]
  unfold pack
  rw [this 0 (by decide), this 1 (by decide), this 2 (by decide), this 3 (by decide), this 4 (by decide),
    this 5 (by decide), this 6 (by decide)]

theorem pack_lt (n : Nat → Nat) (hn : ∀ i < 7, n i < 2^(width i)) : pack n < 2^27 := by
  have h0 : n 0 < 32 := hn 0 (by decide)
  have h1 : n 1 < 8 := hn 1 (by decide)
  have h2 : n 2 < 8 := hn 2 (by decide)
  have h3 : n 3 < 8 := hn 3 (by decide)
  have h4 : n 4 < 8 := hn 4 (by decide)
  have h5 : n 5 < 4 := hn 5 (by decide)
  have h6 : n 6 < 4 := hn 6 (by decide)
  unfold pack; omega

/-- The packed hand with the given digits. -/
def ofCounts (n : Nat → Nat) : Hand := BitVec.ofNat 32 (pack n)

theorem ofCounts_toNat (n : Nat → Nat) (hn : ∀ i < 7, n i < 2^(width i)) : (ofCounts n).toNat = pack n := by
  have := pack_lt n hn
  simp [ofCounts]; omega

theorem ext_numOf (a b : Hand) (ha : a.WF) (hb : b.WF) (h : ∀ i < 7, a.numOf i = b.numOf i) : a = b := by
  apply BitVec.eq_of_toNat_eq
  rw [ha, hb]
  unfold pack
  rw [h 0 (by decide), h 1 (by decide), h 2 (by decide), h 3 (by decide), h 4 (by decide),
    h 5 (by decide), h 6 (by decide)]

theorem one_toNat (hp : Nat) (h : hp < 7) : (one hp).toNat = 2^(shiftBits hp) := by
  interval_cases hp <;> rfl

theorem pack_update_add (n : Nat → Nat) (hp : Nat) (h : hp < 7) :
    pack (fun i => if i = hp then n i + 1 else n i) = pack n + 2^(shiftBits hp) := by
  interval_cases hp <;> simp [pack, shiftBits] <;> omega

theorem pack_update_sub (n : Nat → Nat) (hp : Nat) (h : hp < 7) (h1 : 1 ≤ n hp) :
    pack (fun i => if i = hp then n i - 1 else n i) + 2^(shiftBits hp) = pack n := by
  interval_cases hp <;> simp [pack, shiftBits] <;> omega

theorem or_mid (lo hi k s w : Nat) (hlo : lo < 2^s) (hk : k < 2^w) :
    (lo + hi * 2^(s+w)) ||| (k * 2^s) = lo + k * 2^s + hi * 2^(s+w) := by
  have e1 : lo + hi * 2^(s+w) = hi * 2^(s+w) ||| lo := by
    rw [or_eq_add _ lo s]
    · exact Nat.add_comm _ _
    · rw [Nat.pow_add, Nat.mul_comm (2^s), ← Nat.mul_assoc]; exact Nat.dvd_mul_left _ _
    · exact hlo
  have e2 : lo + k * 2^s < 2^(s+w) := by
    rw [Nat.pow_add]
    calc lo + k * 2^s < 2^s + k * 2^s := by omega
      _ = (k+1) * 2^s := by rw [Nat.add_mul, Nat.one_mul, Nat.add_comm]
      _ ≤ 2^w * 2^s := Nat.mul_le_mul_right _ hk
      _ = 2^s * 2^w := Nat.mul_comm _ _
  rw [e1, Nat.or_assoc, or_eq_add' lo (k * 2^s) s (Nat.dvd_mul_left _ _) hlo,
    or_eq_add _ _ (s+w) (Nat.dvd_mul_left _ _) e2, Nat.add_comm]

theorem pack_numOf_le (h : Hand) : pack h.numOf ≤ h.toNat := by
  unfold pack
  rw [numOf_eq h 0 (by decide), numOf_eq h 1 (by decide), numOf_eq h 2 (by decide), numOf_eq h 3 (by decide),
    numOf_eq h 4 (by decide), numOf_eq h 5 (by decide), numOf_eq h 6 (by decide)]
  simp only [shiftBits, width]
  generalize h.toNat = x
  have a0 : x % 2^5 + 2^6 * (x / 2^6) ≤ x := by omega
  have a1 : x / 2^6 % 2^3 + 2^4 * (x / 2^10) ≤ x / 2^6 := by omega
  have a2 : x / 2^10 % 2^3 + 2^4 * (x / 2^14) ≤ x / 2^10 := by omega
  have a3 : x / 2^14 % 2^3 + 2^4 * (x / 2^18) ≤ x / 2^14 := by omega
  have a4 : x / 2^18 % 2^3 + 2^4 * (x / 2^22) ≤ x / 2^18 := by omega
  have a5 : x / 2^22 % 2^2 + 2^3 * (x / 2^25) ≤ x / 2^22 := by omega
  have a6 : x / 2^25 % 2^2 ≤ x / 2^25 := by omega
  rw [show x / 2^0 = x from Nat.div_one x]
  generalize x % 2^5 = y0 at *
  generalize x / 2^6 % 2^3 = y1 at *
  generalize x / 2^10 % 2^3 = y2 at *
  generalize x / 2^14 % 2^3 = y3 at *
  generalize x / 2^18 % 2^3 = y4 at *
  generalize x / 2^22 % 2^2 = y5 at *
  generalize x / 2^25 % 2^2 = y6 at *
  generalize x / 2^6 = z1 at *
  generalize x / 2^10 = z2 at *
  generalize x / 2^14 = z3 at *
  generalize x / 2^18 = z4 at *
  generalize x / 2^22 = z5 at *
  generalize x / 2^25 = z6 at *
  omega

theorem pack_or (n : Nat → Nat) (hn : ∀ i < 7, n i < 2^(width i)) (hp : Nat) (h7 : hp < 7) (hz : n hp = 0)
    (k : Nat) (hk : k < 2^(width hp)) :
    pack n ||| (k * 2^(shiftBits hp)) = pack (fun i => if i = hp then k else n i) := by
  have h0 : n 0 < 32 := hn 0 (by decide)
  have h1 : n 1 < 8 := hn 1 (by decide)
  have h2 : n 2 < 8 := hn 2 (by decide)
  have h3 : n 3 < 8 := hn 3 (by decide)
  have h4 : n 4 < 8 := hn 4 (by decide)
  have h5 : n 5 < 4 := hn 5 (by decide)
  have h6 : n 6 < 4 := hn 6 (by decide)
  have step : ∀ lo hi, pack n = lo + hi * 2^(shiftBits hp + width hp) → lo < 2^(shiftBits hp) →
      pack (fun i => if i = hp then k else n i) = lo + k * 2^(shiftBits hp) + hi * 2^(shiftBits hp + width hp) →
      pack n ||| (k * 2^(shiftBits hp)) = pack (fun i => if i = hp then k else n i) := by
    intro lo hi e1 e2 e3
    rw [e1, or_mid lo hi k _ _ e2 hk, e3]
  unfold pack at step ⊢
  apply step (pack n % 2^(shiftBits hp)) (pack n / 2^(shiftBits hp + width hp)) <;> unfold pack <;>
    interval_cases hp <;> simp [shiftBits, width] at hz ⊢ <;> omega

end Hand
end Verif
