import Verif.Model.Elo
import Verif.Spec.Elo
import Mathlib.Analysis.Complex.ExponentialBounds
import Mathlib.MeasureTheory.Integral.IntegralEqImproper
import Mathlib.Tactic.Linarith
import Mathlib.Tactic.Positivity
import Mathlib.Tactic.Ring
import Mathlib.Tactic.FieldSimp

/-! Facts about the statistics of a match: counting, the rating curve, the normal distribution. -/

namespace Verif.Elo

open Verif.Spec.Elo

/-! ### Partial operations -/

theorem div_ok {x y : ℝ} (h : y ≠ 0) : div x y = .ok (x / y) := if_neg h

theorem sqrt_ok {x : ℝ} (h : 0 ≤ x) : sqrt x = .ok (Real.sqrt x) := if_pos h

theorem log10_ok {x : ℝ} (h : 0 < x) : log10 x = .ok (Real.logb 10 x) := if_pos h

theorem log10_bad {x : ℝ} (h : ¬ 0 < x) : log10 x = .domain := if_neg h

theorem ln_ok {x : ℝ} (h : 0 < x) : ln x = .ok (Real.log x) := if_pos h

/-! ### Counting -/

theorem sum_points (g : List Result) :
    (g.map points).sum = (g.count .win : ℝ) + (g.count .draw : ℝ) / 2 := by
  induction g with
  | nil => simp
  | cons r g ih =>
    rw [List.map_cons, List.sum_cons, ih]
    cases r <;> simp [points] <;> ring

theorem length_counts (g : List Result) : g.length = g.count .win + g.count .loss + g.count .draw := by
  induction g with
  | nil => simp
  | cons r g ih =>
    rw [List.length_cons, ih]
    cases r <;> simp <;> omega

theorem sum_squares (g : List Result) (m : ℝ) :
    (g.map fun r => (points r - m) ^ 2).sum
      = (g.count .win : ℝ) * (1 - m) ^ 2 + (g.count .loss : ℝ) * (0 - m) ^ 2 + (g.count .draw : ℝ) * (1 / 2 - m) ^ 2 := by
  induction g with
  | nil => simp
  | cons r g ih =>
    rw [List.map_cons, List.sum_cons, ih]
    cases r <;> simp [points] <;> ring

/-- What the constructor stores: the score and the standard deviation of the score. -/
theorem make_ok {g : List Result} (hg : g ≠ []) :
    make (g.count .win) (g.count .loss) (g.count .draw)
      = .ok ⟨g.count .win, g.count .loss, g.count .draw, score g, Real.sqrt (variance g) / Real.sqrt g.length⟩ := by
  have hn : (0 : ℝ) < (g.length : ℝ) := by
    have := List.length_pos_iff.2 hg
    exact_mod_cast this
  have hl := length_counts g
  have hne : ((g.count .win + g.count .loss + g.count .draw : Nat) : ℝ) ≠ 0 := by rw [← hl]; exact hn.ne'
  have hmu : (g.count .win : ℝ) / (g.length : ℝ) + (g.count .draw : ℝ) / (g.length : ℝ) / 2 = score g := by
    unfold score
    rw [sum_points]
    field_simp
  have hvar : (g.count .win : ℝ) / (g.length : ℝ) * (1 - score g) ^ 2 + (g.count .loss : ℝ) / (g.length : ℝ) * (0 - score g) ^ 2
      + (g.count .draw : ℝ) / (g.length : ℝ) * (1 / 2 - score g) ^ 2 = variance g := by
    unfold variance
    rw [sum_squares]
    field_simp
  have hv0 : 0 ≤ variance g := by rw [← hvar]; positivity
  unfold make
  simp only [div_ok hne, Val.bind]
  rw [← hl, hmu, hvar, sqrt_ok hv0]
  simp only [sqrt_ok hn.le, div_ok (Real.sqrt_pos.2 hn).ne']

/-! ### The rating curve -/

theorem expected_pos (δ : ℝ) : 0 < expected δ := by unfold expected; positivity

theorem expected_lt (δ : ℝ) : expected δ < 1 := by
  unfold expected
  rw [div_lt_one (by positivity)]
  have : (0 : ℝ) < (10 : ℝ) ^ (-δ / 400) := by positivity
  linarith

theorem odds_of {p : ℝ} (h0 : 0 < p) (h1 : p < 1) : 0 < 1 / p - 1 := by
  have := (one_lt_div h0).2 h1
  linarith

theorem expected_eq {p δ : ℝ} (h0 : 0 < p) (h1 : p < 1) :
    expected δ = p ↔ δ = -400 * Real.logb 10 (1 / p - 1) := by
  have ho := odds_of h0 h1
  unfold expected
  constructor
  · intro h
    have h2 : (10 : ℝ) ^ (-δ / 400) = 1 / p - 1 := by rw [← h]; field_simp; ring
    rw [← h2, Real.logb_rpow (by norm_num) (by norm_num)]
    ring
  · intro h
    rw [show -δ / 400 = Real.logb 10 (1 / p - 1) by rw [h]; ring, Real.rpow_logb (by norm_num) (by norm_num) ho]
    field_simp
    ring

theorem eloDiff_ok {p : ℝ} (h0 : 0 < p) (h1 : p < 1) : eloDiff p = .ok (-400 * Real.logb 10 (1 / p - 1)) := by
  unfold eloDiff
  rw [div_ok h0.ne']
  simp only [Val.bind, log10_ok (odds_of h0 h1)]

/-- A rating difference is given exactly for scores strictly between 0 and 1, and it is the one with that expected score. -/
theorem eloDiff_iff {p δ : ℝ} : eloDiff p = .ok δ ↔ expected δ = p := by
  by_cases h0 : 0 < p
  · by_cases h1 : p < 1
    · rw [eloDiff_ok h0 h1, expected_eq h0 h1]
      constructor
      · intro h; injection h with h; exact h.symm
      · intro h; rw [h]
    · constructor
      · intro h
        unfold eloDiff at h
        rw [div_ok h0.ne'] at h
        have hb : ¬ 0 < 1 / p - 1 := by
          rw [not_lt, sub_nonpos, div_le_one h0]; linarith
        simp only [Val.bind, log10_bad hb] at h
        cases h
      · intro h; exact absurd (h ▸ expected_lt δ) h1
  · constructor
    · intro h
      unfold eloDiff at h
      by_cases hz : p = 0
      · simp only [div, hz, if_pos, Val.bind] at h
        cases h
      · rw [div_ok hz] at h
        have hlt : p < 0 := lt_of_le_of_ne (not_lt.1 h0) hz
        have hb : ¬ 0 < 1 / p - 1 := by
          have := one_div_neg.2 hlt
          linarith
        simp only [Val.bind, log10_bad hb] at h
        cases h
    · intro h; exact absurd (h ▸ expected_pos δ) h0

theorem eloDiff_zero : eloDiff 0 = .division := by
  unfold eloDiff div
  rw [if_pos rfl]
  rfl

theorem eloDiff_bad {p : ℝ} (hz : p ≠ 0) (h : p < 0 ∨ 1 ≤ p) : eloDiff p = .domain := by
  unfold eloDiff
  rw [div_ok hz]
  have hb : ¬ 0 < 1 / p - 1 := by
    rcases h with h | h
    · have := one_div_neg.2 h; linarith
    · rw [not_lt, sub_nonpos, div_le_one (by linarith)]; exact h
  simp only [Val.bind, log10_bad hb]

theorem expected_lt_iff {x y : ℝ} : expected x < expected y ↔ x < y := by
  unfold expected
  rw [div_lt_div_iff_of_pos_left one_pos (by positivity) (by positivity), add_lt_add_iff_left,
    Real.rpow_lt_rpow_left_iff (by norm_num)]
  constructor <;> intro h <;> linarith

theorem expected_neg (δ : ℝ) : expected (-δ) = 1 - expected δ := by
  unfold expected
  have h : (10 : ℝ) ^ (-(-δ) / 400) = ((10 : ℝ) ^ (-δ / 400))⁻¹ := by
    rw [← Real.rpow_neg (by norm_num)]
    congr 1
    ring
  rw [h]
  have : (0 : ℝ) < (10 : ℝ) ^ (-δ / 400) := by positivity
  field_simp
  ring

/-! ### The quantile -/

theorem pi_bounds : 3 < pi ∧ pi < 4 := by unfold pi; constructor <;> norm_num

theorem a_pos : 0 < a := by
  obtain ⟨h1, h2⟩ := pi_bounds
  unfold a
  have h3 : 0 < pi - 3 := by linarith
  have h4 : 0 < 4 - pi := by linarith
  have h5 : 0 < pi := by linarith
  positivity

/-- The square root in `erf_inv` for `x = ±0.95`. -/
noncomputable def root : ℝ :=
  Real.sqrt (Real.sqrt ((2 / (pi * a) + Real.log (39 / 400) / 2) * (2 / (pi * a) + Real.log (39 / 400) / 2) - Real.log (39 / 400) / a)
    - (2 / (pi * a) + Real.log (39 / 400) / 2))

theorem log_bounds : 225 / 100 < -Real.log (39 / 400) ∧ -Real.log (39 / 400) < 24 / 10 := by
  have e : -Real.log (39 / 400) = Real.log (400 / 39) := by
    rw [← Real.log_inv]; norm_num
  rw [e]
  have l1 := Real.log_two_gt_d9
  have l2 := Real.log_two_lt_d9
  constructor
  · have h : Real.log ((2 : ℝ) ^ 13) ≤ Real.log ((400 / 39 : ℝ) ^ 4) := Real.log_le_log (by norm_num) (by norm_num)
    rw [Real.log_pow, Real.log_pow] at h
    push_cast at h
    linarith
  · have h : Real.log ((400 / 39 : ℝ) ^ 5) ≤ Real.log ((2 : ℝ) ^ 17) := Real.log_le_log (by norm_num) (by norm_num)
    rw [Real.log_pow, Real.log_pow] at h
    push_cast at h
    linarith

theorem inner_nonneg : 0 ≤ (2 / (pi * a) + Real.log (39 / 400) / 2) * (2 / (pi * a) + Real.log (39 / 400) / 2) - Real.log (39 / 400) / a := by
  have h := log_bounds
  have h2 : 0 ≤ -Real.log (39 / 400) / a := div_nonneg (by linarith) a_pos.le
  rw [neg_div] at h2
  have h3 := mul_self_nonneg (2 / (pi * a) + Real.log (39 / 400) / 2)
  linarith

theorem outer_nonneg : 0 ≤ Real.sqrt ((2 / (pi * a) + Real.log (39 / 400) / 2) * (2 / (pi * a) + Real.log (39 / 400) / 2) - Real.log (39 / 400) / a)
    - (2 / (pi * a) + Real.log (39 / 400) / 2) := by
  rw [sub_nonneg]
  apply Real.le_sqrt_of_sq_le
  have h := log_bounds
  have h2 : 0 ≤ -Real.log (39 / 400) / a := div_nonneg (by linarith) a_pos.le
  rw [neg_div] at h2
  rw [sq]
  linarith

theorem erfInv_of {x : ℝ} (h : 1 - x * x = 39 / 400) : erfInv x = .ok (if x < 0 then -root else root) := by
  unfold erfInv
  rw [h, ln_ok (by norm_num)]
  simp only [Val.bind, sqrt_ok inner_nonneg, sqrt_ok outer_nonneg]
  rfl

/-- The number of standard deviations used for the margin. -/
noncomputable def quantile : ℝ := Real.sqrt 2 * root

theorem phiInv_lo : phiInv (25 / 1000) = .ok (-quantile) := by
  unfold phiInv
  rw [erfInv_of (by norm_num), if_pos (by norm_num)]
  simp only [Val.bind, quantile, mul_neg]

theorem phiInv_hi : phiInv (975 / 1000) = .ok quantile := by
  unfold phiInv
  rw [erfInv_of (by norm_num), if_neg (by norm_num)]
  simp only [Val.bind, quantile]

theorem quantile_sq : quantile ^ 2 = 2 * (Real.sqrt ((2 / (pi * a) + Real.log (39 / 400) / 2) * (2 / (pi * a) + Real.log (39 / 400) / 2) - Real.log (39 / 400) / a)
    - (2 / (pi * a) + Real.log (39 / 400) / 2)) := by
  unfold quantile root
  rw [mul_pow, Real.sq_sqrt (by norm_num), Real.sq_sqrt outer_nonneg]

theorem quantile_nonneg : 0 ≤ quantile := mul_nonneg (Real.sqrt_nonneg _) (Real.sqrt_nonneg _)

theorem const_bounds : 71 / 10 < 1 / a ∧ 1 / a < 72 / 10 ∧ 454 / 100 < 2 / (pi * a) ∧ 2 / (pi * a) < 455 / 100 := by
  unfold a pi
  refine ⟨?_, ?_, ?_, ?_⟩ <;> norm_num

theorem quantile_bounds : 19 / 10 < quantile ∧ quantile < 2 := by
  have hs := quantile_sq
  have h0 := quantile_nonneg
  obtain ⟨l1, l2⟩ := log_bounds
  obtain ⟨a1, a2, k1, k2⟩ := const_bounds
  obtain ⟨L, hL⟩ : ∃ L, L = -Real.log (39 / 400) := ⟨_, rfl⟩
  obtain ⟨K, hK⟩ : ∃ K, K = 2 / (pi * a) := ⟨_, rfl⟩
  obtain ⟨A, hA⟩ : ∃ A, A = 1 / a := ⟨_, rfl⟩
  have hlog : Real.log (39 / 400) = -L := by rw [hL, neg_neg]
  have hla : Real.log (39 / 400) / a = -(L * A) := by rw [hlog, hA]; ring
  rw [hla, hlog, ← hK] at hs
  rw [← hL] at l1 l2
  rw [← hA] at a1 a2
  rw [← hK] at k1 k2
  clear hL hK hA hlog hla
  have b1 : K + -L / 2 + 1805 / 1000 < Real.sqrt ((K + -L / 2) * (K + -L / 2) - -(L * A)) := by
    apply Real.lt_sqrt_of_sq_lt
    nlinarith [mul_pos (show (0 : ℝ) < L - 225 / 100 by linarith) (show (0 : ℝ) < A - 71 / 10 by linarith)]
  have b2 : Real.sqrt ((K + -L / 2) * (K + -L / 2) - -(L * A)) < K + -L / 2 + 2 := by
    rw [Real.sqrt_lt' (by linarith)]
    nlinarith [mul_pos (show (0 : ℝ) < 24 / 10 - L by linarith) (show (0 : ℝ) < 72 / 10 - A by linarith)]
  constructor
  · nlinarith
  · nlinarith

/-! ### The normal distribution -/

theorem integrable_bell : MeasureTheory.Integrable fun t : ℝ => Real.exp (-t ^ 2 / 2) := by
  have h := integrable_exp_neg_mul_sq (b := 1 / 2) (by norm_num)
  refine h.congr (Filter.Eventually.of_forall fun t => ?_)
  show Real.exp (-(1 / 2) * t ^ 2) = Real.exp (-t ^ 2 / 2)
  congr 1
  ring

theorem half_bell : ∫ t in Set.Iic (0 : ℝ), Real.exp (-t ^ 2 / 2) = Real.sqrt (2 * Real.pi) / 2 := by
  have h := integral_gaussian_Ioi (1 / 2)
  have h2 : ∫ t in Set.Iic (0 : ℝ), Real.exp (-(-t) ^ 2 / 2) = ∫ t in Set.Ioi (-0 : ℝ), Real.exp (-t ^ 2 / 2) :=
    integral_comp_neg_Iic 0 fun t => Real.exp (-t ^ 2 / 2)
  simp only [neg_sq, neg_zero] at h2
  rw [h2, show (fun t : ℝ => Real.exp (-t ^ 2 / 2)) = fun t => Real.exp (-(1 / 2) * t ^ 2) by funext t; congr 1; ring, h]
  congr 2
  ring

/-- The normal distribution in terms of `math.erf`. -/
theorem normal_erf (x : ℝ) : normal x = 1 / 2 + 1 / 2 * erf (x / Real.sqrt 2) := by
  have h2 : (0 : ℝ) < Real.sqrt 2 := Real.sqrt_pos.2 (by norm_num)
  have hpi : (0 : ℝ) < Real.sqrt Real.pi := Real.sqrt_pos.2 Real.pi_pos
  have hsub : ∫ t in (0 : ℝ)..x, Real.exp (-t ^ 2 / 2) = Real.sqrt 2 * ∫ t in (0 : ℝ)..x / Real.sqrt 2, Real.exp (-t ^ 2) := by
    have h := intervalIntegral.integral_comp_div (a := 0) (b := x) (fun t => Real.exp (-t ^ 2)) h2.ne'
    simp only [zero_div, smul_eq_mul] at h
    rw [← h]
    congr 1
    funext t
    rw [div_pow, Real.sq_sqrt (by norm_num)]
    congr 1
    ring
  have hsplit : ∫ t in Set.Iic x, Real.exp (-t ^ 2 / 2)
      = Real.sqrt (2 * Real.pi) / 2 + ∫ t in (0 : ℝ)..x, Real.exp (-t ^ 2 / 2) := by
    rw [← intervalIntegral.integral_Iic_sub_Iic integrable_bell.integrableOn integrable_bell.integrableOn, half_bell]
    ring
  unfold normal erf
  rw [hsplit, hsub, Real.sqrt_mul (by norm_num)]
  field_simp

theorem erf_neg (x : ℝ) : erf (-x) = -erf x := by
  unfold erf
  have h := intervalIntegral.integral_comp_neg (a := 0) (b := x) (fun t : ℝ => Real.exp (-t ^ 2))
  simp only [neg_sq, neg_zero] at h
  rw [h, intervalIntegral.integral_symm]
  ring

theorem erf_pos {x : ℝ} (h : 0 < x) : 0 < erf x := by
  unfold erf
  refine mul_pos (div_pos (by norm_num) (Real.sqrt_pos.2 Real.pi_pos)) ?_
  apply intervalIntegral.intervalIntegral_pos_of_pos _ (fun t => Real.exp_pos _) h
  apply Continuous.intervalIntegrable
  fun_prop

theorem erf_zero : erf 0 = 0 := by
  unfold erf
  rw [intervalIntegral.integral_same, mul_zero]

theorem normal_neg (x : ℝ) : normal (-x) = 1 - normal x := by
  rw [normal_erf, normal_erf, neg_div, erf_neg]
  ring

theorem normal_pos (x : ℝ) : 0 < normal x := by
  unfold normal
  refine mul_pos (inv_pos.2 (Real.sqrt_pos.2 (by have := Real.pi_pos; linarith))) ?_
  rw [MeasureTheory.setIntegral_pos_iff_support_of_nonneg_ae (Filter.Eventually.of_forall fun t => (Real.exp_pos _).le)
    integrable_bell.integrableOn]
  have : Function.support (fun t : ℝ => Real.exp (-t ^ 2 / 2)) = Set.univ := by
    ext t; simp [Real.exp_ne_zero]
  rw [this, Set.univ_inter, Real.volume_Iic]
  exact ENNReal.zero_lt_top

theorem normal_lt (x : ℝ) : normal x < 1 := by
  have := normal_pos (-x)
  rw [normal_neg] at this
  linarith

theorem normal_half {x : ℝ} : 1 / 2 < normal x ↔ 0 < x := by
  have h2 : (0 : ℝ) < Real.sqrt 2 := Real.sqrt_pos.2 (by norm_num)
  rw [normal_erf]
  constructor
  · intro h
    by_contra hx
    rcases lt_or_eq_of_le (not_lt.1 hx) with hx | hx
    · have := erf_pos (x := -x / Real.sqrt 2) (div_pos (by linarith) h2)
      rw [neg_div, erf_neg] at this
      linarith
    · rw [hx, zero_div, erf_zero] at h
      linarith
  · intro h
    have := erf_pos (div_pos h h2)
    linarith

end Verif.Elo
