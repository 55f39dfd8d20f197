import Verif.Lemmas.Elo

/-! C91: the statistics of a match, in terms of the games played. `g` is the list of the results of the first engine;
`make`, and the methods of the object it returns, are given the numbers of games won, lost and drawn. -/

namespace Verif

open Verif.Elo Verif.Spec.Elo

/-- C91. After at least one game the object exists and its ratios are the points per game and the share of draws. -/
theorem C91_ratios {g : List Result} (hg : g ≠ []) :
    ∃ e, make (g.count .win) (g.count .loss) (g.count .draw) = .ok e ∧
      e.pointRatio = .ok (score g) ∧ e.drawRatio = .ok ((g.count .draw : ℝ) / g.length) ∧ 0 ≤ score g ∧ score g ≤ 1 := by
  have hn : (0 : ℝ) < (g.length : ℝ) := by
    have := List.length_pos_iff.2 hg
    exact_mod_cast this
  have hl := length_counts g
  have hlr : (g.length : ℝ) = (g.count .win : ℝ) + (g.count .loss : ℝ) + (g.count .draw : ℝ) := by exact_mod_cast hl
  have hs : score g = ((g.count .win : ℝ) + (g.count .draw : ℝ) / 2) / g.length := by unfold score; rw [sum_points]
  refine ⟨_, make_ok hg, ?_, ?_, ?_, ?_⟩
  · show div _ _ = _
    have e : (((g.count .win + g.count .loss + g.count .draw) * 2 : Nat) : ℝ) = (g.length : ℝ) * 2 := by
      rw [← hl]; push_cast; ring
    rw [e, div_ok (by positivity), hs]
    push_cast
    congr 1
    field_simp
  · show div _ _ = _
    rw [← hl, div_ok hn.ne']
  · rw [hs]; positivity
  · rw [hs, div_le_one hn, hlr]
    have h1 : (0 : ℝ) ≤ (g.count .loss : ℝ) := Nat.cast_nonneg _
    have h2 : (0 : ℝ) ≤ (g.count .draw : ℝ) := Nat.cast_nonneg _
    linarith

example : ([.win, .draw] : List Result) ≠ [] := by decide

/-- C91. Before the first game there is no object: the constructor divides by zero. -/
theorem C91_none : make 0 0 0 = .division := by
  unfold make div
  simp [Val.bind]

/-- C91. The rating difference given is the one for which the expected score is the score of the match, and no other. -/
theorem C91_diff {g : List Result} (hg : g ≠ []) :
    ∃ e, make (g.count .win) (g.count .loss) (g.count .draw) = .ok e ∧ ∀ δ, e.diff = .ok δ ↔ expected δ = score g :=
  ⟨_, make_ok hg, fun _ => eloDiff_iff⟩

theorem score_turned (g : List Result) (hg : g ≠ []) : score (g.map turned) = 1 - score g := by
  have hn : (0 : ℝ) < (g.length : ℝ) := by
    have := List.length_pos_iff.2 hg
    exact_mod_cast this
  unfold score
  rw [List.length_map, List.map_map, eq_sub_iff_add_eq, ← add_div, div_eq_one_iff_eq hn.ne']
  clear hn hg
  induction g with
  | nil => simp
  | cons r g ih =>
    simp only [List.map_cons, List.sum_cons, Function.comp, List.length_cons, Nat.cast_add, Nat.cast_one] at ih ⊢
    cases r <;> simp only [points, turned] <;> linarith

theorem count_turned (g : List Result) :
    (g.map turned).count .win = g.count .loss ∧ (g.map turned).count .loss = g.count .win ∧
      (g.map turned).count .draw = g.count .draw := by
  induction g with
  | nil => simp
  | cons r g ih => cases r <;> simp [turned, ih]

/-- C91. Exchanging the two players changes the sign of the rating difference. -/
theorem C91_swapped {g : List Result} (hg : g ≠ []) {δ : ℝ} :
    ∃ e e', make (g.count .win) (g.count .loss) (g.count .draw) = .ok e ∧
      make (g.count .loss) (g.count .win) (g.count .draw) = .ok e' ∧ (e.diff = .ok δ ↔ e'.diff = .ok (-δ)) := by
  have h := make_ok (g := g.map turned) (by simpa using hg)
  obtain ⟨c1, c2, c3⟩ := count_turned g
  rw [c1, c2, c3] at h
  refine ⟨_, _, make_ok hg, h, ?_⟩
  show eloDiff _ = _ ↔ eloDiff _ = _
  rw [eloDiff_iff, eloDiff_iff, expected_neg, score_turned g hg]
  constructor <;> intro h <;> linarith

/-- C91. A player with more points in as many games gets the larger difference. -/
theorem C91_order {g g' : List Result} (hg : g ≠ []) (hg' : g' ≠ []) :
    ∃ e e', make (g.count .win) (g.count .loss) (g.count .draw) = .ok e ∧
      make (g'.count .win) (g'.count .loss) (g'.count .draw) = .ok e' ∧
      ∀ δ δ', e.diff = .ok δ → e'.diff = .ok δ' → (δ < δ' ↔ score g < score g') := by
  refine ⟨_, _, make_ok hg, make_ok hg', fun δ δ' h h' => ?_⟩
  have h1 : expected δ = score g := eloDiff_iff.1 h
  have h2 : expected δ' = score g' := eloDiff_iff.1 h'
  rw [← h1, ← h2, expected_lt_iff]

theorem score_zero {g : List Result} (hg : g ≠ []) : score g = 0 ↔ ∀ r ∈ g, r = .loss := by
  have hn : (0 : ℝ) < (g.length : ℝ) := by
    have := List.length_pos_iff.2 hg
    exact_mod_cast this
  unfold score
  rw [div_eq_zero_iff, or_iff_left hn.ne', sum_points]
  have h1 : (0 : ℝ) ≤ (g.count .win : ℝ) := Nat.cast_nonneg _
  have h2 : (0 : ℝ) ≤ (g.count .draw : ℝ) := Nat.cast_nonneg _
  constructor
  · intro h r hr
    have w : (g.count .win : ℝ) = 0 := by linarith
    have d : (g.count .draw : ℝ) = 0 := by linarith
    have w' : g.count .win = 0 := by exact_mod_cast w
    have d' : g.count .draw = 0 := by exact_mod_cast d
    cases r
    · exact absurd hr (List.count_eq_zero.1 w')
    · rfl
    · exact absurd hr (List.count_eq_zero.1 d')
  · intro h
    have w : g.count .win = 0 := List.count_eq_zero.2 fun hw => by have := h _ hw; cases this
    have d : g.count .draw = 0 := List.count_eq_zero.2 fun hw => by have := h _ hw; cases this
    rw [w, d]
    simp

theorem score_one {g : List Result} (hg : g ≠ []) : score g = 1 ↔ ∀ r ∈ g, r = .win := by
  have h := score_turned g hg
  have h0 := score_zero (g := g.map turned) (by simpa using hg)
  rw [h] at h0
  rw [show score g = 1 ↔ 1 - score g = 0 by constructor <;> intro h <;> linarith, h0]
  constructor
  · intro hh r hr
    have := hh _ (List.mem_map_of_mem hr)
    cases r
    · rfl
    · exact absurd this (by decide)
    · exact absurd this (by decide)
  · intro hh r hr
    obtain ⟨r', hr', rfl⟩ := List.mem_map.1 hr
    rw [hh r' hr']
    rfl

/-- C91. There is a difference exactly if not all games were won and not all lost; otherwise the method raises. -/
theorem C91_defined {g : List Result} (hg : g ≠ []) :
    ∃ e, make (g.count .win) (g.count .loss) (g.count .draw) = .ok e ∧
      ((∃ δ, e.diff = .ok δ) ↔ ¬ (∀ r ∈ g, r = .win) ∧ ¬ (∀ r ∈ g, r = .loss)) ∧
      ((∀ r ∈ g, r = .win) → e.diff = .domain) ∧ ((∀ r ∈ g, r = .loss) → e.diff = .division) := by
  obtain ⟨e, he, -, -, h0, h1⟩ := C91_ratios hg
  refine ⟨_, make_ok hg, ?_, ?_, ?_⟩
  · rw [← score_one hg, ← score_zero hg]
    show (∃ δ, eloDiff (score g) = .ok δ) ↔ _
    constructor
    · rintro ⟨δ, h⟩
      have := eloDiff_iff.1 h
      have e1 := expected_pos δ
      have e2 := expected_lt δ
      rw [this] at e1 e2
      exact ⟨e2.ne, e1.ne'⟩
    · rintro ⟨h2, h3⟩
      exact ⟨_, eloDiff_ok (lt_of_le_of_ne h0 (Ne.symm h3)) (lt_of_le_of_ne h1 h2)⟩
  · intro h
    show eloDiff (score g) = _
    rw [(score_one hg).2 h]
    exact eloDiff_bad one_ne_zero (Or.inr le_rfl)
  · intro h
    show eloDiff (score g) = _
    rw [(score_zero hg).2 h]
    exact eloDiff_zero

example : ∃ e, make 1 1 1 = .ok e ∧ ∃ δ, e.diff = .ok δ := by
  obtain ⟨e, h, h2, -⟩ := C91_defined (g := [.win, .loss, .draw]) (by decide)
  exact ⟨e, h, h2.2 ⟨by decide, by decide⟩⟩

/-- C91. The margin, if there is one, is half the distance between the ratings whose expected scores lie a fixed number of
standard deviations of the score below and above the score; the number is between 1.9 and 2. -/
theorem C91_margin : ∃ c : ℝ, 19 / 10 < c ∧ c < 2 ∧ ∀ g : List Result, g ≠ [] →
    ∃ e, make (g.count .win) (g.count .loss) (g.count .draw) = .ok e ∧
      ∀ x, e.errorMargin = .ok x ↔ ∃ lo hi : ℝ,
        expected lo = score g - c * (Real.sqrt (variance g) / Real.sqrt g.length) ∧
        expected hi = score g + c * (Real.sqrt (variance g) / Real.sqrt g.length) ∧ x = (hi - lo) / 2 := by
  refine ⟨quantile, quantile_bounds.1, quantile_bounds.2, fun g hg => ⟨_, make_ok hg, fun x => ?_⟩⟩
  unfold Rating.errorMargin
  simp only [phiInv_lo, phiInv_hi, Val.bind]
  rw [show score g + -quantile * (Real.sqrt (variance g) / Real.sqrt g.length)
    = score g - quantile * (Real.sqrt (variance g) / Real.sqrt g.length) by ring]
  constructor
  · intro h
    rcases h1 : eloDiff (score g + quantile * (Real.sqrt (variance g) / Real.sqrt g.length)) with hi | _ | _
    · rcases h2 : eloDiff (score g - quantile * (Real.sqrt (variance g) / Real.sqrt g.length)) with lo | _ | _
      · rw [h1, h2] at h
        injection h with h
        exact ⟨lo, hi, eloDiff_iff.1 h2, eloDiff_iff.1 h1, h.symm⟩
      · rw [h1, h2] at h; cases h
      · rw [h1, h2] at h; cases h
    · rw [h1] at h; cases h
    · rw [h1] at h; cases h
  · rintro ⟨lo, hi, h1, h2, h3⟩
    rw [eloDiff_iff.2 h1, eloDiff_iff.2 h2, h3]

/-- C91. A margin is never negative, and zero only if all games ended alike. -/
theorem C91_margin_sign {g : List Result} (hg : g ≠ []) :
    ∃ e, make (g.count .win) (g.count .loss) (g.count .draw) = .ok e ∧
      ∀ x, e.errorMargin = .ok x → 0 ≤ x ∧ (x = 0 ↔ variance g = 0) := by
  obtain ⟨c, c1, c2, h⟩ := C91_margin
  obtain ⟨e, he, hm⟩ := h g hg
  refine ⟨e, he, fun x hx => ?_⟩
  obtain ⟨lo, hi, h1, h2, h3⟩ := (hm x).1 hx
  have hn : (0 : ℝ) < Real.sqrt (g.length : ℝ) := by
    have := List.length_pos_iff.2 hg
    exact Real.sqrt_pos.2 (by exact_mod_cast this)
  have hv0 : 0 ≤ variance g := by unfold variance; rw [sum_squares]; positivity
  by_cases hv : variance g = 0
  · rw [hv] at h1 h2
    simp only [Real.sqrt_zero, zero_div, mul_zero, sub_zero, add_zero] at h1 h2
    have hle : hi = lo := by
      rcases lt_trichotomy hi lo with h | h | h
      · have := expected_lt_iff.2 h; linarith
      · exact h
      · have := expected_lt_iff.2 h; linarith
    rw [h3, hle]
    simp [hv]
  · have hs : 0 < Real.sqrt (variance g) / Real.sqrt g.length :=
      div_pos (Real.sqrt_pos.2 (lt_of_le_of_ne hv0 (Ne.symm hv))) hn
    have hc : 0 < c * (Real.sqrt (variance g) / Real.sqrt g.length) := mul_pos (by linarith) hs
    have : lo < hi := expected_lt_iff.1 (by rw [h1, h2]; linarith)
    refine ⟨by rw [h3]; linarith, fun h => ?_, fun h => absurd h hv⟩
    rw [h3] at h
    linarith

/-- C91. The likelihood of superiority is the normal probability of the lead in won games, measured in standard deviations;
draws play no part in it. It lies strictly between 0 and 100, is above 50 exactly if more games were won than lost, and the
values of the two players add up to 100. -/
theorem C91_los {w l : Nat} (h : 0 < w + l) (d : Nat) :
    ∃ e e', make w l d = .ok e ∧ make l w d = .ok e' ∧ ∃ x,
      e.los = .ok x ∧ x = 100 * normal (((w : ℝ) - l) / Real.sqrt ((w : ℝ) + l)) ∧ 0 < x ∧ x < 100 ∧ (50 < x ↔ l < w) ∧
      e'.los = .ok (100 - x) := by
  have hpos : (0 : ℝ) < (w : ℝ) + (l : ℝ) := by exact_mod_cast h
  have hr := Real.sqrt_pos.2 hpos
  have h2 : (0 : ℝ) < Real.sqrt 2 := Real.sqrt_pos.2 (by norm_num)
  obtain ⟨e, he, ew, el⟩ : ∃ e, make w l d = .ok e ∧ e.wins = w ∧ e.losses = l := by
    have := make_ok (g := List.replicate w .win ++ List.replicate l .loss ++ List.replicate d .draw) (by
      intro hh
      have := congrArg List.length hh
      simp at this
      omega)
    simp only [List.count_append, List.count_replicate] at this
    simp at this
    exact ⟨_, this, rfl, rfl⟩
  obtain ⟨e', he', ew', el'⟩ : ∃ e, make l w d = .ok e ∧ e.wins = l ∧ e.losses = w := by
    have := make_ok (g := List.replicate l .win ++ List.replicate w .loss ++ List.replicate d .draw) (by
      intro hh
      have := congrArg List.length hh
      simp at this
      omega)
    simp only [List.count_append, List.count_replicate] at this
    simp at this
    exact ⟨_, this, rfl, rfl⟩
  have hval : ∀ x y : Nat, 0 < (x : ℝ) + (y : ℝ) → ∀ e : Rating, e.wins = x → e.losses = y →
      e.los = .ok (100 * normal (((x : ℝ) - y) / Real.sqrt ((x : ℝ) + y))) := by
    intro x y hxy e hx hy
    have hr := Real.sqrt_pos.2 hxy
    unfold Rating.los
    rw [hx, hy]
    push_cast
    rw [sqrt_ok (by positivity)]
    simp only [Val.bind]
    rw [div_ok (Real.sqrt_pos.2 (by positivity)).ne', normal_erf, Real.sqrt_mul (by norm_num)]
    simp only
    rw [div_div, mul_comm (Real.sqrt 2)]
  refine ⟨e, e', he, he', _, hval w l hpos e ew el, rfl, ?_, ?_, ?_, ?_⟩
  · have := normal_pos (((w : ℝ) - l) / Real.sqrt ((w : ℝ) + l)); linarith
  · have := normal_lt (((w : ℝ) - l) / Real.sqrt ((w : ℝ) + l)); linarith
  · rw [show (50 : ℝ) < 100 * normal (((w : ℝ) - l) / Real.sqrt ((w : ℝ) + l)) ↔ 1 / 2 < normal (((w : ℝ) - l) / Real.sqrt ((w : ℝ) + l)) by
      constructor <;> intro h <;> linarith, normal_half, div_pos_iff_of_pos_right hr, sub_pos, Nat.cast_lt]
  · rw [hval l w (by linarith) e' ew' el', add_comm (l : ℝ) w, show ((l : ℝ) - w) = -((w : ℝ) - l) by ring, neg_div, normal_neg]
    congr 1
    ring

example : 0 < 3 + 1 := by decide

/-- C91 fails for `los`: if every game so far was drawn, the method divides by zero. -/
theorem C91_fails_los {d : Nat} (h : 0 < d) : ∃ e, make 0 0 d = .ok e ∧ e.los = .division := by
  have := make_ok (g := List.replicate d .draw) (by
    intro hh
    have := congrArg List.length hh
    simp at this
    omega)
  simp only [List.count_replicate] at this
  simp at this
  refine ⟨_, this, ?_⟩
  unfold Rating.los sqrt div
  simp [Val.bind]

/-- C91. Once both engines have won a game, the line printed after a game gives the rating difference, the likelihood of
superiority and the draw ratio; if not, it is left out and nothing is raised. Not covered is the case that the lower end of
the interval is exactly zero, where a `ZeroDivisionError` would not be caught. -/
theorem C91_line_partial {g : List Result} (hg : g ≠ []) :
    ∃ e, make (g.count .win) (g.count .loss) (g.count .draw) = .ok e ∧
      (¬ (.win ∈ g ∧ .loss ∈ g) → report (g.count .win) (g.count .loss) (g.count .draw) = .ok none) ∧
      (.win ∈ g ∧ .loss ∈ g → report (g.count .win) (g.count .loss) (g.count .draw) ≠ .division →
        ∃ x, report (g.count .win) (g.count .loss) (g.count .draw) = .ok (some x) ∧
          e.diff = .ok x.diff ∧ e.los = .ok x.los ∧ e.drawRatio = .ok x.drawRatio ∧
          ∀ m, x.margin = some m ↔ e.errorMargin = .ok m) := by
  obtain ⟨e, he⟩ : ∃ e, make (g.count .win) (g.count .loss) (g.count .draw) = .ok e := ⟨_, make_ok hg⟩
  have hcond : (g.count .win > 0 ∧ g.count .loss > 0) ↔ (.win ∈ g ∧ .loss ∈ g) := by
    rw [gt_iff_lt, gt_iff_lt, List.count_pos_iff, List.count_pos_iff]
  refine ⟨e, he, fun h => ?_, fun h hd => ?_⟩
  · unfold report
    rw [he]
    simp only [Val.bind]
    rw [if_neg (by rwa [hcond])]
  · obtain ⟨e1, he1, hdef, -⟩ := C91_defined hg
    obtain ⟨e2, he2, -, hratio, -⟩ := C91_ratios hg
    obtain ⟨e3, -, he3, -, xlos, hlos, -⟩ := C91_los (w := g.count .win) (l := g.count .loss)
      (by have := List.count_pos_iff.2 h.1; omega) (g.count .draw)
    rw [he] at he1 he2 he3
    injection he1 with he1
    injection he2 with he2
    injection he3 with he3
    subst he1 he2 he3
    obtain ⟨δ, hδ⟩ := hdef.2 ⟨fun hh => absurd (hh _ h.2) (by decide), fun hh => absurd (hh _ h.1) (by decide)⟩
    unfold report at hd ⊢
    rw [he] at hd ⊢
    simp only [Val.bind] at hd ⊢
    rw [if_pos (hcond.2 h)] at hd ⊢
    rcases hm : e.errorMargin with m | _ | _
    · simp only [hδ, hlos, hratio]
      exact ⟨_, rfl, rfl, rfl, rfl, fun m' => by constructor <;> intro h <;> injection h with h <;> rw [h]⟩
    · simp only [hδ, hlos, hratio]
      exact ⟨_, rfl, rfl, rfl, rfl, fun m' => by constructor <;> intro h <;> cases h⟩
    · rw [hm] at hd
      exact absurd rfl hd

/-- C91 fails for the draws printed: the number followed by a percent sign is the share of draws itself, a hundredth of the
percentage, so it is right only if no game was drawn. -/
theorem C91_fails_draws {g : List Result} (hw : .win ∈ g) (hl : .loss ∈ g) {x : Line}
    (hx : report (g.count .win) (g.count .loss) (g.count .draw) = .ok (some x)) :
    x.drawRatio = (g.count .draw : ℝ) / g.length ∧ (x.drawRatio = 100 * (g.count .draw : ℝ) / g.length ↔ .draw ∉ g) := by
  have hg : g ≠ [] := List.ne_nil_of_mem hw
  have hn : (0 : ℝ) < (g.length : ℝ) := by
    have := List.length_pos_iff.2 hg
    exact_mod_cast this
  obtain ⟨e, he, -, h⟩ := C91_line_partial hg
  obtain ⟨x', hx', -, -, hr, -⟩ := h ⟨hw, hl⟩ (by rw [hx]; intro h; cases h)
  obtain ⟨e2, he2, -, hratio, -⟩ := C91_ratios hg
  rw [he] at he2
  injection he2 with he2
  subst he2
  rw [hx] at hx'
  injection hx' with hx'
  injection hx' with hx'
  subst hx'
  rw [hr] at hratio
  injection hratio with hratio
  refine ⟨hratio, ?_⟩
  rw [hratio, div_left_inj' hn.ne', ← List.count_eq_zero]
  constructor
  · intro h
    have : (g.count .draw : ℝ) = 0 := by linarith
    exact_mod_cast this
  · intro h
    rw [h]
    simp

/-- C91 fails for the margin: after one win each there is none, because the interval around the score reaches beyond 1. -/
theorem C91_fails_margin : ∃ x : Line, report 1 1 0 = .ok (some x) ∧ x.margin = none ∧ x.diff = 0 := by
  have hs : score [.win, .loss] = 1 / 2 := by simp [score, points]
  have hv : variance [.win, .loss] = 1 / 4 := by simp [variance, hs, points]; norm_num
  have hmake : make 1 1 0 = .ok ⟨1, 1, 0, 1 / 2, Real.sqrt (1 / 4) / Real.sqrt 2⟩ := by
    have := make_ok (g := [.win, .loss]) (by decide)
    rw [hs, hv] at this
    simpa using this
  have hbig : 1 ≤ 1 / 2 + quantile * (Real.sqrt (1 / 4) / Real.sqrt 2) := by
    have h4 : Real.sqrt (1 / 4) = 1 / 2 := by
      rw [show (1 / 4 : ℝ) = (1 / 2) ^ 2 by norm_num, Real.sqrt_sq (by norm_num)]
    have h2 : (0 : ℝ) < Real.sqrt 2 := Real.sqrt_pos.2 (by norm_num)
    have h3 : Real.sqrt 2 < 19 / 10 := by rw [Real.sqrt_lt' (by norm_num)]; norm_num
    have h5 : 1 ≤ quantile / Real.sqrt 2 := (one_le_div h2).2 (by have := quantile_bounds.1; linarith)
    have : quantile * (Real.sqrt (1 / 4) / Real.sqrt 2) = quantile / Real.sqrt 2 / 2 := by rw [h4]; ring
    rw [this]
    linarith
  have hmargin : Rating.errorMargin ⟨1, 1, 0, 1 / 2, Real.sqrt (1 / 4) / Real.sqrt 2⟩ = .domain := by
    unfold Rating.errorMargin
    simp only [phiInv_lo, phiInv_hi, Val.bind]
    rw [eloDiff_bad (by linarith) (Or.inr hbig)]
  have hnd : report 1 1 0 ≠ .division := by
    unfold report
    rw [hmake]
    simp only [Val.bind, hmargin]
    rw [if_pos (by decide)]
    have hd : Rating.diff ⟨1, 1, 0, 1 / 2, Real.sqrt (1 / 4) / Real.sqrt 2⟩ = .ok (-400 * Real.logb 10 (1 / (1 / 2) - 1)) :=
      eloDiff_ok (by norm_num) (by norm_num)
    obtain ⟨e3, -, he3, -, xlos, hlos, -⟩ := C91_los (w := 1) (l := 1) (by decide) 0
    rw [hmake] at he3
    injection he3 with he3
    rw [← he3] at hlos
    rw [hd, hlos]
    unfold Rating.drawRatio div
    simp
  obtain ⟨e, he, -, h⟩ := C91_line_partial (g := [.win, .loss]) (by decide)
  have he' : make 1 1 0 = .ok e := by simpa using he
  rw [hmake] at he'
  injection he' with he'
  subst he'
  obtain ⟨x, hx, hdiff, -, -, hm⟩ := h ⟨by decide, by decide⟩ (by simpa using hnd)
  refine ⟨x, by simpa using hx, ?_, ?_⟩
  · rcases hxm : x.margin with _ | m
    · rfl
    · have := (hm m).1 hxm
      rw [hmargin] at this
      cases this
  · have h1 : expected x.diff = 1 / 2 := eloDiff_iff.1 hdiff
    rw [expected_eq (by norm_num) (by norm_num)] at h1
    rw [h1]
    norm_num

end Verif
