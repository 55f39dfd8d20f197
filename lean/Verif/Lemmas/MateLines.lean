import Verif.Lemmas.MateNear

/-!
Facts shared by the groups of `mateMoveIn1Ply` that give check from a distance: the squares in a row from the king, the
attack sets around the king, the capture tests, and pawns dropped in between.
-/

namespace Verif
open Spec Bitboard Position

/-! ### Squares in a row -/

theorem file_eq_X (s : Square) : (file s : Int) = X s := by unfold file X; omega

theorem sqOf_coord {x y : Int} (hx : 0 ≤ x ∧ x < 9) (hy : 0 ≤ y ∧ y < 9) : X (sqOf x.toNat y.toNat) = x ∧ Y (sqOf x.toNat y.toNat) = y := by
  have : (sqOf x.toNat y.toNat).val = x.toNat * 9 + y.toNat := by
    unfold sqOf; simp only [Fin.ofNat]; omega
  unfold X Y; rw [this]; omega

theorem edges_iff (s t : Square) : (rookAttackToEdge s ||| bishopAttackToEdge s).isSet t = true ↔ ∃ d, IsDir d ∧ Line s d t := by
  rw [isSet_or, Bool.or_eq_true, isSet_rookEdge .black, isSet_bishopEdge .black]
  unfold SlideLine
  constructor
  · rintro (⟨d, hd, hl⟩ | ⟨d, hd, hl⟩)
    · exact ⟨_, isDir_orient (isDir_slides .rook d hd), hl⟩
    · exact ⟨_, isDir_orient (isDir_slides .bishop d hd), hl⟩
  · rintro ⟨d, hd, hl⟩
    rcases List.mem_append.mp (isDir_mem.mpr hd) with e | e
    · exact .inl ⟨d, e, hl⟩
    · exact .inr ⟨d, e, hl⟩

theorem sgn_line {s t : Square} {d : Dir} (hd : IsDir d) (hl : Line s d t) :
    sgnDiff (file s) (file t) = d.1 ∧ sgnDiff (rank s) (rank t) = d.2 := by
  obtain ⟨n, hn, h1, h2⟩ := hl
  obtain ⟨a, b⟩ := d
  simp only [IsDir] at hd h1 h2
  rw [← file_eq_X, ← file_eq_X] at h1
  rw [← rank_eq_Y, ← rank_eq_Y] at h2
  obtain ⟨ha, hb, -⟩ := hd
  unfold sgnDiff
  rcases ha with rfl | rfl | rfl <;> rcases hb with rfl | rfl | rfl <;> constructor <;> simp only <;> split_ifs <;> omega

/-- The square behind another one. -/
theorem nextSquare_some {s t u : Square} (h : nextSquare s t = some u) : ∃ d, IsDir d ∧ Line s d t ∧ At t d 1 u := by
  unfold nextSquare at h
  split at h
  · rename_i he
    obtain ⟨d, hd, hl⟩ := (edges_iff s t).mp he
    obtain ⟨e1, e2⟩ := sgn_line hd hl
    simp only [e1, e2] at h
    split at h
    · rename_i hr
      cases h
      obtain ⟨c1, c2⟩ := sqOf_coord ⟨hr.1, hr.2.1⟩ hr.2.2
      refine ⟨d, hd, hl, ?_⟩
      unfold At
      rw [c1, c2, file_eq_X, rank_eq_Y]; omega
    · cases h
  · cases h

theorem nextSquare_of {s t u : Square} {d : Dir} (hd : IsDir d) (hl : Line s d t) (hu : At t d 1 u) : nextSquare s t = some u := by
  obtain ⟨e1, e2⟩ := sgn_line hd hl
  have bx := X_bounds u
  have by' := Y_bounds u
  unfold nextSquare
  rw [if_pos ((edges_iff s t).mpr ⟨d, hd, hl⟩)]
  simp only [e1, e2, file_eq_X, rank_eq_Y]
  obtain ⟨h1, h2⟩ := hu
  have hx : X t + d.1 = X u := by omega
  have hy : Y t + d.2 = Y u := by omega
  rw [hx, hy, if_pos ⟨bx.1, bx.2, by'.1, by'.2⟩]
  obtain ⟨c1, c2⟩ := sqOf_coord bx by'
  rw [sq_ext c1 c2]

theorem nextSquare_none {s t u : Square} {d : Dir} (hd : IsDir d) (hl : Line s d t) (h : nextSquare s t = none) : ¬ At t d 1 u := by
  intro hu; rw [nextSquare_of hd hl hu] at h; cases h

theorem line_of_at {s t : Square} {d : Dir} {n : Nat} (hn : 1 ≤ n) (h : At s d n t) : Line s d t := ⟨n, hn, h⟩

theorem king_step_dir {c : Color} {k u : Square} (h : StepAt c .king k u) : ∃ e, IsDir e ∧ At k e 1 u := by
  obtain ⟨d, hd, h⟩ := h
  exact ⟨_, isDir_orient (isDir_mem.mp hd), h⟩

theorem king_step_of {c : Color} {k u : Square} {e : Dir} (he : IsDir e) (h : At k e 1 u) : StepAt c .king k u := by
  cases c
  · exact ⟨e, isDir_mem.mpr he, h⟩
  · refine ⟨neg e, isDir_mem.mpr (isDir_neg he), ?_⟩
    show At k (neg (neg e)) 1 u
    rw [neg_neg']; exact h

/-- A square at distance two or more is not next to the king. -/
theorem not_near {c : Color} {k t : Square} {d : Dir} {n : Nat} (hd : IsDir d) (hn : 2 ≤ n) (h : At k d n t) : ¬ StepAt c .king k t := by
  intro hs
  obtain ⟨e, ⟨ha', hb', -⟩, h3, h4⟩ := king_step_dir hs
  obtain ⟨⟨ha, hb, hc⟩, h1, h2⟩ := And.intro hd h
  obtain ⟨a, b⟩ := d
  obtain ⟨x, y⟩ := e
  simp only at *
  rcases ha with rfl | rfl | rfl <;> rcases hb with rfl | rfl | rfl <;> omega

/-- Lines from a distant square that meet the neighbours of the king. -/
theorem far_line {k t u : Square} {d e g : Dir} {n : Nat} (hd : IsDir d) (hn : 2 ≤ n) (ht : At k d n t) (he : IsDir e) (hu : At k e 1 u)
    (hg : IsDir g) (hl : Line t g u) :
    g = neg d ∨ ((d.1 = 0 ∨ d.2 = 0) ∧ (g.1 ≠ 0 ∧ g.2 ≠ 0) ∧ At t g 1 u) := by
  obtain ⟨m, hm, h5, h6⟩ := hl
  obtain ⟨h1, h2⟩ := ht
  obtain ⟨h3, h4⟩ := hu
  obtain ⟨ha, hb, hc⟩ := hd
  obtain ⟨ha', hb', -⟩ := he
  obtain ⟨hga, hgb, hgc⟩ := hg
  obtain ⟨a, b⟩ := d
  obtain ⟨x, y⟩ := e
  obtain ⟨v, w⟩ := g
  unfold At
  simp only [neg, Prod.mk.injEq] at *
  rcases ha with rfl | rfl | rfl <;> rcases hb with rfl | rfl | rfl <;> rcases hga with rfl | rfl | rfl <;>
    rcases hgb with rfl | rfl | rfl <;> omega

/-- A distant line piece covers the two neighbours of the king on its line. -/
theorem far_cover {us c : Color} {kt : Kind} {k t u : Square} {d : Dir} {n : Nat} {occ : Square → Bool} (hd : IsDir d) (hn : 2 ≤ n)
    (ht : At k d n t) (hs : SlideLine us kt t k) (hfree : ∀ w, Between t w k → occ w = false) (hu : StepAt c .king k u)
    (hl : Line t (neg d) u) : Attacks us kt (occWithout occ k) t u := by
  have htk : Line t (neg d) k := line_of_at (by omega) (at_symm.mp ht)
  rw [attacks_iff]
  right
  constructor
  · obtain ⟨d', hd', h'⟩ := hs
    have := line_dir_unique (isDir_orient (isDir_slides kt d' hd')) (isDir_neg hd) h' htk
    exact ⟨d', hd', this ▸ hl⟩
  · intro w hw
    obtain ⟨h1, h2⟩ := (between_on (isDir_neg hd) hl).mp hw
    unfold occWithout
    split
    · rfl
    · rename_i hwk
      apply hfree
      rw [between_on (isDir_neg hd) htk]
      refine ⟨h1, ?_⟩
      rcases line_total h1 htk with e | e | e
      · exact absurd e hwk
      · exact e
      · exfalso
        -- beyond the king there is only one neighbour on the line
        have h3 : Line k (neg d) u := line_trans e h2
        obtain ⟨x, hx, hxu⟩ := king_step_dir hu
        obtain rfl := line_dir_unique hx (isDir_neg hd) ⟨1, le_refl _, hxu⟩ h3
        obtain ⟨j, hj, e⟩ := e
        obtain ⟨i, hi, h2⟩ := h2
        have := isDir_inj hx (at_add e h2) hxu
        omega

/-! ### Attack sets -/

theorem isSet_unionOver (b : Bitboard) (f : Square → Bitboard) (t : Square) :
    (unionOver b f).isSet t = true ↔ ∃ s ∈ b.toList, (f s).isSet t = true := by
  unfold unionOver
  have := isSet_foldl_if (fun _ : Square => true) f b.toList zero t
  simp only [if_true, true_and] at this
  rw [this]; simp

theorem wf_unionOver (b : Bitboard) (f : Square → Bitboard) (hf : ∀ s, (f s).WF) : (unionOver b f).WF := by
  unfold unionOver
  have : ∀ (l : List Square) (r : Bitboard), r.WF → (l.foldl (fun r s => r ||| f s) r).WF := by
    intro l
    induction l with
    | nil => exact fun r hr => hr
    | cons a l ih => exact fun r hr => ih _ (hr.or (hf a))
  exact this _ _ WF.zero

section
variable {p : Position} {k : Square} (h : Ready p k)
include h

/-- A piece of the side to move, not the one on `avoid`, attacks `u`. -/
def Guarded (p : Position) (avoid : Option Square) (occ : Square → Bool) (u : Square) : Prop :=
  ∃ s kd, (absPos p).board s = some (p.turn, kd) ∧ some s ≠ avoid ∧ Attacks p.turn kd occ s u

theorem bbOf2c_kind {a b : Kind} {f : Square} (hs : (p.bbOf2c a.code b.code p.turn).isSet f = true) :
    ∃ kd, (absPos p).board f = some (p.turn, kd) ∧ (kd = a ∨ kd = b) := by
  unfold bbOf2c bbOf2 at hs
  rw [isSet_and, isSet_or, Bool.and_eq_true, Bool.or_eq_true, h.cons.color] at hs
  obtain ⟨ht, kd, hb⟩ := hs
  refine ⟨kd, hb, ?_⟩
  rcases ht with e | e <;> rw [h.cons.type] at e <;> obtain ⟨c, e⟩ := e <;> rw [hb] at e <;> cases e
  · exact .inl rfl
  · exact .inr rfl

theorem wf_bbOf2c (a b : Nat) : (p.bbOf2c a b p.turn).WF := WF.and_left ((h.cons.wfType _).or (h.cons.wfType _))

omit h in
theorem line_attack (c : Color) {kd kd' : Kind} (hk : kd'.slides ⊆ kd.slides) (hs : kd'.steps = []) {occ : Square → Bool} {s u : Square}
    (ha : Attacks c kd' occ s u) : Attacks c kd occ s u := by
  rcases ha with ⟨d, hd, -⟩ | ⟨d, hd, hr⟩
  · rw [hs] at hd; cases hd
  · exact .inr ⟨d, hk hd, hr⟩

theorem sliders_sound (avoid : Option Square) (A B C : Bitboard) (occ : Bitboard) (f1 f2 f3 : Bitboard → Bitboard)
    (hA : ∀ s, s ∈ A.toList → (absPos p).board s = some (p.turn, .lance) ∧ some s ≠ avoid)
    (hB : ∀ s, s ∈ B.toList → (p.bbOf2c PT.Bishop PT.Horse p.turn).isSet s = true ∧ some s ≠ avoid)
    (hC : ∀ s, s ∈ C.toList → (p.bbOf2c PT.Rook PT.Dragon p.turn).isSet s = true ∧ some s ≠ avoid) {u : Square}
    (hu : (unionOver A (fun s => lanceAttack p.turn s occ) ||| unionOver B (fun s => bishopAttack s occ) |||
      unionOver C (fun s => rookAttack s occ)).isSet u = true) : Guarded p avoid occ.isSet u := by
  rw [isSet_or, isSet_or, Bool.or_eq_true, Bool.or_eq_true, isSet_unionOver, isSet_unionOver, isSet_unionOver] at hu
  rcases hu with (⟨s, hs, ha⟩ | ⟨s, hs, ha⟩) | ⟨s, hs, ha⟩
  · exact ⟨s, .lance, (hA s hs).1, (hA s hs).2, (isSet_attacksFrom .lance p.turn s u occ).mp ha⟩
  · have ha := (isSet_attacksFrom .bishop p.turn s u occ).mp ha
    obtain ⟨kd, hb, e⟩ := bbOf2c_kind h (a := .bishop) (b := .horse) (hB s hs).1
    refine ⟨s, kd, hb, (hB s hs).2, line_attack p.turn ?_ rfl ha⟩
    rcases e with rfl | rfl <;> exact fun x hx => hx
  · have ha := (isSet_attacksFrom .rook p.turn s u occ).mp ha
    obtain ⟨kd, hb, e⟩ := bbOf2c_kind h (a := .rook) (b := .dragon) (hC s hs).1
    refine ⟨s, kd, hb, (hC s hs).2, line_attack p.turn ?_ rfl ha⟩
    rcases e with rfl | rfl <;> exact fun x hx => hx

theorem attacksSlider_sound {occ : Bitboard} {u : Square} (hu : (p.attacksSlider p.turn occ).isSet u = true) : Guarded p none occ.isSet u := by
  refine sliders_sound h none _ _ _ occ id id id ?_ ?_ ?_ hu <;> intro s hs
  · exact ⟨(mem_bbOf h.cons .lance p.turn s).mp hs, by simp⟩
  · exact ⟨((wf_bbOf2c h _ _).mem_toList s).mp hs, by simp⟩
  · exact ⟨((wf_bbOf2c h _ _).mem_toList s).mp hs, by simp⟩

theorem attacksSliderAvoid_sound {occ : Bitboard} {u a : Square} (hu : (p.attacksSliderAvoid p.turn a occ).isSet u = true) :
    Guarded p (some a) occ.isSet u := by
  refine sliders_sound h (some a) _ _ _ occ id id id ?_ ?_ ?_ hu <;> intro s hs
  · rw [(wf_bbOf h _ _).and_left.mem_toList, isSet_and, isSet_not, isSet_setMask] at hs
    simp only [Bool.and_eq_true, Bool.not_eq_true', decide_eq_false_iff_not] at hs
    exact ⟨(isSet_bbOf h .lance p.turn s).mp hs.1, by simpa using hs.2⟩
  · rw [(wf_bbOf2c h _ _).and_left.mem_toList, isSet_and, isSet_not, isSet_setMask] at hs
    simp only [Bool.and_eq_true, Bool.not_eq_true', decide_eq_false_iff_not] at hs
    exact ⟨hs.1, by simpa using hs.2⟩
  · rw [(wf_bbOf2c h _ _).and_left.mem_toList, isSet_and, isSet_not, isSet_setMask] at hs
    simp only [Bool.and_eq_true, Bool.not_eq_true', decide_eq_false_iff_not] at hs
    exact ⟨hs.1, by simpa using hs.2⟩

theorem steps_sound (avoid : Option Square) (occ : Square → Bool) (A B C D : Bitboard)
    (hpawn : ∀ s, (absPos p).board s = some (p.turn, .pawn) → some s ≠ avoid)
    (hA : ∀ s, s ∈ A.toList → (absPos p).board s = some (p.turn, .knight) ∧ some s ≠ avoid)
    (hB : ∀ s, s ∈ B.toList → (absPos p).board s = some (p.turn, .silver) ∧ some s ≠ avoid)
    (hC : ∀ s, s ∈ C.toList → (p.goldsC p.turn).isSet s = true ∧ some s ≠ avoid)
    (hD : ∀ s, s ∈ D.toList → (p.bbOf3 PT.Horse PT.Dragon PT.King &&& p.byColor p.turn).isSet s = true ∧ some s ≠ avoid) {u : Square}
    (hu : (pawnAttackBB p.turn (p.bbOf PT.Pawn p.turn) ||| unionOver A (knightAttack p.turn) ||| unionOver B (silverAttack p.turn) |||
      unionOver C (goldAttack p.turn) ||| unionOver D kingAttack).isSet u = true) : Guarded p avoid occ u := by
  simp only [isSet_or, Bool.or_eq_true, isSet_unionOver] at hu
  rcases hu with (((hu | ⟨s, hs, ha⟩) | ⟨s, hs, ha⟩) | ⟨s, hs, ha⟩) | ⟨s, hs, ha⟩
  · obtain ⟨s, hb, ha⟩ := (mem_pawnAttack h.cons (fun s hs => h.reg.alive s _ _ hs) u).mp hu
    exact ⟨s, .pawn, hb, hpawn s hb, .inl (pawn_step ha)⟩
  · refine ⟨s, .knight, (hA s hs).1, (hA s hs).2, ?_⟩
    rcases (isSet_attacksFrom .knight p.turn s u zero).mp ha with e | ⟨d, hd, -⟩
    · exact .inl e
    · cases hd
  · refine ⟨s, .silver, (hB s hs).1, (hB s hs).2, ?_⟩
    rcases (isSet_attacksFrom .silver p.turn s u zero).mp ha with e | ⟨d, hd, -⟩
    · exact .inl e
    · cases hd
  · obtain ⟨kd, hb, hg⟩ := (isSet_goldsC h p.turn s).mp (hC s hs).1
    exact ⟨s, kd, hb, (hC s hs).2, gold_attack hg ha⟩
  · obtain ⟨hs, hav⟩ := hD s hs
    unfold bbOf3 bbOf2 at hs
    simp only [isSet_and, isSet_or, Bool.and_eq_true, Bool.or_eq_true, h.cons.color] at hs
    obtain ⟨ht, kd, hb⟩ := hs
    have hst : StepAt p.turn .king s u := (isSet_king_step p.turn s u).mp ha
    refine ⟨s, kd, hb, hav, ?_⟩
    rcases ht with (e | e) | e
    · rw [show PT.Horse = Kind.code .horse from rfl, h.cons.type] at e
      obtain ⟨c, e⟩ := e; rw [hb] at e; cases e
      exact adj_attack (.inl rfl) hst
    · rw [show PT.Dragon = Kind.code .dragon from rfl, h.cons.type] at e
      obtain ⟨c, e⟩ := e; rw [hb] at e; cases e
      exact adj_attack (.inr rfl) hst
    · rw [show PT.King = Kind.code .king from rfl, h.cons.type] at e
      obtain ⟨c, e⟩ := e; rw [hb] at e; cases e
      exact .inl hst

theorem wf_bbOf3c : (p.bbOf3 PT.Horse PT.Dragon PT.King &&& p.byColor p.turn).WF := (h.cons.wfColor _).and_right

theorem wf_goldsC : (p.goldsC p.turn).WF := WF.and_left h.cons.wfGolds

theorem aroundNonSlider_sound (occ : Square → Bool) {u : Square} (hu : (p.aroundNonSlider p.turn k).isSet u = true) : Guarded p none occ u := by
  refine steps_sound h none occ _ _ _ _ (by simp) ?_ ?_ ?_ ?_ hu <;> intro s hs <;> refine ⟨?_, by simp⟩
  · rw [(wf_bbOf h _ _).and_left.mem_toList, isSet_and, Bool.and_eq_true] at hs
    exact (isSet_bbOf h .knight p.turn s).mp hs.1
  · rw [(wf_bbOf h _ _).and_left.mem_toList, isSet_and, Bool.and_eq_true] at hs
    exact (isSet_bbOf h .silver p.turn s).mp hs.1
  · rw [(wf_goldsC h).and_left.mem_toList, isSet_and, Bool.and_eq_true] at hs
    exact hs.1
  · rw [(wf_bbOf3c h).and_left.mem_toList, isSet_and, Bool.and_eq_true] at hs
    exact hs.1

theorem aroundNonSliderAvoid_sound (occ : Square → Bool) {u a : Square} (hna : (absPos p).board a ≠ some (p.turn, .pawn))
    (hu : (p.aroundNonSliderAvoid p.turn k a).isSet u = true) : Guarded p (some a) occ u := by
  refine steps_sound h (some a) occ _ _ _ _ (fun s hs e => ?_) ?_ ?_ ?_ ?_ hu
  · cases e; exact hna hs
  all_goals intro s hs
  · rw [(wf_bbOf h _ _).and_left.and_left.mem_toList, isSet_and, isSet_and, isSet_not, isSet_setMask] at hs
    simp only [Bool.and_eq_true, Bool.not_eq_true', decide_eq_false_iff_not] at hs
    exact ⟨(isSet_bbOf h .knight p.turn s).mp hs.1.1, by simpa using hs.2⟩
  · rw [(wf_bbOf h _ _).and_left.and_left.mem_toList, isSet_and, isSet_and, isSet_not, isSet_setMask] at hs
    simp only [Bool.and_eq_true, Bool.not_eq_true', decide_eq_false_iff_not] at hs
    exact ⟨(isSet_bbOf h .silver p.turn s).mp hs.1.1, by simpa using hs.2⟩
  · rw [(wf_goldsC h).and_left.and_left.mem_toList, isSet_and, isSet_and, isSet_not, isSet_setMask] at hs
    simp only [Bool.and_eq_true, Bool.not_eq_true', decide_eq_false_iff_not] at hs
    exact ⟨hs.1.1, by simpa using hs.2⟩
  · rw [(wf_bbOf3c h).and_left.and_left.mem_toList, isSet_and, isSet_and, isSet_not, isSet_setMask] at hs
    simp only [Bool.and_eq_true, Bool.not_eq_true', decide_eq_false_iff_not] at hs
    exact ⟨hs.1.1, by simpa using hs.2⟩

theorem aroundAvoid_sound {occ : Bitboard} {u a : Square} (hna : (absPos p).board a ≠ some (p.turn, .pawn))
    (hu : (p.aroundAvoid p.turn k a occ).isSet u = true) : Guarded p (some a) occ.isSet u := by
  unfold aroundAvoid at hu
  rw [isSet_or, Bool.or_eq_true] at hu
  rcases hu with e | e
  · exact aroundNonSliderAvoid_sound h _ hna e
  · exact attacksSliderAvoid_sound h e

/-! ### Captures and drops in between -/

omit h in
/-- No piece of `sum` is free to go to `v`. -/
theorem anyFree_false {pinned sum : Bitboard} {v k f : Square} (hw : sum.WF) (hf : sum.isSet f = true) (ha : anyFree pinned v k sum = false) :
    pinned.isSet f = true ∧ isAlignedT f v k = false := by
  unfold anyFree at ha
  rw [List.any_eq_false] at ha
  have := ha f ((hw.mem_toList f).mpr hf)
  simp only [Bool.or_eq_true, Bool.not_eq_true', not_or, Bool.not_eq_false, Bool.not_eq_true] at this
  refine ⟨?_, this.2⟩
  have hs : (pinned &&& setMask f).WF := (WF.setMask f).and_right
  obtain ⟨x, hx⟩ := hs.isAny_iff.mp this.1.2
  rw [isSet_and, isSet_setMask, Bool.and_eq_true, decide_eq_true_eq] at hx
  rw [← hx.2]; exact hx.1

theorem canCapture_false {v : Square} {slide : Bitboard} (hc : p.canCapture p.turn.opp k v (p.discoveredCheckBB false) slide = false)
    {f : Square} {kd : Kind} (hf : (absPos p).board f = some (p.turn.opp, kd)) (hkd : kd ≠ .king) (ha : Attacks p.turn.opp kd slide.isSet f v) :
    ∃ S, PinLine (absPos p) p.turn k f S ∧ ¬ OnLine f v k := by
  unfold canCapture at hc
  have hw : (p.attackersTo p.turn.opp v slide &&& ~~~p.byType PT.King).WF := (wf_attackersTo h.cons _ _ _).and_left
  have hset : (p.attackersTo p.turn.opp v slide &&& ~~~p.byType PT.King).isSet f = true := by
    rw [isSet_and, isSet_not, Bool.and_eq_true, isSet_attackersTo h.cons, Bool.not_eq_true', Bool.eq_false_iff, ne_eq,
      show PT.King = Kind.code .king from rfl, h.cons.type]
    refine ⟨⟨kd, hf, ha⟩, ?_⟩
    rintro ⟨c, e⟩; rw [hf] at e; cases e; exact hkd rfl
  obtain ⟨h1, h2⟩ := anyFree_false hw hset hc
  obtain ⟨k', e, S, hp, -⟩ := (isSet_discoveredCheckBB h.cons false f).mp h1
  rw [h.king] at e; cases e
  exact ⟨S, hp, by rw [← isAlignedT_iff hp.aligned, h2]; decide⟩

theorem canCaptureAvoid_any {v a : Square} {slide pinned : Bitboard} (hc : p.canCaptureAvoid p.turn.opp k v a pinned slide = false)
    {f : Square} {kd : Kind} (hf : (absPos p).board f = some (p.turn.opp, kd)) (hkd : kd ≠ .king) (hfa : f ≠ a)
    (ha : Attacks p.turn.opp kd slide.isSet f v) : pinned.isSet f = true ∧ isAlignedT f v k = false := by
  unfold canCaptureAvoid at hc
  have hw : (p.attackersTo p.turn.opp v slide &&& ~~~(p.byType PT.King ||| setMask a)).WF := (wf_attackersTo h.cons _ _ _).and_left
  refine anyFree_false (f := f) hw ?_ hc
  have h1 : (p.byType PT.King).isSet f = false := by
    rw [Bool.eq_false_iff, ne_eq, show PT.King = Kind.code .king from rfl, h.cons.type]
    rintro ⟨c, e⟩; rw [hf] at e; cases e; exact hkd rfl
  rw [isSet_and, isSet_not, isSet_or, h1, isSet_setMask, Bool.and_eq_true, isSet_attackersTo h.cons]
  exact ⟨⟨kd, hf, ha⟩, by simp [hfa]⟩

theorem canCaptureAvoid_false {v a : Square} {slide : Bitboard}
    (hc : p.canCaptureAvoid p.turn.opp k v a (p.discoveredCheckBB false) slide = false)
    {f : Square} {kd : Kind} (hf : (absPos p).board f = some (p.turn.opp, kd)) (hkd : kd ≠ .king) (hfa : f ≠ a)
    (ha : Attacks p.turn.opp kd slide.isSet f v) : ∃ S, PinLine (absPos p) p.turn k f S ∧ ¬ OnLine f v k := by
  obtain ⟨h1, h2⟩ := canCaptureAvoid_any h hc hf hkd hfa ha
  obtain ⟨k', e, S, hp, -⟩ := (isSet_discoveredCheckBB h.cons false f).mp h1
  rw [h.king] at e; cases e
  exact ⟨S, hp, by rw [← isAlignedT_iff hp.aligned, h2]; decide⟩

/-- Nothing can be dropped on `v` after the move. -/
theorem no_drop {q' : Pos} {src : Option Square} {t v : Square} {kt : Kind} (ha : After (absPos p) q' src t kt)
    (hex : (p.hand p.turn.opp).exceptPawnExists = false) (hc : p.canPawnDrop p.turn.opp v = false)
    (ht : (absPos p).board t = some (p.turn.opp, .pawn) → X t = X v → (p.hand p.turn.opp).has 0 = false) (hp : HKind) :
    ¬ q'.Pseudo (.drop hp v) := by
  rintro ⟨h1, -, -, h4⟩
  rw [ha.turn, ha.hand] at h1
  rw [ha.turn] at h4
  have h1 := (has_iff h.cons p.turn.opp hp).mpr h1
  have hpw : hp = .pawn := by
    by_contra hne
    have : (p.hand p.turn.opp).exceptPawnExists = true :=
      (exceptPawn_iff _).mpr ⟨hp.code, by cases hp <;> first | exact absurd rfl hne | decide, by cases hp <;> decide, h1⟩
    rw [hex] at this; cases this
  subst hpw
  have h4 := h4 rfl
  unfold canPawnDrop at hc
  rw [show HKind.code .pawn = 0 from rfl] at h1
  rw [h1, Bool.true_and, Bool.not_eq_false'] at hc
  have hw : (p.bbOf PT.Pawn p.turn.opp &&& fileMask (file v)).WF := (wf_bbOf h _ _).and_left
  obtain ⟨u, hu⟩ := hw.isAny_iff.mp hc
  rw [isSet_and, Bool.and_eq_true, show (fileMask (file v)).isSet u = _ from isSet_fileMask ⟨file v, file_lt v⟩ u,
    decide_eq_true_eq] at hu
  have hb := (isSet_bbOf h .pawn p.turn.opp u).mp hu.1
  have hX : X u = X v := by rw [← file_eq_X, ← file_eq_X, hu.2]
  by_cases hut : u = t
  · subst hut
    have := ht hb hX
    rw [h1] at this; cases this
  · exact h4 u hX ((ha.them u .pawn).mpr ⟨hut, hb⟩)

/-- Mate from a distance. -/
theorem far_mate {q' : Pos} {src : Option Square} {t : Square} {kt : Kind} {d : Dir} {n : Nat} (ha : After (absPos p) q' src t kt)
    (hd : IsDir d) (hn : 2 ≤ n) (ht : At k d n t) (hs : SlideLine p.turn kt t k) (hfree : ∀ w, Between t w k → q'.occ w = false)
    (hking : ∀ u, StepAt p.turn.opp .king k u → (∀ kd, (absPos p).board u ≠ some (p.turn.opp, kd)) →
      Guarded p src q'.occ u ∨ Attacks p.turn kt (occWithout q'.occ k) t u)
    (hcap : ∀ f v kd, (absPos p).board f = some (p.turn.opp, kd) → kd ≠ .king → f ≠ t → Attacks p.turn.opp kd q'.occ f v →
      v = t ∨ Between t v k → ∃ S, PinLine (absPos p) p.turn k f S ∧ ¬ OnLine f v k)
    (hsrc : ∀ S f, PinLine (absPos p) p.turn k f S → f ≠ t → some S ≠ src) (hfs : ∀ f kd, (absPos p).board f = some (p.turn.opp, kd) → some f ≠ src)
    (hdrop : ∀ hp v, Between t v k → ¬ q'.Pseudo (.drop hp v)) : q'.Mated := by
  have htk : t ≠ k := (line_ne hd (line_of_at (by omega) ht)).symm
  have hK := h.kingAt
  have hturn : q'.turn = p.turn.opp := ha.turn
  have hK' : KingAt q' q'.turn k := ha.king hK htk
  have hopp : q'.turn.opp = p.turn := by rw [hturn]; cases p.turn <;> rfl
  have hatt : Attacks p.turn kt q'.occ t k := (attacks_iff ..).mpr (.inr ⟨hs, hfree⟩)
  refine mated_of hK' (c := t) ⟨kt, by rw [hopp]; exact ha.arrived, by rw [hopp]; exact hatt⟩ ?_ ?_ ?_
  · intro u hu hfr
    rw [hturn] at hu hfr
    rw [hopp]
    have hut : u ≠ t := by rintro rfl; exact not_near hd hn ht hu
    rcases hking u hu (fun kd e => hfr kd ((ha.them u kd).mpr ⟨hut, e⟩)) with ⟨s, kd, hb, hne, hat⟩ | hat
    · exact ⟨s, kd, (ha.own s kd).mpr (.inr ⟨hne, hb⟩), attacks_mono (fun w hw => by unfold occWithout at hw; split at hw; cases hw; exact hw) hat⟩
    · exact ⟨t, kt, ha.arrived, hat⟩
  · intro f v kd hf hkd hat hv
    rw [hturn] at hf hat
    obtain ⟨hft, hf⟩ := (ha.them f kd).mp hf
    obtain ⟨S, hp, ho⟩ := hcap f v kd hf hkd hft hat hv
    have hvf : v ≠ f := (attacks_ne hat).symm
    have hl := hp.leaves hvf ho
    refine ⟨S, .inr ?_, hl⟩
    rw [hopp]
    refine ha.pin hp (hsrc S f hp hft) (hfs f kd hf) fun hb => ho (onLine_of hp.btw (.inr ?_) hvf)
    rcases hv with rfl | hv
    · exact hb
    · exact between_trans_right hb hv
  · intro hp v hv hps
    exact absurd hps (hdrop hp v hv)

end

end Verif
