import Verif.Lemmas.Safe

/-!
`hiddenCheckers` finds exactly the pieces that stand alone between a king and a line piece aimed at it.
-/

namespace Verif
open Spec Bitboard Position

/-! ### Exactly one bit -/

theorem count1s_one {x : BitVec 64} : count1s x = 1 ↔ ∃ i, x.getLsbD i = true ∧ ∀ j, x.getLsbD j = true → j = i := by
  have h : count1s x = (bits x).length := by unfold count1s bits; exact List.countP_eq_length_filter
  rw [h, List.length_eq_one_iff]
  constructor
  · rintro ⟨a, ha⟩
    have hm : ∀ j, x.getLsbD j = true ↔ j = a := fun j => by rw [← mem_bits, ha, List.mem_singleton]
    exact ⟨a, (hm a).mpr rfl, fun j hj => (hm j).mp hj⟩
  · rintro ⟨i, hi, hu⟩
    have hs := bits_sorted x
    have hm := mem_bits x
    rcases hb : bits x with _ | ⟨a, l⟩
    · have := (hm i).mpr hi
      rw [hb] at this; cases this
    · rcases l with _ | ⟨b, l⟩
      · exact ⟨a, rfl⟩
      · rw [hb] at hs
        have h1 : a = i := hu a ((hm a).mp (by rw [hb]; simp))
        have h2 : b = i := hu b ((hm b).mp (by rw [hb]; simp))
        have h3 : a < b := by
          rw [List.pairwise_cons] at hs
          exact hs.1 b (by simp)
        omega

/-- Counting the two words together is right when no two members lie 63 apart. -/
theorem isOneBitMerged_iff {b : Bitboard} (hb : b.WF)
    (h63 : ∀ u v : Square, b.isSet u = true → b.isSet v = true → u.val ≠ v.val + 63) :
    isOneBitMerged b = true ↔ ∃ u, b.isSet u = true ∧ ∀ v, b.isSet v = true → v = u := by
  unfold isOneBitMerged
  rw [beq_iff_eq, count1s_one]
  -- every bit of the merged word is a square
  have hbit : ∀ i, (b.p0 ||| b.p1).getLsbD i = true ↔ ∃ s : Square, b.isSet s = true ∧ (s.val = i ∧ i < 63 ∨ s.val = i + 63) := by
    intro i
    rw [BitVec.getLsbD_or, Bool.or_eq_true]
    constructor
    · rintro (h | h)
      · have hi : i < 63 := by
          by_contra hc
          have h63' := hb.1
          rcases Nat.lt_or_ge i 64 with h1 | h1
          · have : i = 63 := by omega
            subst this; rw [h63'] at h; cases h
          · rw [BitVec.getLsbD_of_ge _ _ h1] at h; cases h
        refine ⟨⟨i, by omega⟩, ?_, Or.inl ⟨rfl, hi⟩⟩
        rw [isSet_eq]; simp only []; rw [if_pos hi]; exact h
      · have hi : i < 18 := by
          by_contra hc
          rw [hb.2 i (by omega)] at h; cases h
        refine ⟨⟨i + 63, by omega⟩, ?_, Or.inr rfl⟩
        rw [isSet_eq]; simp only []; rw [if_neg (by omega), Nat.add_sub_cancel]; exact h
    · rintro ⟨s, hs, ⟨e, hi⟩ | e⟩
      · rw [isSet_eq, if_pos (by omega)] at hs
        exact Or.inl (by rw [← e]; exact hs)
      · rw [isSet_eq, if_neg (by omega)] at hs
        exact Or.inr (by rw [show i = s.val - 63 by omega]; exact hs)
  constructor
  · rintro ⟨i, hi, hu⟩
    obtain ⟨u, hu1, hu2⟩ := (hbit i).mp hi
    refine ⟨u, hu1, fun v hv => ?_⟩
    have hv2 : ∃ j, (v.val = j ∧ j < 63 ∨ v.val = j + 63) := by
      rcases Nat.lt_or_ge v.val 63 with h | h
      · exact ⟨v.val, Or.inl ⟨rfl, h⟩⟩
      · exact ⟨v.val - 63, Or.inr (by omega)⟩
    obtain ⟨j, hj⟩ := hv2
    have hji := hu j ((hbit j).mpr ⟨v, hv, hj⟩)
    subst hji
    have a1 := h63 u v hu1 hv
    have a2 := h63 v u hv hu1
    apply Fin.ext
    omega
  · rintro ⟨u, hu, huu⟩
    rcases Nat.lt_or_ge u.val 63 with h | h
    · refine ⟨u.val, (hbit _).mpr ⟨u, hu, Or.inl ⟨rfl, h⟩⟩, fun j hj => ?_⟩
      obtain ⟨v, hv, e⟩ := (hbit j).mp hj
      rw [huu v hv] at e; omega
    · refine ⟨u.val - 63, (hbit _).mpr ⟨u, hu, Or.inr (by omega)⟩, fun j hj => ?_⟩
      obtain ⟨v, hv, e⟩ := (hbit j).mp hj
      rw [huu v hv] at e; omega

/-- Two squares strictly between the same two squares are never 63 apart: that would be a whole rank. -/
theorem between_not_63 {s k u v : Square} (hu : Between s u k) (hv : Between s v k) : u.val ≠ v.val + 63 := by
  intro e
  obtain ⟨d, hd, h1, h2⟩ := between_iff.mp hu
  obtain ⟨h3, h4⟩ := (between_on hd (line_trans h1 h2)).mp hv
  obtain ⟨a, ha, a1, a2⟩ := h1
  obtain ⟨b, hb, b1, b2⟩ := h2
  obtain ⟨c, hc, c1, c2⟩ := h3
  obtain ⟨g, hg, g1, g2⟩ := h4
  have x1 := X_bounds s
  have x2 := X_bounds k
  have e1 : X u = X v + 7 := by unfold X; omega
  have e2 : Y u = Y v := by unfold Y; omega
  obtain ⟨dx, dy⟩ := d
  obtain ⟨i1, i2, i3⟩ := hd
  simp only [] at *
  rcases i1 with rfl | rfl | rfl <;> omega

/-! ### Conditional unions -/

theorem isSet_foldl_if {α : Type} (c : α → Bool) (g : α → Bitboard) (l : List α) (b : Bitboard) (t : Square) :
    (l.foldl (fun r x => if c x then r ||| g x else r) b).isSet t = true ↔
      b.isSet t = true ∨ ∃ x ∈ l, c x = true ∧ (g x).isSet t = true := by
  induction l generalizing b with
  | nil => simp
  | cons a l ih =>
    rw [List.foldl_cons, ih]
    by_cases hc : c a = true
    · rw [if_pos hc, isSet_or, Bool.or_eq_true]
      simp [hc, or_assoc]
    · rw [if_neg hc]
      simp [hc]

theorem wf_foldl_if {α : Type} (c : α → Bool) (g : α → Bitboard) (l : List α) (b : Bitboard) (hb : b.WF)
    (hg : ∀ x, (g x).WF) : (l.foldl (fun r x => if c x then r ||| g x else r) b).WF := by
  induction l generalizing b with
  | nil => exact hb
  | cons a l ih =>
    rw [List.foldl_cons]
    apply ih
    split
    · exact hb.or (hg a)
    · exact hb

/-! ### Line pieces aimed at a square -/

theorem attacks_zero_slide {c : Color} {kd : Kind} (hs : kd.steps = []) {s t : Square} :
    Attacks c kd zero.isSet s t ↔ SlideLine c kd s t := by
  rw [attacks_iff]
  constructor
  · rintro (⟨d, hd, -⟩ | h)
    · rw [hs] at hd; cases hd
    · exact h.1
  · intro h; exact Or.inr ⟨h, fun u _ => isSet_zero u⟩

theorem slideLine_none {c : Color} {kd : Kind} (h : kd.slides = []) {s t : Square} : ¬ SlideLine c kd s t := by
  rintro ⟨d, hd, -⟩; rw [h] at hd; cases hd

theorem isSet_pinners {p : Position} (h : Consistent p) (a : Color) (k s : Square) :
    (p.byColor a &&& ((p.byType PT.Lance &&& lanceAttackToEdge a.opp k) ||| (p.bbOf2 PT.Rook PT.Dragon &&& rookAttackToEdge k) |||
       (p.bbOf2 PT.Bishop PT.Horse &&& bishopAttackToEdge k))).isSet s = true ↔
    ∃ kd, (absPos p).board s = some (a, kd) ∧ SlideLine a kd s k := by
  rw [isSet_and]
  rcases hb : (absPos p).board s with _ | ⟨c', kd⟩
  · rw [h.color_none hb]; simp
  · obtain ⟨h1, h2, h3, h4, h5, h6, h7, h8, h9, h10⟩ := h.types hb
    rw [h.color_some hb]
    by_cases hc : a = c'
    · subst hc
      simp only [isSet_or, isSet_and, bbOf2, h2, h5, h6, h9, h10, PT.Lance, PT.Rook, PT.Dragon, PT.Bishop, PT.Horse,
        lanceAttackToEdge, rookAttackToEdge, bishopAttackToEdge, Option.some.injEq, Prod.mk.injEq, true_and, exists_eq_left']
      clear h1 h2 h3 h4 h5 h6 h7 h8 h9 h10
      cases kd <;> simp only [reduceCtorEq, decide_false, decide_true, Bool.false_and, Bool.true_and, Bool.or_false,
        Bool.false_or]
      case lance => exact (back_lance a k s zero).trans (attacks_zero_slide rfl)
      case bishop => exact (back_bishop a k s zero).trans (attacks_zero_slide rfl)
      case rook => exact (back_rook a k s zero).trans (attacks_zero_slide rfl)
      case horse => exact (back_bishop a k s zero).trans (attacks_zero_slide rfl)
      case dragon => exact (back_rook a k s zero).trans (attacks_zero_slide rfl)
      all_goals exact iff_of_false id (slideLine_none rfl)
    · simp only [hc, decide_false, Bool.false_and, Bool.false_eq_true, Option.some.injEq, Prod.mk.injEq, false_iff]
      rintro ⟨_, ⟨e, _⟩, _⟩
      exact hc e.symm

/-! ### Hidden checkers -/

/-- `hiddenCheckers`: for the king of colour `a.opp`, line pieces of colour `a`, pieces between of colour `b`. -/
theorem hidden_core {p : Position} (h : Consistent p) (a b : Color) (k f : Square) :
    ((p.byColor a &&& ((p.byType PT.Lance &&& lanceAttackToEdge a.opp k) ||| (p.bbOf2 PT.Rook PT.Dragon &&& rookAttackToEdge k) |||
       (p.bbOf2 PT.Bishop PT.Horse &&& bishopAttackToEdge k))).toList.foldl (fun result sq =>
      if (betweenBB sq k &&& p.occupied).isAny && isOneBitMerged (betweenBB sq k &&& p.occupied) &&
          (betweenBB sq k &&& p.occupied).andIsAny (p.byColor b)
      then result ||| (betweenBB sq k &&& p.occupied) else result) zero).isSet f = true ↔
    ∃ s, PinLine (absPos p) a k f s ∧ ∃ kd, (absPos p).board f = some (b, kd) := by
  have hwf : (p.byColor a &&& ((p.byType PT.Lance &&& lanceAttackToEdge a.opp k) ||| (p.bbOf2 PT.Rook PT.Dragon &&& rookAttackToEdge k) |||
       (p.bbOf2 PT.Bishop PT.Horse &&& bishopAttackToEdge k))).WF := (h.wfColor a).and_left
  rw [isSet_foldl_if (fun sq => (betweenBB sq k &&& p.occupied).isAny && isOneBitMerged (betweenBB sq k &&& p.occupied) &&
          (betweenBB sq k &&& p.occupied).andIsAny (p.byColor b))]
  simp only [isSet_zero, Bool.false_eq_true, false_or]
  refine exists_congr fun s => ?_
  rw [hwf.mem_toList, isSet_pinners h]
  have hw : (betweenBB s k &&& p.occupied).WF := (wf_betweenBB s k).and_left
  have hset : ∀ u, (betweenBB s k &&& p.occupied).isSet u = true ↔ Between s u k ∧ (absPos p).occ u = true := by
    intro u
    rw [isSet_and, Bool.and_eq_true, isSet_betweenBB, h.occ]
  have h63 : ∀ u v : Square, (betweenBB s k &&& p.occupied).isSet u = true → (betweenBB s k &&& p.occupied).isSet v = true →
      u.val ≠ v.val + 63 := fun u v hu hv => between_not_63 ((hset u).mp hu).1 ((hset v).mp hv).1
  rw [Bool.and_eq_true, Bool.and_eq_true, hw.isAny_iff, isOneBitMerged_iff hw h63, andIsAny_iff (Or.inl hw)]
  constructor
  · rintro ⟨h1, ⟨⟨-, u, hu, huu⟩, v, hv⟩, hf⟩
    have hfu := huu f hf
    subst hfu
    obtain ⟨hb, ho⟩ := (hset f).mp hf
    refine ⟨⟨h1, hb, ho, fun w hw' ho' => huu w ((hset w).mpr ⟨hw', ho'⟩)⟩, ?_⟩
    obtain ⟨hv1, hv2⟩ := hv
    have := huu v hv1
    subst this
    exact (h.color b v).mp hv2
  · rintro ⟨hp, hb⟩
    have hf : (betweenBB s k &&& p.occupied).isSet f = true := (hset f).mpr ⟨hp.btw, hp.occ⟩
    refine ⟨hp.piece, ⟨⟨⟨f, hf⟩, f, hf, fun v hv => ?_⟩, f, hf, (h.color b f).mpr hb⟩, hf⟩
    obtain ⟨h1, h2⟩ := (hset v).mp hv
    exact hp.only v h1 h2

theorem isSet_pinnedBB {p : Position} (h : Consistent p) (f : Square) :
    p.pinnedBB.isSet f = true ↔ ∃ k, p.kingSquare p.turn = some k ∧ ∃ s, PinLine (absPos p) p.turn.opp k f s ∧
      ∃ kd, (absPos p).board f = some (p.turn, kd) := by
  unfold pinnedBB hiddenCheckers
  simp only [if_true]
  rcases hk : p.kingSquare p.turn with _ | k
  · simp
  · have := hidden_core h p.turn.opp p.turn k f
    rw [opp_opp] at this
    simp only [Option.some.injEq, exists_eq_left']
    exact this

theorem isSet_discoveredCheckBB {p : Position} (h : Consistent p) (bu : Bool) (f : Square) :
    (p.discoveredCheckBB bu).isSet f = true ↔ ∃ k, p.kingSquare p.turn.opp = some k ∧ ∃ s, PinLine (absPos p) p.turn k f s ∧
      ∃ kd, (absPos p).board f = some (if bu = true then p.turn else p.turn.opp, kd) := by
  unfold discoveredCheckBB hiddenCheckers
  simp only [Bool.false_eq_true, if_false]
  rcases hk : p.kingSquare p.turn.opp with _ | k
  · simp
  · have := hidden_core h p.turn (if bu = true then p.turn else p.turn.opp) k f
    simp only [Option.some.injEq, exists_eq_left']
    exact this

theorem wf_hiddenCheckers {p : Position} (h : Consistent p) (a b : Bool) : (p.hiddenCheckers a b).WF := by
  unfold hiddenCheckers
  simp only []
  split
  · exact WF.zero
  · rename_i ksq _
    exact wf_foldl_if (fun sq => (betweenBB sq ksq &&& p.occupied).isAny && isOneBitMerged (betweenBB sq ksq &&& p.occupied) &&
          (betweenBB sq ksq &&& p.occupied).andIsAny (p.byColor (if b then p.turn else p.turn.opp))) _ _ _ WF.zero
          (fun x => (wf_betweenBB x ksq).and_left)

theorem isAlignedT_iff {a b c : Square} (h : Aligned2 a c) : isAlignedT a b c = true ↔ OnLine a b c := by
  rw [C13_aligned_assuming a b c h, isAligned_iff]; rfl

theorem PinLine.aligned {q : Pos} {a : Color} {k f s : Square} (h : PinLine q a k f s) : Aligned2 f k := by
  obtain ⟨d, hd, -, h2⟩ := between_iff.mp h.btw
  exact exists_line.mpr ⟨d, hd, h2⟩

/-- Only one line piece can pin a given piece. -/
theorem PinLine.unique {q : Pos} {a : Color} {k f s s' : Square} (h : PinLine q a k f s) (h' : PinLine q a k f s') : s = s' := by
  obtain ⟨d, hd, h1, h2⟩ := between_iff.mp h.btw
  obtain ⟨e, he, h3, h4⟩ := between_iff.mp h'.btw
  have := line_dir_unique hd he h2 h4
  subst this
  have hs : q.occ s = true := by obtain ⟨kd, e, -⟩ := h.piece; exact occ_of_board e
  have hs' : q.occ s' = true := by obtain ⟨kd, e, -⟩ := h'.piece; exact occ_of_board e
  rcases line_total (line_symm.mp h1) (line_symm.mp h3) with e | e | e
  · exact e
  · have hb : Between s' s k := between_iff.mpr ⟨d, hd, line_symm.mpr e, line_trans h1 h2⟩
    exact absurd (h'.only s hb hs) (by rintro rfl; exact line_ne hd h1 rfl)
  · have hb : Between s s' k := between_iff.mpr ⟨d, hd, line_symm.mpr e, line_trans h3 h4⟩
    exact absurd (h.only s' hb hs') (by rintro rfl; exact line_ne hd h3 rfl)

/-- A piece whose move leaves the line to the king (`isPinnedIllegal`, `isDiscoveredCheck`). -/
theorem leavesLine_iff {p : Position} {a b : Color} {bb : Bitboard} {k f t : Square}
    (hbb : bb.isSet f = true ↔ ∃ s, PinLine (absPos p) a k f s ∧ ∃ kd, (absPos p).board f = some (b, kd))
    (hb : ∃ kd, (absPos p).board f = some (b, kd)) (hk : (absPos p).occ k = true)
    (hp : ∀ u, Between f u t → (absPos p).occ u = false) (htk : t ≠ k) (htf : t ≠ f) :
    leavesLine f t (some k) bb = true ↔ ∃ s, PinLine (absPos p) a k f s ∧ s ≠ t ∧ ¬ Between s t k := by
  unfold leavesLine
  rw [Bool.and_eq_true, hbb, Bool.not_eq_true']
  constructor
  · rintro ⟨⟨s, hs, -⟩, hn⟩
    refine ⟨s, hs, ?_⟩
    rw [Bool.eq_false_iff, ne_eq, isAlignedT_iff hs.aligned, hs.onLine hk hp htk htf] at hn
    exact ⟨fun e => hn (Or.inl e.symm), fun e => hn (Or.inr e)⟩
  · rintro ⟨s, hs, h1, h2⟩
    refine ⟨⟨s, hs, hb⟩, ?_⟩
    rw [Bool.eq_false_iff, ne_eq, isAlignedT_iff hs.aligned, hs.onLine hk hp htk htf]
    rintro (e | e)
    · exact h1 e.symm
    · exact h2 e

end Verif
