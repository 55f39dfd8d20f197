import Verif.Model.Features
import Verif.Spec.Declare
import Verif.Props.Legal

/-!
# C40: declaration win; C42: feature planes
-/

namespace Verif
open Spec Position Bitboard

/-! ### C40 -/

theorem countP_add {α : Type} (f g h : α → Bool) (H : ∀ s, (f s).toNat = (g s).toNat + (h s).toNat) :
    ∀ l : List α, l.countP f = l.countP g + l.countP h
  | [] => rfl
  | a :: l => by
    rw [List.countP_cons, List.countP_cons, List.countP_cons, countP_add f g h H l]
    have := H a
    cases hf : f a <;> cases hg : g a <;> cases hh : h a <;> simp only [hf, hg, hh, Bool.toNat_true, Bool.toNat_false] at this <;>
      simp only [if_true, if_false, Bool.false_eq_true] <;> omega

theorem sum_points {α : Type} (v : α → Nat) (g h : α → Bool) (H : ∀ s, v s = (g s).toNat + 4 * (h s).toNat) :
    ∀ l : List α, (l.map v).sum = l.countP g + 4 * l.countP h
  | [] => rfl
  | a :: l => by
    rw [List.countP_cons, List.countP_cons, List.map_cons, List.sum_cons, sum_points v g h H l, H a]
    cases g a <;> cases h a <;> simp <;> omega

theorem countP_eq_one {k : Square} : (List.finRange 81).countP (fun s => decide (s = k)) = 1 := by
  have h := List.count_eq_one_of_mem (List.nodup_finRange 81) (List.mem_finRange k)
  rw [List.count] at h
  rw [← h]
  congr 1

theorem popCount_countP {b : Bitboard} (hb : b.WF) : b.popCount = (List.finRange 81).countP (fun s => b.isSet s) := by
  rw [hb.popCount_eq, List.countP_eq_length_filter]

theorem isSet_camp (c : Color) (s : Square) : (campField c).isSet s = decide (zone c s) := by
  rw [Bool.eq_iff_iff, decide_eq_true_iff, ← isSet_zone123]
  cases c <;> rfl

theorem wf_camp (c : Color) : (campField c).WF := by
  have := wf_zone123 c
  cases c <;> exact this

/-- A big piece in the camp. -/
def bigCamped (q : Pos) (c : Color) (s : Square) : Bool :=
  match q.camped c s with
  | some k => decide (k.points = 5)
  | none => false

theorem own_count {p : Position} (hp : Consistent p) {c : Color} {k : Square} (hk : (absPos p).board k = some (c, .king)) (hz : zone c k) :
    (p.byColor c &&& campField c).popCount = (absPos p).campCount c + 1 := by
  rw [popCount_countP (hp.wfColor c).and_left]
  unfold Pos.campCount
  rw [← countP_eq_one (k := k)]
  refine countP_add _ _ _ (fun s => ?_) _
  have hcol : (p.byColor c).isSet s = ((absPos p).board s).elim false (fun x => decide (x.1 = c)) := by
    rw [Bool.eq_iff_iff, hp.color]
    rcases (absPos p).board s with _ | ⟨c', k'⟩
    · simp
    · simp only [Option.some.injEq, Prod.mk.injEq, Option.elim, decide_eq_true_eq]
      exact ⟨fun ⟨_, h, _⟩ => h, fun h => ⟨k', h, rfl⟩⟩
  rw [isSet_and, isSet_camp, hcol]
  unfold Pos.camped
  by_cases hs : s = k
  · subst hs
    rw [hk]
    simp [hz]
  · rcases hb : (absPos p).board s with _ | ⟨c', k'⟩
    · simp [hs]
    · have hnk : c' = c → k' ≠ .king := by
        rintro rfl rfl
        exact hs (Option.some.inj (((hp.king c' s).mpr hb).symm.trans ((hp.king c' k).mpr hk)))
      by_cases hc : c' = c
      · have := hnk hc
        by_cases hz' : zone c s <;> simp [hc, hz', hs, this]
      · simp [hc, hs]

theorem big_count {p : Position} (hp : Consistent p) (c : Color) :
    ((p.bbOf4 PT.Rook PT.Dragon PT.Bishop PT.Horse &&& campField c) &&& p.byColor c).popCount =
      (List.finRange 81).countP (bigCamped (absPos p) c) := by
  rw [popCount_countP (hp.wfColor c).and_right]
  congr 1
  funext s
  rw [Bool.eq_iff_iff]
  have hr := hp.type .rook s
  have hd := hp.type .dragon s
  have hb := hp.type .bishop s
  have hh := hp.type .horse s
  have hc := hp.color c s
  simp only [bbOf4, bbOf3, bbOf2, isSet_and, isSet_or, isSet_camp, Bool.and_eq_true, Bool.or_eq_true, decide_eq_true_eq]
  rw [show PT.Rook = Kind.rook.code from rfl, show PT.Dragon = Kind.dragon.code from rfl,
    show PT.Bishop = Kind.bishop.code from rfl, show PT.Horse = Kind.horse.code from rfl, hr, hd, hb, hh, hc]
  unfold bigCamped Pos.camped
  rcases (absPos p).board s with _ | ⟨c', k'⟩
  · simp
  · by_cases hc : c' = c
    · by_cases hz : zone c s
      · cases k' <;> simp [hc, hz, Kind.points, Kind.hand, HKind.points]
      · simp [hz]
    · simp [hc]

theorem camp_points (q : Pos) (c : Color) :
    ((List.finRange 81).map (q.campPoints c)).sum =
      q.campCount c + 4 * (List.finRange 81).countP (bigCamped q c) := by
  unfold Pos.campCount
  refine sum_points _ _ _ (fun s => ?_) _
  unfold bigCamped Pos.campPoints
  rcases h : q.camped c s with _ | k
  · rfl
  · have hk : k ≠ .king := by
      rintro rfl
      unfold Pos.camped at h
      split at h
      · split at h
        · rename_i h'
          cases h
          exact h'.2.1 rfl
        · cases h
      · cases h
    cases k <;> simp_all [Kind.points, Kind.hand, HKind.points]

theorem big_le (q : Pos) (c : Color) : (List.finRange 81).countP (bigCamped q c) ≤ q.campCount c := by
  unfold Pos.campCount
  refine List.countP_mono_left fun s _ h => ?_
  unfold bigCamped at h
  split at h
  · rename_i h'; rw [h']; rfl
  · cases h

/-- **C40**: `is_nyugyoku` is exactly the 27-point declaration rule. -/
theorem C40_declaration (p : Position) (hp : Consistent p) (hc : CheckOK p) : p.nyugyoku = true ↔ (absPos p).CanDeclare := by
  have hking : (p.bbOf PT.King p.turn).andIsAny (campField p.turn) = true ↔
      ∃ s, (absPos p).board s = some (p.turn, .king) ∧ zone p.turn s := by
    rw [andIsAny_iff (.inr (wf_camp _))]
    refine exists_congr fun s => ?_
    rw [isSet_camp, decide_eq_true_iff]
    refine and_congr ?_ Iff.rfl
    have h := mem_bbOf hp .king p.turn s
    have hw : (p.bbOf Kind.king.code p.turn).WF := (hp.wfType _).and_left
    rw [hw.mem_toList] at h
    exact h
  unfold nyugyoku Pos.CanDeclare
  rw [show (absPos p).turn = p.turn from rfl, ← hc.inCheck]
  cases hcheck : p.inCheck
  · simp only [Bool.false_eq_true, if_false, not_false_eq_true, true_and]
    by_cases hk : (p.bbOf PT.King p.turn).andIsAny (campField p.turn) = true
    · obtain ⟨k, hk1, hk2⟩ := hking.mp hk
      have e1 := own_count hp hk1 hk2
      have e2 := big_count hp p.turn
      have e3 := camp_points (absPos p) p.turn
      have e4 := big_le (absPos p) p.turn
      have e5 : (absPos p).points p.turn = (absPos p).campCount p.turn +
          4 * (List.finRange 81).countP (bigCamped (absPos p) p.turn) +
          ((p.hand p.turn).numOf 0 + (p.hand p.turn).numOf 1 + (p.hand p.turn).numOf 2 + (p.hand p.turn).numOf 3
            + (p.hand p.turn).numOf 4 + 5 * (p.hand p.turn).numOf 5 + 5 * (p.hand p.turn).numOf 6) := by
        unfold Pos.points
        rw [e3]
        simp only [hkinds, List.map_cons, List.map_nil, List.sum_cons, List.sum_nil, HKind.points, absPos, HKind.code]
        omega
      rw [hk]
      simp only [Bool.not_true, Bool.false_eq_true, if_false, e1, e2]
      rw [e5]
      obtain ⟨a, ha⟩ : ∃ a, a = (absPos p).campCount p.turn := ⟨_, rfl⟩
      obtain ⟨b, hb⟩ : ∃ b, b = (List.finRange 81).countP (bigCamped (absPos p) p.turn) := ⟨_, rfl⟩
      rw [← ha, ← hb] at *
      have hn : ((Pos.needed p.turn : Nat) : Int) = pointsNeeded p.turn := by cases p.turn <;> rfl
      rw [← hn]
      have hex : (∃ s, (absPos p).board s = some (p.turn, .king) ∧ zone p.turn s) := ⟨k, hk1, hk2⟩
      simp only [hex, true_and]
      by_cases h10 : (((a + 1 : Nat) : Int) - 1 < 10)
      · rw [if_pos h10]
        constructor
        · intro h; cases h
        · intro h; omega
      · rw [if_neg h10]
        split
        · constructor
          · intro h; cases h
          · intro h; omega
        · constructor
          · intro _; omega
          · intro _; rfl
    · rw [Bool.not_eq_true] at hk
      rw [hk]
      simp only [Bool.not_false, if_true, Bool.false_eq_true, false_iff]
      rintro ⟨h, -⟩
      rw [hking.mpr h] at hk
      cases hk
  · simp

/-! A position in which Black may declare with 28 points: ten pieces in the camp, four of them big, and two pawns in hand. -/

def decBoard (s : Square) : Option (Color × Kind) :=
  if s.val = 0 then some (.black, .king) else if s.val = 80 then some (.white, .king)
  else if s.val = 9 ∨ s.val = 18 ∨ s.val = 27 ∨ s.val = 36 then some (.black, .gold)
  else if s.val = 45 ∨ s.val = 54 then some (.black, .dragon) else if s.val = 63 ∨ s.val = 72 then some (.black, .horse)
  else if s.val = 1 ∨ s.val = 11 then some (.black, .silver) else none

def decHand (n : Nat) : Color → HandPiece → Nat
  | .black, 0 => n
  | _, _ => 0

def decPos (n : Nat) : Pos := ⟨decBoard, fun c h => decHand n c h.code, .black⟩

def decModel (n : Nat) : Position := setPieces zeroKeys clear (fun s => pieceCode (decBoard s)) (decHand n)

theorem decModel_spec (n : Nat) (hn : n ≤ 2) : Consistent (decModel n) ∧ absPos (decModel n) = decPos n := by
  have hk : OneKing decBoard := by
    have h : ∀ c s t, decBoard s = some (c, .king) → decBoard t = some (c, .king) → s = t := by
      intro c
      cases c
      · have : ∀ s, decBoard s = some (.black, .king) → s = 0 := by decide +kernel
        intro s t h1 h2; rw [this s h1, this t h2]
      · have : ∀ s, decBoard s = some (.white, .king) → s = 80 := by decide +kernel
        intro s t h1 h2; rw [this s h1, this t h2]
    exact h
  obtain ⟨h1, h2, h3, -⟩ := setPieces_spec zeroKeys clear (decPos n) hk
    (fun c h => by interval_cases n <;> cases c <;> cases h <;> decide) (decHand n) (fun _ _ => rfl)
  exact ⟨h1, h3⟩

example : Consistent (decModel 2) ∧ CheckOK (decModel 2) ∧ (decModel 2).nyugyoku = true ∧ (absPos (decModel 2)).points .black = 28 ∧
    (decModel 1).nyugyoku = false := by
  have h := (decModel_spec 2 (by decide)).1
  have hw : ¬ (absPos (decModel 2)).InCheck (decModel 2).turn.opp := by
    rw [← inCheckB_iff h]; decide +kernel
  exact ⟨h, checkOK_find h hw (setPieces_checkers _ _ _ _), by decide +kernel, by decide +kernel, by decide +kernel⟩

/-! ### C42 -/

/-- Where the planes of a colour and kind show a square: 14 planes for Black, then 14 for White. -/
def planeCell (c : Color) (k : Kind) (s : Square) : Nat :=
  (match c with | .black => 0 | .white => 14 * 81) + 81 * (k.code - 1) + s.val

theorem planeCell_inj {c c' : Color} {k k' : Kind} {s s' : Square} (h : planeCell c k s = planeCell c' k' s') :
    c = c' ∧ k = k' ∧ s = s' := by
  have h1 := s.isLt
  have h2 := s'.isLt
  have h3 : 1 ≤ k.code ∧ k.code ≤ 14 := by cases k <;> decide
  have h4 : 1 ≤ k'.code ∧ k'.code ≤ 14 := by cases k' <;> decide
  unfold planeCell at h
  have hc : c = c' := by
    cases c <;> cases c' <;> simp only at h <;> first | rfl | omega
  subst hc
  have hk : k.code = k'.code := by omega
  have hs : s.val = s'.val := by omega
  refine ⟨rfl, ?_, Fin.ext hs⟩
  revert hk
  cases k <;> cases k' <;> decide

theorem mem_planeCells {p : Position} (hp : Consistent p) (c : Color) (base : Nat) (f : Square → Nat) (i : Nat) :
    i ∈ p.planeCells c base f ↔ ∃ s k, (absPos p).board s = some (c, k) ∧ i = base + 81 * (k.code - 1) + f s := by
  unfold planeCells
  simp only [List.mem_flatMap, List.mem_range, List.mem_map]
  constructor
  · rintro ⟨j, hj, s, hs, rfl⟩
    have hk : ∃ k : Kind, j + 1 = k.code := by
      interval_cases j
      · exact ⟨.pawn, rfl⟩
      · exact ⟨.lance, rfl⟩
      · exact ⟨.knight, rfl⟩
      · exact ⟨.silver, rfl⟩
      · exact ⟨.bishop, rfl⟩
      · exact ⟨.rook, rfl⟩
      · exact ⟨.gold, rfl⟩
      · exact ⟨.king, rfl⟩
      · exact ⟨.proPawn, rfl⟩
      · exact ⟨.proLance, rfl⟩
      · exact ⟨.proKnight, rfl⟩
      · exact ⟨.proSilver, rfl⟩
      · exact ⟨.horse, rfl⟩
      · exact ⟨.dragon, rfl⟩
    obtain ⟨k, hk⟩ := hk
    rw [hk] at hs
    exact ⟨s, k, (mem_bbOf hp k c s).mp hs, by omega⟩
  · rintro ⟨s, k, hb, rfl⟩
    have h3 : 1 ≤ k.code ∧ k.code ≤ 14 := by cases k <;> decide
    refine ⟨k.code - 1, by omega, s, ?_, rfl⟩
    rw [show k.code - 1 + 1 = k.code by omega]
    exact (mem_bbOf hp k c s).mpr hb

theorem nodup_planeCells {p : Position} (hp : Consistent p) (c : Color) (base : Nat) (f : Square → Nat) (hf : ∀ s, f s < 81)
    (hinj : ∀ s t, f s = f t → s = t) : (p.planeCells c base f).Nodup := by
  unfold planeCells
  rw [List.nodup_flatMap]
  refine ⟨fun i _ => ?_, ?_⟩
  · have hw : (p.bbOf (i + 1) c).WF := (hp.wfType _).and_left
    exact hw.nodup_toList.map_on fun s _ t _ h => hinj s t (by omega)
  · refine List.nodup_range.imp ?_
    intro i j hij
    show List.Disjoint _ _
    intro x hx hy
    simp only [List.mem_map] at hx hy
    obtain ⟨s, -, rfl⟩ := hx
    obtain ⟨t, -, h⟩ := hy
    have := hf s
    have := hf t
    omega

/-- **C42**: `piece_planes` writes 1.0 to exactly one cell for every piece, in the plane of its colour and kind at its
square, and nowhere else; every cell is inside the 28 planes. -/
theorem C42_planes (p : Position) (hp : Consistent p) :
    (∀ i, i ∈ p.piecePlanes ↔ ∃ s c k, (absPos p).board s = some (c, k) ∧ i = planeCell c k s) ∧
    p.piecePlanes.Nodup ∧ (∀ i ∈ p.piecePlanes, i < 28 * 81) := by
  have hm : ∀ i, i ∈ p.piecePlanes ↔ ∃ s c k, (absPos p).board s = some (c, k) ∧ i = planeCell c k s := by
    intro i
    unfold piecePlanes
    rw [List.mem_append, mem_planeCells hp, mem_planeCells hp]
    constructor
    · rintro (⟨s, k, h, rfl⟩ | ⟨s, k, h, rfl⟩)
      · exact ⟨s, _, k, h, rfl⟩
      · exact ⟨s, _, k, h, rfl⟩
    · rintro ⟨s, c, k, h, rfl⟩
      cases c
      · exact .inl ⟨s, k, h, rfl⟩
      · exact .inr ⟨s, k, h, rfl⟩
  refine ⟨hm, ?_, ?_⟩
  · unfold piecePlanes
    rw [List.nodup_append']
    refine ⟨nodup_planeCells hp _ _ _ (fun s => s.isLt) (fun s t h => Fin.ext h),
      nodup_planeCells hp _ _ _ (fun s => s.isLt) (fun s t h => Fin.ext h), ?_⟩
    intro i hi hj
    obtain ⟨s, k, -, e⟩ := (mem_planeCells hp _ _ _ _).mp hi
    obtain ⟨t, k', -, e'⟩ := (mem_planeCells hp _ _ _ _).mp hj
    have := (planeCell_inj (c := .black) (c' := .white) (e.symm.trans e')).1
    cases this
  · intro i hi
    obtain ⟨s, c, k, -, rfl⟩ := (hm i).mp hi
    have := s.isLt
    have : k.code ≤ 14 := by cases k <;> decide
    cases c <;> simp only [planeCell] <;> omega

/-- **C42** (rotated): with Black to move `piece_planes_rotate` is `piece_planes`; with White to move it writes exactly the
cells of the board turned round with colours exchanged, each once. -/
theorem C42_rotated (p : Position) (hp : Consistent p) :
    (p.turn = .black → p.piecePlanesRotate = p.piecePlanes) ∧
    (p.turn = .white → (∀ i, i ∈ p.piecePlanesRotate ↔
        ∃ s c k, (absPos p).rotate.board s = some (c, k) ∧ i = planeCell c k s) ∧
      p.piecePlanesRotate.Nodup ∧ ∀ i ∈ p.piecePlanesRotate, i < 28 * 81) := by
  refine ⟨fun h => by unfold piecePlanesRotate; rw [h], fun h => ?_⟩
  have e : p.piecePlanesRotate =
      p.planeCells .white 0 (fun s => 80 - s.val) ++ p.planeCells .black (14 * 81) (fun s => 80 - s.val) := by
    unfold piecePlanesRotate; rw [h]
  have hopp : ∀ s : Square, Pos.opposite (Pos.opposite s) = s := by
    intro s
    have := s.isLt
    apply Fin.ext
    simp only [Pos.opposite]
    omega
  have hm : ∀ i, i ∈ p.piecePlanesRotate ↔
      ∃ s c k, (absPos p).rotate.board s = some (c, k) ∧ i = planeCell c k s := by
    intro i
    rw [e, List.mem_append, mem_planeCells hp, mem_planeCells hp]
    constructor
    · rintro (⟨s, k, h, rfl⟩ | ⟨s, k, h, rfl⟩)
      · refine ⟨Pos.opposite s, .black, k, ?_, rfl⟩
        show ((absPos p).board (Pos.opposite (Pos.opposite s))).map _ = _
        rw [hopp, h]; rfl
      · refine ⟨Pos.opposite s, .white, k, ?_, rfl⟩
        show ((absPos p).board (Pos.opposite (Pos.opposite s))).map _ = _
        rw [hopp, h]; rfl
    · rintro ⟨s, c, k, h, rfl⟩
      replace h : ((absPos p).board (Pos.opposite s)).map _ = _ := h
      rw [Option.map_eq_some_iff] at h
      obtain ⟨⟨c', k'⟩, h1, h2⟩ := h
      cases h2
      have := s.isLt
      have hs : 80 - (Pos.opposite s).val = s.val := by simp only [Pos.opposite]; omega
      cases c'
      · refine .inr ⟨Pos.opposite s, _, h1, ?_⟩
        rw [hs]; rfl
      · refine .inl ⟨Pos.opposite s, _, h1, ?_⟩
        rw [hs]; rfl
  refine ⟨hm, ?_, ?_⟩
  · have hinj : ∀ s t : Square, 80 - s.val = 80 - t.val → s = t := by
      intro s t h
      have := s.isLt
      have := t.isLt
      exact Fin.ext (by omega)
    rw [e, List.nodup_append']
    refine ⟨nodup_planeCells hp _ _ _ (fun s => by omega) hinj, nodup_planeCells hp _ _ _ (fun s => by omega) hinj, ?_⟩
    intro i hi hj
    obtain ⟨s, k, -, e⟩ := (mem_planeCells hp _ _ _ _).mp hi
    obtain ⟨t, k', -, e'⟩ := (mem_planeCells hp _ _ _ _).mp hj
    have h3 : k.code ≤ 14 := by cases k <;> decide
    omega
  · intro i hi
    obtain ⟨s, c, k, -, rfl⟩ := (hm i).mp hi
    have := s.isLt
    have : k.code ≤ 14 := by cases k <;> decide
    cases c <;> simp only [planeCell] <;> omega

/-- `evModel` has White to move; its king on 1a is shown on 9i of Black's king plane. -/
example : Consistent evModel ∧ evModel.turn = .white ∧ 81 * 7 + 80 ∈ evModel.piecePlanesRotate ∧ (startModel zeroKeys).piecePlanes.length = 40 :=
  ⟨evModel_spec.1.views, rfl, by decide +kernel, by decide +kernel⟩

end Verif
