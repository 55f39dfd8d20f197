import Verif.Model.Planes
import Verif.Spec.Planes
import Verif.Props.Features

/-!
# C63, C64: the input features of dlshogi

The first array has 31 planes for the side to move and 31 for the opponent. The second has 28 planes for pieces in hand of the side to
move, 28 of the opponent, one that tells whether the side to move is in check, and, if asked for, 31 planes for each side about the
entering-king declaration.
-/

namespace Verif
open Spec Position Bitboard

/-! ### Lemmas -/

theorem relColor_side (p : Position) (c : Color) : (p.relColor c).idx = (absPos p).side c := by
  unfold relColor Pos.side
  rw [show (absPos p).turn = p.turn from rfl]
  cases p.turn <;> cases c <;> rfl

theorem relSquare_seen (p : Position) (s : Square) : p.relSquare s = ((absPos p).seen s).val := by
  unfold relSquare Pos.seen
  rw [show (absPos p).turn = p.turn from rfl]
  cases p.turn <;> rfl

theorem seen_seen (q : Pos) (s : Square) : q.seen (q.seen s) = s := by
  unfold Pos.seen
  cases q.turn
  · rfl
  · have := s.isLt
    apply Fin.ext
    simp only [Pos.opposite]
    omega

theorem seen_inj {q : Pos} {s t : Square} (h : (q.seen s).val = (q.seen t).val) : s = t := by
  rw [← seen_seen q s, ← seen_seen q t, Fin.ext h]

theorem side_inj {q : Pos} {c d : Color} (h : q.side c = q.side d) : c = d := by
  unfold Pos.side at h
  revert h
  cases q.turn <;> cases c <;> cases d <;> decide

theorem side_lt (q : Pos) (c : Color) : q.side c < 2 := by unfold Pos.side; split <;> decide

theorem cell1_eq (p : Position) (c : Color) (j : Nat) (s : Square) :
    p.cell1 c j s = ((absPos p).side c * 31 + j) * 81 + ((absPos p).seen s).val := by
  unfold cell1
  rw [relColor_side, relSquare_seen]
  rfl

theorem cell1_inj {p : Position} {c c' : Color} {j j' : Nat} {s s' : Square} (hj : j < 31) (hj' : j' < 31)
    (h : p.cell1 c j s = p.cell1 c' j' s') : c = c' ∧ j = j' ∧ s = s' := by
  rw [cell1_eq, cell1_eq] at h
  have h1 := ((absPos p).seen s).isLt
  have h2 := ((absPos p).seen s').isLt
  have h3 := side_lt (absPos p) c
  have h4 := side_lt (absPos p) c'
  have e1 : ((absPos p).seen s).val = ((absPos p).seen s').val := by omega
  have e2 : (absPos p).side c = (absPos p).side c' := by omega
  exact ⟨side_inj e2, by omega, seen_inj e1⟩

theorem kind_code (k : Kind) : 1 ≤ k.code ∧ k.code ≤ 14 := by cases k <;> decide

theorem kindPlanes_get (k : Kind) : kindPlanes[k.code - 1]? = some k := by cases k <;> rfl

theorem kindPlanes_code {i : Nat} {k : Kind} (h : kindPlanes[i]? = some k) : i = k.code - 1 := by
  have hi : i < 14 := by
    by_contra hge
    rw [List.getElem?_eq_none (by show (14 : Nat) ≤ i; omega)] at h
    cases h
  interval_cases i <;> cases h <;> rfl

theorem ofCode {i : Nat} (hi : i < 14) : ∃ k : Kind, i + 1 = k.code := by
  interval_cases i
  · exact ⟨.pawn, rfl⟩
  · exact ⟨.lance, rfl⟩
  · exact ⟨.knight, rfl⟩
  · exact ⟨.silver, rfl⟩
  · exact ⟨.bishop, rfl⟩
  · exact ⟨.rook, rfl⟩
  · exact ⟨.gold, rfl⟩
  · exact ⟨.king, rfl⟩
  · exact ⟨.proPawn, rfl⟩
  · exact ⟨.proLance, rfl⟩
  · exact ⟨.proKnight, rfl⟩
  · exact ⟨.proSilver, rfl⟩
  · exact ⟨.horse, rfl⟩
  · exact ⟨.dragon, rfl⟩

theorem isSet_fold_or {α : Type} (l : List α) (P : α → Prop) [DecidablePred P] (f : α → Bitboard) (b : Bitboard) (t : Square) :
    (l.foldl (fun acc s => if P s then acc ||| f s else acc) b).isSet t = true ↔
      b.isSet t = true ∨ ∃ s ∈ l, P s ∧ (f s).isSet t = true := by
  induction l generalizing b with
  | nil => simp
  | cons a l ih =>
    rw [List.foldl_cons, ih]
    by_cases hP : P a
    · rw [if_pos hP, isSet_or, Bool.or_eq_true]
      constructor
      · rintro ((h | h) | ⟨s, h1, h2⟩)
        · exact .inl h
        · exact .inr ⟨a, List.mem_cons_self, hP, h⟩
        · exact .inr ⟨s, List.mem_cons_of_mem _ h1, h2⟩
      · rintro (h | ⟨s, h1, h2⟩)
        · exact .inl (.inl h)
        · rcases List.mem_cons.mp h1 with rfl | h1
          · exact .inl (.inr h2.2)
          · exact .inr ⟨s, h1, h2⟩
    · rw [if_neg hP]
      constructor
      · rintro (h | ⟨s, h1, h2⟩)
        · exact .inl h
        · exact .inr ⟨s, List.mem_cons_of_mem _ h1, h2⟩
      · rintro (h | ⟨s, h1, h2⟩)
        · exact .inl h
        · rcases List.mem_cons.mp h1 with rfl | h1
          · exact absurd h2.1 hP
          · exact .inr ⟨s, h1, h2⟩

theorem isSet_attackMap {p : Position} (hp : Consistent p) (c : Color) (k : Kind) (t : Square) :
    (p.attackMap c k.code).isSet t = true ↔ ∃ s, (absPos p).board s = some (c, k) ∧ Attacks c k (absPos p).occ s t := by
  unfold attackMap
  rw [isSet_fold_or]
  constructor
  · rintro (h | ⟨s, -, ⟨-, h2, h3⟩, h4⟩)
    · rw [isSet_zero] at h; cases h
    · have hb : (absPos p).board s = some (c, k) := by
        show decodePiece (p.piece s) = _
        unfold decodePiece
        rw [h3, h2]
        cases k <;> rfl
      rw [h2, h3, isSet_attacksFrom, hp.occ_fun] at h4
      exact ⟨s, hb, h4⟩
  · rintro ⟨s, hb, ha⟩
    have e : p.piece s = mkPiece c k.code := by rw [hp.code, hb]; rfl
    refine .inr ⟨s, List.mem_finRange s, ⟨?_, ?_, pieceType_at hp hb⟩, ?_⟩
    · rw [e]; cases c <;> cases k <;> decide
    · rw [e]; cases c <;> cases k <;> rfl
    · rw [pieceType_at hp hb, show pieceColor (p.piece s) = c by rw [e]; cases c <;> cases k <;> rfl, isSet_attacksFrom, hp.occ_fun]
      exact ha

open Classical in
theorem attackers_count {p : Position} (hp : Consistent p) (c : Color) (s : Square) :
    (p.attackersTo c s p.occupied).popCount = (absPos p).attackerCount c s := by
  rw [popCount_countP (wf_attackersTo hp c s _)]
  unfold Pos.attackerCount
  congr 1
  funext t
  rw [Bool.eq_iff_iff, isSet_attackersTo hp, decide_eq_true_iff, hp.occ_fun]
  rfl

/-- What the first array shows. -/
def Shows1 (q : Pos) (c : Color) (j : Nat) (s : Square) : Prop :=
  (∃ k, kindPlanes[j]? = some k ∧ q.board s = some (c, k)) ∨
  (14 ≤ j ∧ ∃ k, kindPlanes[j - 14]? = some k ∧ ∃ t, q.board t = some (c, k) ∧ Attacks c k q.occ t s) ∨
  (28 ≤ j ∧ j < 31 ∧ j - 28 < q.attackerCount c s)

theorem mem_ones1 {p : Position} (hp : Consistent p) (c : Color) (i : Nat) :
    i ∈ p.ones1 c ↔ ∃ s j, j < 31 ∧ i = p.cell1 c j s ∧ Shows1 (absPos p) c j s := by
  have hb : ∀ (k : Kind) (s : Square), (p.bbOf k.code c).isSet s = true ↔ (absPos p).board s = some (c, k) := by
    intro k s
    have hw : (p.bbOf k.code c).WF := (hp.wfType _).and_left
    rw [← hw.mem_toList, mem_bbOf hp]
  unfold ones1
  simp only [List.mem_flatMap, List.mem_append, List.mem_map, List.mem_range, List.mem_finRange, true_and]
  constructor
  · rintro ⟨s, ⟨j, hj, h | h⟩ | ⟨j, hj, rfl⟩⟩
    · obtain ⟨k, hk⟩ := ofCode hj
      split at h
      · next hs =>
        rw [hk, hb] at hs
        refine ⟨s, j, by omega, List.mem_singleton.mp h, .inl ⟨k, ?_, hs⟩⟩
        rw [show j = k.code - 1 by omega]; exact kindPlanes_get k
      · cases h
    · obtain ⟨k, hk⟩ := ofCode hj
      split at h
      · next hs =>
        rw [hk, isSet_attackMap hp] at hs
        refine ⟨s, 14 + j, by omega, List.mem_singleton.mp h, .inr (.inl ⟨by omega, k, ?_, hs⟩)⟩
        rw [show 14 + j - 14 = k.code - 1 by omega]; exact kindPlanes_get k
      · cases h
    · rw [attackers_count hp] at hj
      exact ⟨s, 14 + 14 + j, by omega, rfl, .inr (.inr ⟨by omega, by omega, by omega⟩)⟩
  · rintro ⟨s, j, hj, rfl, ⟨k, hk, h⟩ | ⟨h14, k, hk, h⟩ | ⟨h28, h31, h⟩⟩
    · have e := kindPlanes_code hk
      have hc := kind_code k
      refine ⟨s, .inl ⟨j, by omega, .inl ?_⟩⟩
      rw [show j + 1 = k.code by omega, if_pos ((hb k s).mpr h)]
      exact List.mem_singleton.mpr rfl
    · have e := kindPlanes_code hk
      have hc := kind_code k
      refine ⟨s, .inl ⟨j - 14, by omega, .inr ?_⟩⟩
      rw [show j - 14 + 1 = k.code by omega, if_pos ((isSet_attackMap hp c k s).mpr h), show 14 + (j - 14) = j by omega]
      exact List.mem_singleton.mpr rfl
    · refine ⟨s, .inr ⟨j - 28, ?_, ?_⟩⟩
      · rw [attackers_count hp]; omega
      · rw [show 14 + 14 + (j - 28) = j by omega]

theorem cell1_lt (p : Position) (c : Color) {j : Nat} (hj : j < 31) (s : Square) : p.cell1 c j s < 62 * 81 := by
  rw [cell1_eq]
  have := ((absPos p).seen s).isLt
  have := side_lt (absPos p) c
  omega

/-- A cell of the first array. -/
theorem ones1_cell {p : Position} (hp : Consistent p) (c : Color) {j : Nat} (hj : j < 31) (s : Square) :
    p.cell1 c j s ∈ p.ones1 .black ++ p.ones1 .white ↔ Shows1 (absPos p) c j s := by
  rw [List.mem_append, mem_ones1 hp, mem_ones1 hp]
  constructor
  · rintro (⟨s', j', hj', e, h⟩ | ⟨s', j', hj', e, h⟩)
    · obtain ⟨rfl, rfl, rfl⟩ := cell1_inj hj hj' e; exact h
    · obtain ⟨rfl, rfl, rfl⟩ := cell1_inj hj hj' e; exact h
  · intro h
    cases c
    · exact .inl ⟨s, j, hj, rfl, h⟩
    · exact .inr ⟨s, j, hj, rfl, h⟩

open Classical in
theorem features1_cell {p : Position} (hp : Consistent p) (use : Bool) (m1 m2 : Floats) (c : Color) {j : Nat} (hj : j < 31) (s : Square) :
    (dlshogiFeatures use p m1 m2).1 ((((absPos p).side c) * 31 + j) * 81 + ((absPos p).seen s).val) =
      if Shows1 (absPos p) c j s then 1 else 0 := by
  rw [← cell1_eq]
  unfold dlshogiFeatures paint
  simp only [ones1_cell hp c hj]
  split
  · rfl
  · rw [if_pos]; exact cell1_lt p c hj s

/-! ### C63, first array -/

open Classical in
/-- **C63**, first array: planes 0-13 of a side show where its pieces of each kind are, planes 14-27 which squares its pieces of that
kind attack, planes 28-30 whether a square is attacked at least once, twice, three times. Every cell is 0 or 1, whatever was there
before, and cells beyond the array are left alone. -/
theorem C63_features1 (p : Position) (hp : Consistent p) (use : Bool) (m1 m2 : Floats) :
    (∀ c i k s, kindPlanes[i]? = some k →
      (dlshogiFeatures use p m1 m2).1 (((absPos p).side c * 31 + i) * 81 + ((absPos p).seen s).val) =
        (if (absPos p).board s = some (c, k) then 1 else 0) ∧
      (dlshogiFeatures use p m1 m2).1 (((absPos p).side c * 31 + 14 + i) * 81 + ((absPos p).seen s).val) =
        (if ∃ t, (absPos p).board t = some (c, k) ∧ Attacks c k (absPos p).occ t s then 1 else 0)) ∧
    (∀ c i s, i < 3 →
      (dlshogiFeatures use p m1 m2).1 (((absPos p).side c * 31 + 28 + i) * 81 + ((absPos p).seen s).val) =
        if i < (absPos p).attackerCount c s then 1 else 0) ∧
    ∀ i, features1Num * 81 ≤ i → (dlshogiFeatures use p m1 m2).1 i = m1 i := by
  refine ⟨fun c i k s hk => ?_, fun c i s hi => ?_, fun i hi => ?_⟩
  · have e := kindPlanes_code hk
    have hc := kind_code k
    have hi : i < 14 := by omega
    have hget : ∀ k', kindPlanes[i]? = some k' → k' = k := fun k' h => Option.some.inj (h.symm.trans hk)
    constructor
    · rw [features1_cell hp use m1 m2 c (by omega) s]
      have : Shows1 (absPos p) c i s ↔ (absPos p).board s = some (c, k) := by
        constructor
        · rintro (⟨k', h1, h2⟩ | ⟨h, -⟩ | ⟨h, -⟩)
          · rw [← hget k' h1]; exact h2
          · omega
          · omega
        · exact fun h => .inl ⟨k, hk, h⟩
      simp only [this]
    · rw [show (absPos p).side c * 31 + 14 + i = (absPos p).side c * 31 + (14 + i) by omega,
        features1_cell hp use m1 m2 c (by omega) s]
      have : Shows1 (absPos p) c (14 + i) s ↔ ∃ t, (absPos p).board t = some (c, k) ∧ Attacks c k (absPos p).occ t s := by
        constructor
        · rintro (⟨k', h1, -⟩ | ⟨-, k', h1, h2⟩ | ⟨h, -⟩)
          · have := kindPlanes_code h1
            have := kind_code k'
            omega
          · rw [show 14 + i - 14 = i by omega] at h1
            rw [← hget k' h1]; exact h2
          · omega
        · exact fun h => .inr (.inl ⟨by omega, k, by rw [show 14 + i - 14 = i by omega]; exact hk, h⟩)
      simp only [this]
  · rw [show (absPos p).side c * 31 + 28 + i = (absPos p).side c * 31 + (28 + i) by omega,
      features1_cell hp use m1 m2 c (by omega) s]
    have : Shows1 (absPos p) c (28 + i) s ↔ i < (absPos p).attackerCount c s := by
      constructor
      · rintro (⟨k', h1, -⟩ | ⟨-, k', h1, -⟩ | ⟨-, -, h⟩)
        · have := kindPlanes_code h1
          have := kind_code k'
          omega
        · have := kindPlanes_code h1
          have := kind_code k'
          omega
        · rwa [show 28 + i - 28 = i by omega] at h
      · exact fun h => .inr (.inr ⟨by omega, by omega, by rwa [show 28 + i - 28 = i by omega]⟩)
    simp only [this]
  · have hi : 62 * 81 ≤ i := hi
    have hn : i ∉ p.ones1 .black ++ p.ones1 .white := by
      intro h
      have h : ∃ c, i ∈ p.ones1 c := by
        rcases List.mem_append.mp h with h | h
        · exact ⟨_, h⟩
        · exact ⟨_, h⟩
      obtain ⟨c, h⟩ := h
      obtain ⟨s, j, hj, rfl, -⟩ := (mem_ones1 hp c i).mp h
      have := cell1_lt p c hj s
      omega
    show paint _ _ m1 i = m1 i
    unfold paint
    rw [if_neg hn, if_neg]
    show ¬ i < 2 * 31 * 81
    omega

/-- Those are all the cells of the first array. -/
theorem C63_cells1 (q : Pos) (i : Nat) (hi : i < features1Num * 81) :
    ∃ c j s, j < 31 ∧ i = (q.side c * 31 + j) * 81 + (q.seen s).val := by
  have hi : i < 62 * 81 := hi
  have hc : ∃ c, q.side c = i / (31 * 81) := by
    have : i / (31 * 81) < 2 := by omega
    unfold Pos.side
    generalize i / (31 * 81) = n at *
    interval_cases n
    · exact ⟨q.turn, by simp⟩
    · exact ⟨q.turn.opp, by cases q.turn <;> rfl⟩
  obtain ⟨c, hc⟩ := hc
  refine ⟨c, i / 81 % 31, q.seen ⟨i % 81, by omega⟩, by omega, ?_⟩
  rw [seen_seen, hc]
  show i = (i / (31 * 81) * 31 + i / 81 % 31) * 81 + i % 81
  omega

/-! ### C63, second array -/

theorem mem_fillPlanes (plane n i : Nat) : i ∈ fillPlanes plane n ↔ plane ≤ i / 81 ∧ i / 81 < plane + n := by
  unfold fillPlanes
  simp only [List.mem_map, List.mem_range]
  constructor
  · rintro ⟨a, ha, rfl⟩; omega
  · intro h; exact ⟨i - 81 * plane, by omega, by omega⟩

theorem hand_planes {p : Position} (hs : (absPos p).InSet) (c : Color) (h : HKind) (hne : h ≠ .pawn) :
    (p.hand c).numOf h.code ≤ h.planes := by
  have h1 := hs h
  have h2 : (absPos p).hand c h ≤ (absPos p).material h := by
    unfold Pos.material
    cases c <;> omega
  have h3 : (absPos p).hand c h = (p.hand c).numOf h.code := rfl
  have h4 : h ≠ .pawn → h.total = h.planes := by cases h <;> decide
  have := h4 hne
  omega

theorem mem_onesHand {p : Position} (hs : (absPos p).InSet) (c : Color) (i : Nat) :
    i ∈ p.onesHand c ↔ ∃ (h : HKind) (j : Nat), j < h.planes ∧ j < (absPos p).hand c h ∧ i / 81 = (absPos p).side c * 28 + h.firstPlane + j := by
  have hb := relColor_side p c
  have b1 := hand_planes hs c .lance (by decide)
  have b2 := hand_planes hs c .knight (by decide)
  have b3 := hand_planes hs c .silver (by decide)
  have b4 := hand_planes hs c .gold (by decide)
  have b5 := hand_planes hs c .bishop (by decide)
  have b6 := hand_planes hs c .rook (by decide)
  simp only [HKind.code, HKind.planes] at b1 b2 b3 b4 b5 b6
  unfold onesHand
  simp only [List.mem_append, mem_fillPlanes, hb]
  rw [show maxHandSum = 28 from rfl]
  constructor
  · rintro ((((((h | h) | h) | h) | h) | h) | h)
    · exact ⟨.pawn, i / 81 - (absPos p).side c * 28, show _ < 8 by omega, show _ < (p.hand c).numOf 0 by omega, show _ = _ + 0 + _ by omega⟩
    · exact ⟨.lance, i / 81 - ((absPos p).side c * 28 + 8), show _ < 4 by omega, show _ < (p.hand c).numOf 1 by omega, show _ = _ + 8 + _ by omega⟩
    · exact ⟨.knight, i / 81 - ((absPos p).side c * 28 + 12), show _ < 4 by omega, show _ < (p.hand c).numOf 2 by omega, show _ = _ + 12 + _ by omega⟩
    · exact ⟨.silver, i / 81 - ((absPos p).side c * 28 + 16), show _ < 4 by omega, show _ < (p.hand c).numOf 3 by omega, show _ = _ + 16 + _ by omega⟩
    · exact ⟨.gold, i / 81 - ((absPos p).side c * 28 + 20), show _ < 4 by omega, show _ < (p.hand c).numOf 4 by omega, show _ = _ + 20 + _ by omega⟩
    · exact ⟨.bishop, i / 81 - ((absPos p).side c * 28 + 24), show _ < 2 by omega, show _ < (p.hand c).numOf 5 by omega, show _ = _ + 24 + _ by omega⟩
    · exact ⟨.rook, i / 81 - ((absPos p).side c * 28 + 26), show _ < 2 by omega, show _ < (p.hand c).numOf 6 by omega, show _ = _ + 26 + _ by omega⟩
  · rintro ⟨h, j, h1, h2, h3⟩
    cases h
    · replace h2 : j < (p.hand c).numOf 0 := h2
      simp only [HKind.planes, HKind.firstPlane] at h1 h3
      exact .inl (.inl (.inl (.inl (.inl (.inl (by omega))))))
    · replace h2 : j < (p.hand c).numOf 1 := h2
      simp only [HKind.planes, HKind.firstPlane] at h1 h3
      exact .inl (.inl (.inl (.inl (.inl (.inr (by omega))))))
    · replace h2 : j < (p.hand c).numOf 2 := h2
      simp only [HKind.planes, HKind.firstPlane] at h1 h3
      exact .inl (.inl (.inl (.inl (.inr (by omega)))))
    · replace h2 : j < (p.hand c).numOf 3 := h2
      simp only [HKind.planes, HKind.firstPlane] at h1 h3
      exact .inl (.inl (.inl (.inr (by omega))))
    · replace h2 : j < (p.hand c).numOf 4 := h2
      simp only [HKind.planes, HKind.firstPlane] at h1 h3
      exact .inl (.inl (.inr (by omega)))
    · replace h2 : j < (p.hand c).numOf 5 := h2
      simp only [HKind.planes, HKind.firstPlane] at h1 h3
      exact .inl (.inr (by omega))
    · replace h2 : j < (p.hand c).numOf 6 := h2
      simp only [HKind.planes, HKind.firstPlane] at h1 h3
      exact .inr (by omega)

theorem asU32_lt {x : Int} {n : Nat} (hx : -4294967000 ≤ x ∧ x < 4294967296) (hn : n ≤ 100) : asU32 x < n ↔ 0 ≤ x ∧ x < n := by
  unfold asU32
  omega

theorem king_in {p : Position} (hp : Consistent p) (c : Color) :
    (p.bbOf PT.King c).andIsAny (campField c) = true ↔ (absPos p).KingIn c := by
  rw [andIsAny_iff (.inr (wf_camp _))]
  refine exists_congr fun s => ?_
  rw [isSet_camp, decide_eq_true_iff]
  refine and_congr ?_ Iff.rfl
  have h := mem_bbOf hp .king c s
  have hw : (p.bbOf Kind.king.code c).WF := (hp.wfType _).and_left
  rw [hw.mem_toList] at h
  exact h

theorem own_count_out {p : Position} (hp : Consistent p) {c : Color} (hk : ¬ (absPos p).KingIn c) :
    (p.byColor c &&& campField c).popCount = (absPos p).campCount c := by
  rw [popCount_countP (hp.wfColor c).and_left]
  unfold Pos.campCount
  congr 1
  funext s
  have hcol : (p.byColor c).isSet s = ((absPos p).board s).elim false (fun x => decide (x.1 = c)) := by
    rw [Bool.eq_iff_iff, hp.color]
    rcases (absPos p).board s with _ | ⟨c', k'⟩
    · simp
    · simp only [Option.some.injEq, Prod.mk.injEq, Option.elim, decide_eq_true_eq]
      exact ⟨fun ⟨_, h, _⟩ => h, fun h => ⟨k', h, rfl⟩⟩
  rw [isSet_and, isSet_camp, hcol]
  unfold Pos.camped
  rcases hb : (absPos p).board s with _ | ⟨c', k'⟩
  · simp
  · by_cases hc : c' = c
    · by_cases hz : zone c s
      · have : k' ≠ .king := by
          rintro rfl
          exact hk ⟨s, by rw [hb, hc], hz⟩
        simp [hc, hz, this]
      · simp [hz]
    · simp [hc]

theorem count_bound (q : Pos) (c : Color) : q.campCount c ≤ 81 := by
  unfold Pos.campCount
  exact (List.countP_le_length).trans (by simp)

theorem points_eq (p : Position) (c : Color) : (absPos p).points c = (absPos p).campCount c +
    4 * (List.finRange 81).countP (bigCamped (absPos p) c) +
    ((p.hand c).numOf 0 + (p.hand c).numOf 1 + (p.hand c).numOf 2 + (p.hand c).numOf 3
      + (p.hand c).numOf 4 + 5 * (p.hand c).numOf 5 + 5 * (p.hand c).numOf 6) := by
  unfold Pos.points
  rw [camp_points]
  simp only [hkinds, List.map_cons, List.map_nil, List.sum_cons, List.sum_nil, HKind.points, absPos, HKind.code]
  omega

theorem numOf_lt (h : Hand) (hp : HandPiece) : h.numOf hp < 4294967296 := by
  unfold Hand.numOf
  exact BitVec.isLt _

/-- What the declaration planes of a side show: plane 0 the king, planes 1-10 the number of pieces, planes 11-30 the points. -/
theorem mem_onesNyugyoku {p : Position} (hp : Consistent p) (hs : (absPos p).InSet) (c : Color) (i : Nat) :
    i ∈ p.onesNyugyoku c ↔ ∃ j, i / 81 = 57 + (absPos p).side c * 31 + j ∧
      (j = 0 ∧ (absPos p).KingIn c ∨
       (absPos p).campCount c ≤ 10 ∧ 1 ≤ (absPos p).campCount c ∧ j = 1 + (10 - (absPos p).campCount c) ∨
       (absPos p).points c ≤ Pos.needed c ∧ (absPos p).missing c < 20 ∧ j = 11 + (absPos p).missing c) := by
  have hb := relColor_side p c
  have hking := king_in hp c
  have e2 := big_count hp c
  have e4 := big_le (absPos p) c
  have e5 := points_eq p c
  have hc := count_bound (absPos p) c
  have hn : ((Pos.needed c : Nat) : Int) = pointsNeeded c := by cases c <;> rfl
  have hn2 : Pos.needed c ≤ 28 := by cases c <;> decide
  have b0 : (p.hand c).numOf 0 ≤ 18 := by
    have h1 := hs .pawn
    have h3 : (absPos p).hand c .pawn = (p.hand c).numOf 0 := rfl
    unfold Pos.material at h1
    rw [show HKind.pawn.total = 18 from rfl] at h1
    cases c <;> omega
  have b1 := hand_planes hs c .lance (by decide)
  have b2 := hand_planes hs c .knight (by decide)
  have b3 := hand_planes hs c .silver (by decide)
  have b4 := hand_planes hs c .gold (by decide)
  have b5 := hand_planes hs c .bishop (by decide)
  have b6 := hand_planes hs c .rook (by decide)
  simp only [HKind.code, HKind.planes] at b1 b2 b3 b4 b5 b6
  have hown : (((p.byColor c &&& campField c).popCount : Nat) : Int) -
      (if (p.bbOf PT.King c).andIsAny (campField c) = true then 1 else 0) = ((absPos p).campCount c : Nat) := by
    by_cases hk : (absPos p).KingIn c
    · obtain ⟨k, hk1, hk2⟩ := id hk
      rw [if_pos (hking.mpr hk), own_count hp hk1 hk2]; omega
    · rw [if_neg (fun h => hk (hking.mp h)), own_count_out hp hk]; omega
  unfold onesNyugyoku
  dsimp only
  rw [hown, e2, hb, ← hn]
  unfold Pos.missing
  revert e4 e5 hc hn2
  generalize (absPos p).campCount c = a
  generalize (List.finRange 81).countP (bigCamped (absPos p) c) = b
  generalize (absPos p).points c = P
  generalize Pos.needed c = N
  generalize (absPos p).side c = sd
  intro hc e4 e5 hn2
  rw [show maxFeatures2Hand = 56 from rfl, show maxNyugyoku = 31 from rfl]
  have hv : (a : Int) - b + ((p.hand c).numOf 0 : Nat) + ((p.hand c).numOf 1 : Nat) + ((p.hand c).numOf 2 : Nat) + ((p.hand c).numOf 3 : Nat)
      + ((p.hand c).numOf 4 : Nat) + (b + ((p.hand c).numOf 5 : Nat) + ((p.hand c).numOf 6 : Nat)) * 5 = (P : Nat) := by omega
  rw [hv]
  have hP : P ≤ 1000 := by omega
  have u1 : asU32 (10 - (a : Int)) < 10 ↔ a ≤ 10 ∧ 1 ≤ a := by rw [asU32_lt (by omega) (by omega)]; omega
  have u2 : asU32 ((N : Int) - P) < 20 ↔ P ≤ N ∧ N - P < 20 := by rw [asU32_lt (by omega) (by omega)]; omega
  clear hown hv b0 b1 b2 b3 b4 b5 b6 e2 e5
  rw [List.mem_append, List.mem_append]
  constructor
  · rintro ((h | h) | h)
    · split at h
      · next hk =>
        rw [mem_fillPlanes] at h
        exact ⟨0, by omega, .inl ⟨rfl, hking.mp hk⟩⟩
      · cases h
    · split at h
      · next h' =>
        have := u1.mp h'
        rw [mem_fillPlanes] at h
        exact ⟨1 + (10 - a), by omega, .inr (.inl ⟨by omega, by omega, rfl⟩)⟩
      · cases h
    · split at h
      · next h' =>
        have := u2.mp h'
        rw [mem_fillPlanes] at h
        exact ⟨11 + (N - P), by omega, .inr (.inr ⟨by omega, by omega, rfl⟩)⟩
      · cases h
  · rintro ⟨j, hj, ⟨h0, hk⟩ | ⟨h1, h2, h3⟩ | ⟨h1, h2, h3⟩⟩
    · refine .inl (.inl ?_)
      rw [if_pos (hking.mpr hk), mem_fillPlanes]; omega
    · refine .inl (.inr ?_)
      rw [if_pos (u1.mpr ⟨h1, h2⟩), mem_fillPlanes]; omega
    · refine .inr ?_
      rw [if_pos (u2.mpr ⟨h1, h2⟩), mem_fillPlanes]; omega

theorem mem_ones2 (p : Position) (use : Bool) (i : Nat) :
    i ∈ p.ones2 use ↔ (∃ c, i ∈ p.onesHand c) ∨ (use = true ∧ ∃ c, i ∈ p.onesNyugyoku c) ∨ (p.inCheck = true ∧ i / 81 = 56) := by
  have hck : i ∈ (if p.inCheck then fillPlanes maxFeatures2Hand 1 else []) ↔ p.inCheck = true ∧ i / 81 = 56 := by
    split
    · next h =>
      rw [mem_fillPlanes, show maxFeatures2Hand = 56 from rfl]
      constructor
      · intro h'; exact ⟨h, by omega⟩
      · rintro ⟨-, h'⟩; omega
    · next h => simp [h]
  have hny : ∀ c, i ∈ (if use then p.onesNyugyoku c else []) ↔ use = true ∧ i ∈ p.onesNyugyoku c := by
    intro c; cases use <;> simp
  unfold ones2
  rw [List.mem_append, List.mem_append, List.mem_append, List.mem_append, hck, hny, hny]
  constructor
  · rintro ((((h | ⟨h, h'⟩) | h) | ⟨h, h'⟩) | h)
    · exact .inl ⟨_, h⟩
    · exact .inr (.inl ⟨h, _, h'⟩)
    · exact .inl ⟨_, h⟩
    · exact .inr (.inl ⟨h, _, h'⟩)
    · exact .inr (.inr h)
  · rintro (⟨c, h⟩ | ⟨h, c, h'⟩ | h)
    · cases c
      · exact .inl (.inl (.inl (.inl h)))
      · exact .inl (.inl (.inr h))
    · cases c
      · exact .inl (.inl (.inl (.inr ⟨h, h'⟩)))
      · exact .inl (.inr ⟨h, h'⟩)
    · exact .inr h

theorem hkind_planes_inj {h h' : HKind} {j j' : Nat} (hj : j < h.planes) (hj' : j' < h'.planes) (he : h.firstPlane + j = h'.firstPlane + j') :
    h = h' ∧ j = j' := by
  cases h <;> cases h' <;> simp only [HKind.planes, HKind.firstPlane] at hj hj' he <;> first | exact ⟨rfl, by omega⟩ | omega

theorem hkind_planes_lt (h : HKind) {j : Nat} (hj : j < h.planes) : h.firstPlane + j < 28 := by
  cases h <;> simp only [HKind.planes, HKind.firstPlane] at hj ⊢ <;> omega

theorem features2_apply (use : Bool) (p : Position) (m1 m2 : Floats) (i : Nat) :
    (dlshogiFeatures use p m1 m2).2 i = if i ∈ p.ones2 use then 1 else if i < 57 * 81 then 0 else m2 i := by
  have e : maxFeatures2 * 81 = 57 * 81 := by decide
  unfold dlshogiFeatures paint
  simp only [e]

open Classical in
/-- **C63**, second array: for each side and kind, plane `j` (of 8, 4, 4, 4, 4, 2 and 2 planes) is 1 all over if the side holds more
than `j` pieces of the kind, and 0 otherwise; the last plane is 1 all over if the side to move is in check, and 0 otherwise. Cells
beyond the array are left alone. -/
theorem C63_features2 (p : Position) (hp : Consistent p) (hc : CheckOK p) (hs : (absPos p).InSet) (use : Bool) (m1 m2 : Floats) :
    (∀ c h j t, j < h.planes → t < 81 →
      (dlshogiFeatures use p m1 m2).2 (((absPos p).side c * 28 + h.firstPlane + j) * 81 + t) = if j < (absPos p).hand c h then 1 else 0) ∧
    (∀ t, t < 81 → (dlshogiFeatures use p m1 m2).2 (56 * 81 + t) = if (absPos p).InCheck (absPos p).turn then 1 else 0) ∧
    ∀ i, features2Num use * 81 ≤ i → (dlshogiFeatures use p m1 m2).2 i = m2 i := by
  have hny : ∀ c i, i ∈ p.onesNyugyoku c → 57 ≤ i / 81 ∧ i / 81 < 119 := by
    intro c i h
    obtain ⟨j, hj, h⟩ := (mem_onesNyugyoku hp hs c i).mp h
    have := side_lt (absPos p) c
    omega
  have hha : ∀ c i, i ∈ p.onesHand c → i / 81 < 56 := by
    intro c i h
    obtain ⟨h, j, h1, h2, h3⟩ := (mem_onesHand hs c i).mp h
    have := hkind_planes_lt h h1
    have := side_lt (absPos p) c
    omega
  refine ⟨fun c h j t hj ht => ?_, fun t ht => ?_, fun i hi => ?_⟩
  · have hlt := hkind_planes_lt h hj
    have hsd := side_lt (absPos p) c
    have hdiv : (((absPos p).side c * 28 + h.firstPlane + j) * 81 + t) / 81 = (absPos p).side c * 28 + h.firstPlane + j := by omega
    have hmem : ((absPos p).side c * 28 + h.firstPlane + j) * 81 + t ∈ p.ones2 use ↔ j < (absPos p).hand c h := by
      rw [mem_ones2]
      constructor
      · rintro (⟨c', h'⟩ | ⟨-, c', h'⟩ | ⟨-, h'⟩)
        · obtain ⟨h'', j', h1, h2, h3⟩ := (mem_onesHand hs c' _).mp h'
          rw [hdiv] at h3
          have hlt' := hkind_planes_lt h'' h1
          have hsd' := side_lt (absPos p) c'
          have e1 : (absPos p).side c = (absPos p).side c' := by omega
          have e1' := side_inj e1
          subst e1'
          obtain ⟨rfl, rfl⟩ := hkind_planes_inj hj h1 (by omega)
          exact h2
        · have := hny c' _ h'; omega
        · omega
      · intro h'
        exact .inl ⟨c, (mem_onesHand hs c _).mpr ⟨h, j, hj, h', hdiv⟩⟩
    rw [features2_apply, if_pos (show _ < 57 * 81 by omega)]
    exact if_congr hmem rfl rfl
  · have hmem : 56 * 81 + t ∈ p.ones2 use ↔ (absPos p).InCheck (absPos p).turn := by
      rw [mem_ones2, show (absPos p).turn = p.turn from rfl, ← hc.inCheck]
      constructor
      · rintro (⟨c', h'⟩ | ⟨-, c', h'⟩ | ⟨h', -⟩)
        · have := hha c' _ h'; omega
        · have := hny c' _ h'; omega
        · exact h'
      · intro h'
        exact .inr (.inr ⟨h', by omega⟩)
    rw [features2_apply, if_pos (show _ < 57 * 81 by omega)]
    exact if_congr hmem rfl rfl
  · have hn : i ∉ p.ones2 use := by
      rw [mem_ones2]
      rintro (⟨c', h'⟩ | ⟨hu, c', h'⟩ | ⟨-, h'⟩)
      · have := hha c' _ h'
        have : 57 * 81 ≤ i := by cases use <;> simp [features2Num, maxFeatures2, maxFeatures2Hand, maxHandSum, maxNyugyoku] at hi <;> omega
        omega
      · have := hny c' _ h'
        subst hu
        have : 119 * 81 ≤ i := hi
        omega
      · have : 57 * 81 ≤ i := by cases use <;> simp [features2Num, maxFeatures2, maxFeatures2Hand, maxHandSum, maxNyugyoku] at hi <;> omega
        omega
    rw [features2_apply, if_neg hn, if_neg]
    cases use <;> simp [features2Num, maxFeatures2, maxFeatures2Hand, maxHandSum, maxNyugyoku] at hi <;> omega

/-! ### C64 -/

theorem declaration_cell {p : Position} (hp : Consistent p) (hs : (absPos p).InSet) (m1 m2 : Floats) (c : Color) {j t : Nat} (hj : j < 31)
    (ht : t < 81) :
    ((dlshogiFeatures true p m1 m2).2 ((57 + (absPos p).side c * 31 + j) * 81 + t) = 1 ∧
      (j = 0 ∧ (absPos p).KingIn c ∨
       (absPos p).campCount c ≤ 10 ∧ 1 ≤ (absPos p).campCount c ∧ j = 1 + (10 - (absPos p).campCount c) ∨
       (absPos p).points c ≤ Pos.needed c ∧ (absPos p).missing c < 20 ∧ j = 11 + (absPos p).missing c)) ∨
    ((dlshogiFeatures true p m1 m2).2 ((57 + (absPos p).side c * 31 + j) * 81 + t) = m2 ((57 + (absPos p).side c * 31 + j) * 81 + t) ∧
      ¬ (j = 0 ∧ (absPos p).KingIn c ∨
       (absPos p).campCount c ≤ 10 ∧ 1 ≤ (absPos p).campCount c ∧ j = 1 + (10 - (absPos p).campCount c) ∨
       (absPos p).points c ≤ Pos.needed c ∧ (absPos p).missing c < 20 ∧ j = 11 + (absPos p).missing c)) := by
  have hsd := side_lt (absPos p) c
  have hdiv : ((57 + (absPos p).side c * 31 + j) * 81 + t) / 81 = 57 + (absPos p).side c * 31 + j := by omega
  rw [features2_apply, if_neg (show ¬ (57 + (absPos p).side c * 31 + j) * 81 + t < 57 * 81 by omega)]
  by_cases hm : (57 + (absPos p).side c * 31 + j) * 81 + t ∈ p.ones2 true
  · refine .inl ⟨by rw [if_pos hm], ?_⟩
    rcases (mem_ones2 p true _).mp hm with ⟨c', h'⟩ | ⟨-, c', h'⟩ | ⟨-, h'⟩
    · obtain ⟨h, j', h1, h2, h3⟩ := (mem_onesHand hs c' _).mp h'
      have := hkind_planes_lt h h1
      have := side_lt (absPos p) c'
      omega
    · obtain ⟨j', h1, h2⟩ := (mem_onesNyugyoku hp hs c' _).mp h'
      rw [hdiv] at h1
      have hj' : j' < 31 := by omega
      have := side_lt (absPos p) c'
      have e1 : (absPos p).side c = (absPos p).side c' := by omega
      have e1' := side_inj e1
      subst e1'
      have : j = j' := by omega
      subst this
      exact h2
    · omega
  · refine .inr ⟨by rw [if_neg hm], fun h => hm ?_⟩
    exact (mem_ones2 p true _).mpr (.inr (.inl ⟨rfl, c, (mem_onesNyugyoku hp hs c _).mpr ⟨j, hdiv, h⟩⟩))

/-- **C64**, in part: if the declaration planes are zero beforehand, a side has no more than ten pieces in the far ranks and no more
points than a declaration needs, then its declaration planes are right. Without these hypotheses the claim is false, see below. -/
theorem C64_declaration_partial (p : Position) (hp : Consistent p) (hs : (absPos p).InSet) (m1 m2 : Floats)
    (hz : ∀ i, 57 * 81 ≤ i → i < 119 * 81 → m2 i = 0) (c : Color) (hcount : (absPos p).campCount c ≤ 10)
    (hpoints : (absPos p).points c ≤ Pos.needed c) :
    (absPos p).Declaration c (57 + (absPos p).side c * 31) (dlshogiFeatures true p m1 m2).2 := by
  have hsd := side_lt (absPos p) c
  intro t ht
  have key := fun {j : Nat} (hj : j < 31) => declaration_cell hp hs m1 m2 c hj ht
  have zero : ∀ j, j < 31 → m2 ((57 + (absPos p).side c * 31 + j) * 81 + t) = 0 := fun j hj => hz _ (by omega) (by omega)
  refine ⟨?_, fun j hj => ?_, fun j hj => ?_⟩
  · rcases key (j := 0) (by omega) with ⟨h1, h2⟩ | ⟨h1, h2⟩
    · rw [show 57 + (absPos p).side c * 31 = 57 + (absPos p).side c * 31 + 0 from rfl, h1, if_pos]
      rcases h2 with h2 | h2 | h2
      · exact h2.2
      · omega
      · omega
    · rw [show 57 + (absPos p).side c * 31 = 57 + (absPos p).side c * 31 + 0 from rfl, h1, zero 0 (by omega), if_neg]
      exact fun h => h2 (.inl ⟨rfl, h⟩)
  · rw [show 57 + (absPos p).side c * 31 + 1 + j = 57 + (absPos p).side c * 31 + (1 + j) by omega]
    rcases key (j := 1 + j) (by omega) with ⟨h1, h2⟩ | ⟨h1, h2⟩
    · rw [h1, if_pos]
      omega
    · rw [h1, zero _ (by omega), if_neg]
      intro h
      exact h2 (.inr (.inl ⟨hcount, by omega, by omega⟩))
  · rw [show 57 + (absPos p).side c * 31 + 11 + j = 57 + (absPos p).side c * 31 + (11 + j) by omega]
    rcases key (j := 11 + j) (by omega) with ⟨h1, h2⟩ | ⟨h1, h2⟩
    · rw [h1, if_pos]
      omega
    · rw [h1, zero _ (by omega), if_neg]
      intro h
      exact h2 (.inr (.inr ⟨hpoints, by omega, by omega⟩))

/-- With more than ten pieces in the far ranks no plane for the number of pieces is written: they keep what was there, and if that was
zero nothing tells that no piece is missing. -/
theorem C64_fails_count (p : Position) (hp : Consistent p) (hs : (absPos p).InSet) (m1 m2 : Floats) (c : Color)
    (hcount : 10 < (absPos p).campCount c) (j t : Nat) (hj : j < 10) (ht : t < 81) :
    (dlshogiFeatures true p m1 m2).2 ((57 + (absPos p).side c * 31 + 1 + j) * 81 + t) = m2 ((57 + (absPos p).side c * 31 + 1 + j) * 81 + t) := by
  rw [show 57 + (absPos p).side c * 31 + 1 + j = 57 + (absPos p).side c * 31 + (1 + j) by omega]
  rcases declaration_cell hp hs m1 m2 c (j := 1 + j) (by omega) ht with ⟨-, h2⟩ | ⟨h1, -⟩
  · omega
  · exact h1

/-- With more points than needed no plane for the points is written. -/
theorem C64_fails_points (p : Position) (hp : Consistent p) (hs : (absPos p).InSet) (m1 m2 : Floats) (c : Color)
    (hpoints : Pos.needed c < (absPos p).points c) (j t : Nat) (hj : j < 20) (ht : t < 81) :
    (dlshogiFeatures true p m1 m2).2 ((57 + (absPos p).side c * 31 + 11 + j) * 81 + t) = m2 ((57 + (absPos p).side c * 31 + 11 + j) * 81 + t) := by
  rw [show 57 + (absPos p).side c * 31 + 11 + j = 57 + (absPos p).side c * 31 + (11 + j) by omega]
  rcases declaration_cell hp hs m1 m2 c (j := 11 + j) (by omega) ht with ⟨-, h2⟩ | ⟨h1, -⟩
  · omega
  · exact h1

/-- The declaration planes are not cleared: a cell that is 1 stays 1, whatever the position. -/
theorem C64_fails_stale (p : Position) (hp : Consistent p) (hs : (absPos p).InSet) (m1 m2 : Floats) (c : Color) (j t : Nat) (hj : j < 31)
    (ht : t < 81) (h1 : m2 ((57 + (absPos p).side c * 31 + j) * 81 + t) = 1) :
    (dlshogiFeatures true p m1 m2).2 ((57 + (absPos p).side c * 31 + j) * 81 + t) = 1 := by
  rcases declaration_cell hp hs m1 m2 c hj ht with ⟨h, -⟩ | ⟨h, -⟩
  · exact h
  · rw [h, h1]

/-! Examples: `decModel 2` meets the hypotheses of `C64_declaration_partial` for both sides; with an eleventh piece in the far ranks and
three pawns in hand the planes are wrong, and so they are if the arrays are used again. -/

theorem decModel_inSet : (absPos (decModel 2)).InSet := by
  rw [(decModel_spec 2 (by decide)).2]
  intro h
  cases h <;> decide +kernel

example : Consistent (decModel 2) ∧ CheckOK (decModel 2) ∧ (absPos (decModel 2)).InSet ∧ ∀ c, (absPos (decModel 2)).campCount c ≤ 10 ∧
    (absPos (decModel 2)).points c ≤ Pos.needed c := by
  have h := (decModel_spec 2 (by decide)).1
  have hw : ¬ (absPos (decModel 2)).InCheck (decModel 2).turn.opp := by
    rw [← inCheckB_iff h]; decide +kernel
  refine ⟨h, checkOK_find h hw (setPieces_checkers _ _ _ _), decModel_inSet, fun c => ?_⟩
  cases c <;> decide +kernel

def richBoard (s : Square) : Option (Color × Kind) := if s.val = 20 then some (.black, .silver) else decBoard s
def richHand : Color → HandPiece → Nat
  | .black, 0 => 3
  | _, _ => 0
def richPos : Pos := ⟨richBoard, fun c h => richHand c h.code, .black⟩
def richModel : Position := setPieces zeroKeys clear (fun s => pieceCode (richBoard s)) richHand

theorem richModel_spec : Consistent richModel ∧ absPos richModel = richPos := by
  have hk : OneKing richBoard := by
    have h : ∀ c s t, richBoard s = some (c, .king) → richBoard t = some (c, .king) → s = t := by
      intro c
      cases c
      · have : ∀ s, richBoard s = some (.black, .king) → s = 0 := by decide +kernel
        intro s t h1 h2; rw [this s h1, this t h2]
      · have : ∀ s, richBoard s = some (.white, .king) → s = 80 := by decide +kernel
        intro s t h1 h2; rw [this s h1, this t h2]
    exact h
  obtain ⟨h1, h2, h3, -⟩ := setPieces_spec zeroKeys clear richPos hk
    (fun c h => by cases c <;> cases h <;> decide) richHand (fun _ _ => rfl)
  exact ⟨h1, h3⟩

/-- A side that may declare with room to spare looks to the network as if it had no pieces in the far ranks and few points. -/
theorem C64_fails_rich : Consistent richModel ∧ (absPos richModel).InSet ∧ (absPos richModel).turn = .black ∧
    (absPos richModel).campCount .black = 11 ∧ (absPos richModel).points .black = 30 ∧
    ∀ m1 t, t < 81 → ∀ j, j < 30 → (dlshogiFeatures true richModel m1 (fun _ => 0)).2 ((58 + j) * 81 + t) = 0 := by
  obtain ⟨h1, h2⟩ := richModel_spec
  have hs : (absPos richModel).InSet := by
    rw [h2]; intro h; cases h <;> decide +kernel
  have hc : (absPos richModel).campCount .black = 11 := by rw [h2]; decide +kernel
  have hpt : (absPos richModel).points .black = 30 := by rw [h2]; decide +kernel
  have hsd : (absPos richModel).side .black = 0 := by rw [h2]; rfl
  refine ⟨h1, hs, by rw [h2]; rfl, hc, hpt, fun m1 t ht j hj => ?_⟩
  by_cases h10 : j < 10
  · have := C64_fails_count richModel h1 hs m1 (fun _ => 0) .black (by omega) j t h10 ht
    rw [hsd] at this
    exact this
  · obtain ⟨i, rfl⟩ : ∃ i, j = 10 + i := ⟨j - 10, by omega⟩
    have := C64_fails_points richModel h1 hs m1 (fun _ => 0) .black (by rw [hpt]; decide) i t (by omega) ht
    rw [hsd] at this
    rw [show 58 + (10 + i) = 57 + 0 * 31 + 11 + i by omega]
    exact this

/-- **C64** fails as stated: neither with cleared arrays nor in positions whose counts are in range are the planes always right. -/
theorem C64_fails : (¬ ∀ p, Consistent p → (absPos p).InSet → ∀ m1 c,
      (absPos p).Declaration c (57 + (absPos p).side c * 31) (dlshogiFeatures true p m1 (fun _ => 0)).2) ∧
    ¬ ∀ p, Consistent p → (absPos p).InSet → ∀ m1 m2 c, (absPos p).campCount c ≤ 10 → (absPos p).points c ≤ Pos.needed c →
      (absPos p).Declaration c (57 + (absPos p).side c * 31) (dlshogiFeatures true p m1 m2).2 := by
  constructor
  · intro h
    obtain ⟨h1, h2, -, h4, -, h6⟩ := C64_fails_rich
    have h7 := ((h richModel h1 h2 (fun _ => 0) .black 0 (by decide)).2.1 0 (by decide))
    rw [h4, show (absPos richModel).side .black = 0 by rw [richModel_spec.2]; rfl] at h7
    have h8 := h6 (fun _ => 0) 0 (by decide) 0 (by decide)
    rw [show (57 + 0 * 31 + 1 + 0) * 81 + 0 = (58 + 0) * 81 + 0 by rfl, h8] at h7
    exact absurd h7 (by decide)
  · intro h
    have h1 := (decModel_spec 2 (by decide)).1
    have h7 := ((h (decModel 2) h1 decModel_inSet (fun _ => 0) (fun _ => 1) .black (by decide +kernel) (by decide +kernel)) 0 (by decide)).2.1 3
      (by decide)
    have h8 := C64_fails_stale (decModel 2) h1 decModel_inSet (fun _ => 0) (fun _ => 1) .black (1 + 3) 0 (by decide) (by decide) rfl
    rw [show 57 + (absPos (decModel 2)).side .black * 31 + 1 + 3 = 57 + (absPos (decModel 2)).side .black * 31 + (1 + 3) by omega, h8,
      show (absPos (decModel 2)).campCount .black = 10 by decide +kernel] at h7
    exact absurd h7 (by decide)

end Verif
