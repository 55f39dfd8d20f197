import Verif.Lemmas.Lines

/-!
When a move leaves the mover's king attacked, and when it gives check, in terms of checkers and pins. Everything here is
about the rules only.
-/

namespace Verif
open Spec

/-- The king of colour `c` stands on `k` and nowhere else. -/
def KingAt (q : Pos) (c : Color) (k : Square) : Prop := ∀ s, q.board s = some (c, .king) ↔ s = k

theorem KingAt.at {q : Pos} {c : Color} {k : Square} (h : KingAt q c k) : q.board k = some (c, .king) := (h k).mpr rfl

theorem KingAt.occ {q : Pos} {c : Color} {k : Square} (h : KingAt q c k) : q.occ k = true := occ_of_board h.at

theorem KingAt.inCheck {q : Pos} {c : Color} {k : Square} (h : KingAt q c k) : q.InCheck c ↔ q.Attacked c.opp k := by
  unfold Pos.InCheck
  constructor
  · rintro ⟨s, hs, ha⟩; rwa [(h s).mp hs] at ha
  · intro ha; exact ⟨k, h.at, ha⟩

theorem arriving_ne_king {kd : Kind} (pro : Bool) (h : kd ≠ .king) : Pos.arriving kd pro ≠ .king := by
  cases pro <;> cases kd <;> simp_all [Pos.arriving, Kind.promoted]

theorem arriving_of_king (pro : Bool) : Pos.arriving .king pro = .king := by cases pro <;> rfl

theorem arriving_slides (kd : Kind) (pro : Bool) : ∀ d ∈ (Pos.arriving kd pro).slides, d ∈ kd.slides := by
  cases pro <;> cases kd <;> simp [Pos.arriving, Kind.promoted, Kind.slides]

/-! ### The position after a move -/

section
variable {q : Pos} {f t : Square} {kd : Kind} {pro : Bool}

theorem play_move_board (hf : q.board f = some (q.turn, kd)) :
    (q.play (.move f t pro)).board = Pos.set (Pos.set q.board f none) t (some (q.turn, Pos.arriving kd pro)) := by
  simp only [Pos.play, hf]

theorem play_move_occ (hf : q.board f = some (q.turn, kd)) :
    (q.play (.move f t pro)).occ = occMove q.occ f t := by
  funext u
  unfold Pos.occ occMove
  rw [play_move_board hf]
  unfold Pos.set
  by_cases h1 : u = t
  · simp [h1]
  · by_cases h2 : u = f
    · subst h2; simp [h1]
    · simp [h1, h2]

theorem play_drop_occ {h : HKind} : (q.play (.drop h t)).occ = occDrop q.occ t := by
  funext u
  unfold Pos.occ occDrop
  simp only [Pos.play, Pos.set]
  by_cases h1 : u = t <;> simp [h1]

theorem play_turn (m : Mv) : (q.play m).turn = q.turn.opp := by
  cases m with
  | drop h t => rfl
  | move s t pro =>
    simp only [Pos.play]
    split <;> rfl

/-- Enemy pieces after a board move: those not captured. -/
theorem play_move_enemy (hf : q.board f = some (q.turn, kd)) {s : Square} {kd' : Kind} :
    (q.play (.move f t pro)).board s = some (q.turn.opp, kd') ↔ s ≠ t ∧ q.board s = some (q.turn.opp, kd') := by
  rw [play_move_board hf]
  unfold Pos.set
  have hne := opp_ne q.turn
  by_cases h1 : s = t
  · subst h1; simp [Ne.symm hne]
  · by_cases h2 : s = f
    · subst h2; simp [h1, hf, Ne.symm hne]
    · simp [h1, h2]

/-- Own pieces after a board move. -/
theorem play_move_own (hf : q.board f = some (q.turn, kd)) {s : Square} {kd' : Kind} :
    (q.play (.move f t pro)).board s = some (q.turn, kd') ↔
      (s = t ∧ kd' = Pos.arriving kd pro) ∨ (s ≠ t ∧ s ≠ f ∧ q.board s = some (q.turn, kd')) := by
  rw [play_move_board hf]
  unfold Pos.set
  by_cases h1 : s = t
  · subst h1; simp [eq_comm]
  · by_cases h2 : s = f
    · subst h2; simp [h1]
    · simp [h1, h2]

theorem play_drop_enemy {h : HKind} (ht : q.board t = none) {s : Square} {kd' : Kind} :
    (q.play (.drop h t)).board s = some (q.turn.opp, kd') ↔ q.board s = some (q.turn.opp, kd') := by
  simp only [Pos.play, Pos.set]
  have hne := opp_ne q.turn
  by_cases h1 : s = t
  · subst h1; simp [Ne.symm hne, ht]
  · simp [h1]

theorem play_drop_own {h : HKind} (ht : q.board t = none) {s : Square} {kd' : Kind} :
    (q.play (.drop h t)).board s = some (q.turn, kd') ↔ (s = t ∧ kd' = h.kind) ∨ q.board s = some (q.turn, kd') := by
  simp only [Pos.play, Pos.set]
  by_cases h1 : s = t
  · subst h1; simp [eq_comm, ht]
  · simp [h1]

end

/-! ### Safety of the mover's king -/

section
variable {q : Pos} {k : Square}

/-- The piece on `s` of the opponent gives check now. -/
def Checker (q : Pos) (k s : Square) : Prop := q.AttacksSq q.turn.opp s k

/-- A board move by a piece other than the king. -/
theorem move_inCheck (hk : KingAt q q.turn k) {f t : Square} {kd : Kind} {pro : Bool}
    (hf : q.board f = some (q.turn, kd)) (hkd : kd ≠ .king) (ht : ∀ kd', q.board t ≠ some (q.turn, kd')) :
    (q.play (.move f t pro)).InCheck q.turn ↔
      ∃ s, (Checker q k s ∨ PinLine q q.turn.opp k f s) ∧ s ≠ t ∧ ¬ Between s t k := by
  have htk : t ≠ k := by rintro rfl; exact ht _ hk.at
  have hfk : f ≠ k := by
    rintro rfl
    have := hk.at
    rw [hf] at this
    simp only [Option.some.injEq, Prod.mk.injEq, true_and] at this
    exact hkd this
  have hK : KingAt (q.play (.move f t pro)) q.turn k := by
    intro s
    rw [play_move_own hf]
    constructor
    · rintro (⟨-, h⟩ | ⟨-, -, h⟩)
      · exact absurd h.symm (arriving_ne_king pro hkd)
      · exact (hk s).mp h
    · rintro rfl
      exact Or.inr ⟨htk.symm, hfk.symm, hk.at⟩
  rw [hK.inCheck]
  unfold Pos.Attacked Pos.AttacksSq Checker
  refine exists_congr fun s => ?_
  rw [play_move_occ hf]
  constructor
  · rintro ⟨kd', h1, h2⟩
    obtain ⟨hst, hs⟩ := (play_move_enemy hf).mp h1
    rw [attacks_move hs] at h2
    exact ⟨h2.1.imp (fun h => ⟨kd', hs, h⟩) (fun h => h.2), hst, h2.2⟩
  · rintro ⟨h1, hst, hb⟩
    rcases h1 with ⟨kd', hs, h1⟩ | h1
    · exact ⟨kd', (play_move_enemy hf).mpr ⟨hst, hs⟩, (attacks_move hs).mpr ⟨Or.inl h1, hb⟩⟩
    · obtain ⟨kd', hs, hl⟩ := h1.piece
      exact ⟨kd', (play_move_enemy hf).mpr ⟨hst, hs⟩, (attacks_move hs).mpr ⟨Or.inr ⟨hl, h1⟩, hb⟩⟩

/-- A drop. -/
theorem drop_inCheck (hk : KingAt q q.turn k) {t : Square} {h : HKind} (ht : q.board t = none) :
    (q.play (.drop h t)).InCheck q.turn ↔ ∃ s, Checker q k s ∧ ¬ Between s t k := by
  have htk : t ≠ k := by rintro rfl; rw [hk.at] at ht; cases ht
  have hK : KingAt (q.play (.drop h t)) q.turn k := by
    intro s
    rw [play_drop_own ht]
    constructor
    · rintro (⟨-, h⟩ | h)
      · cases ‹HKind› <;> cases h
      · exact (hk s).mp h
    · rintro rfl
      exact Or.inr hk.at
  rw [hK.inCheck]
  unfold Pos.Attacked Pos.AttacksSq Checker
  refine exists_congr fun s => ?_
  rw [play_drop_occ]
  constructor
  · rintro ⟨kd', h1, h2⟩
    rw [attacks_drop] at h2
    exact ⟨⟨kd', (play_drop_enemy ht).mp h1, h2.1⟩, h2.2⟩
  · rintro ⟨⟨kd', h1, h2⟩, hb⟩
    exact ⟨kd', (play_drop_enemy ht).mpr h1, attacks_drop.mpr ⟨h2, hb⟩⟩

/-- Occupancy with one square emptied. -/
def occWithout (occ : Square → Bool) (k : Square) : Square → Bool := fun u => if u = k then false else occ u

theorem attacks_occMove_dst {occ : Square → Bool} {c : Color} {kd : Kind} {f t s : Square} :
    Attacks c kd (occMove occ f t) s t ↔ Attacks c kd (occWithout occ f) s t := by
  refine attacks_congr fun u hu => ?_
  unfold occMove occWithout
  rw [if_neg (between_ne_right hu)]

/-- A move of the king. -/
theorem king_inCheck (hk : KingAt q q.turn k) {t : Square} {pro : Bool} (htk : t ≠ k) :
    (q.play (.move k t pro)).InCheck q.turn ↔
      ∃ s kd', q.board s = some (q.turn.opp, kd') ∧ Attacks q.turn.opp kd' (occWithout q.occ k) s t := by
  have hK : KingAt (q.play (.move k t pro)) q.turn t := by
    intro s
    rw [play_move_own hk.at, arriving_of_king]
    constructor
    · rintro (⟨h, -⟩ | ⟨-, h1, h2⟩)
      · exact h
      · exact absurd ((hk s).mp h2) h1
    · rintro rfl
      exact Or.inl ⟨rfl, rfl⟩
  rw [hK.inCheck]
  unfold Pos.Attacked Pos.AttacksSq
  refine exists_congr fun s => exists_congr fun kd' => ?_
  rw [play_move_occ hk.at, attacks_occMove_dst, play_move_enemy hk.at]
  constructor
  · rintro ⟨h1, h2⟩; exact ⟨h1.2, h2⟩
  · rintro ⟨h1, h2⟩; exact ⟨⟨attacks_ne h2, h1⟩, h2⟩

/-- Seen through the king: only a piece that already gives check. -/
theorem attacks_without {c : Color} {kd : Kind} {s t : Square} :
    Attacks c kd (occWithout q.occ k) s t ↔
      Attacks c kd q.occ s t ∨ (Attacks c kd q.occ s k ∧ SlideLine c kd s k ∧ Between s k t ∧
        ∀ u, Between k u t → q.occ u = false) := by
  constructor
  · intro h
    rw [attacks_iff] at h
    rcases h with h | ⟨h1, h2⟩
    · exact Or.inl ((attacks_iff ..).mpr (Or.inl h))
    · by_cases hb : Between s k t
      · refine Or.inr ⟨?_, h1.shorten hb, hb, fun u hu => ?_⟩
        · rw [attacks_iff]
          refine Or.inr ⟨h1.shorten hb, fun u hu => ?_⟩
          have := h2 u (between_trans_left hb hu)
          unfold occWithout at this
          rwa [if_neg (between_ne_right hu)] at this
        · have := h2 u (between_trans_right hb hu)
          unfold occWithout at this
          rwa [if_neg (between_ne_left hu)] at this
      · refine Or.inl ((attacks_iff ..).mpr (Or.inr ⟨h1, fun u hu => ?_⟩))
        have := h2 u hu
        unfold occWithout at this
        rwa [if_neg (by rintro rfl; exact hb hu)] at this
  · rintro (h | ⟨h1, h2, h3, h4⟩)
    · refine attacks_mono (fun u hu => ?_) h
      unfold occWithout at hu
      split at hu
      · cases hu
      · exact hu
    · rw [attacks_iff]
      refine Or.inr ⟨h2.extend h3, fun u hu => ?_⟩
      unfold occWithout
      split
      · rfl
      · rcases between_cases h3 hu with e | e | e
        · contradiction
        · exact Attacks.path h1 u e
        · exact h4 u e

end

/-! ### Giving check -/

section
variable {q : Pos} {k : Square}

/-- A board move gives check exactly by its own piece (as seen on the board before the move) or by uncovering. -/
theorem move_gives (hk : KingAt q q.turn.opp k) (hnc : ¬ q.InCheck q.turn.opp) {f t : Square} {kd : Kind} {pro : Bool}
    (hf : q.board f = some (q.turn, kd)) (hat : Attacks q.turn kd q.occ f t)
    (ht : ∀ kd', q.board t ≠ some (q.turn, kd')) :
    ∀ s, (q.play (.move f t pro)).AttacksSq q.turn s k ↔
      (s = t ∧ Attacks q.turn (Pos.arriving kd pro) q.occ t k) ∨ (PinLine q q.turn k f s ∧ ¬ Between s t k) := by
  rw [hk.inCheck, opp_opp] at hnc
  intro s
  unfold Pos.AttacksSq
  rw [play_move_occ hf]
  constructor
  · rintro ⟨kd', h1, h2⟩
    rcases (play_move_own hf).mp h1 with ⟨rfl, rfl⟩ | ⟨h3, h4, h5⟩
    · left
      refine ⟨rfl, ?_⟩
      rw [attacks_iff] at h2 ⊢
      refine h2.imp_right fun ⟨h6, h7⟩ => ⟨h6, ?_⟩
      by_contra hcon
      push Not at hcon
      obtain ⟨u, hu, hu'⟩ := hcon
      have hocc : q.occ u = true := by simpa using hu'
      -- the occupied square can only be the source
      have huf : u = f := by
        by_contra hne
        have := (free_move.mp h7).2 u hu hne
        rw [hocc] at this; cases this
      subst huf
      -- then the piece attacked the king before
      refine hnc ⟨u, kd, hf, ?_⟩
      rw [attacks_iff]
      right
      obtain ⟨d, hd, hl⟩ := h6
      have hdir := isDir_orient (c := q.turn) (isDir_slides _ d hd)
      refine ⟨⟨d, arriving_slides kd pro d hd, ((between_on hdir hl).mp hu).2⟩, fun v hv => ?_⟩
      have := (free_move.mp h7).2 v (between_trans_right hu hv) (between_ne_left hv)
      exact this
    · rw [attacks_move h5] at h2
      rcases h2 with ⟨h6 | h6, h7⟩
      · exact absurd ⟨s, kd', h5, h6⟩ hnc
      · exact Or.inr ⟨h6.2, h7⟩
  · rintro (⟨rfl, h1⟩ | ⟨h1, h2⟩)
    · refine ⟨_, (play_move_own hf).mpr (Or.inl ⟨rfl, rfl⟩), ?_⟩
      rw [attacks_iff] at h1 ⊢
      refine h1.imp_right fun ⟨h3, h4⟩ => ⟨h3, free_move.mpr ⟨fun hb => between_ne_left hb rfl, fun u hu _ => h4 u hu⟩⟩
    · obtain ⟨kd', h3, h4⟩ := h1.piece
      refine ⟨kd', (play_move_own hf).mpr (Or.inr ⟨?_, ?_, h3⟩), (attacks_move h3).mpr ⟨Or.inr ⟨h4, h1⟩, h2⟩⟩
      · rintro rfl; exact ht _ h3
      · rintro rfl; exact between_ne_left h1.btw rfl

/-- A drop gives check exactly by the dropped piece. -/
theorem drop_gives (hk : KingAt q q.turn.opp k) (hnc : ¬ q.InCheck q.turn.opp) {t : Square} {h : HKind}
    (ht : q.board t = none) :
    ∀ s, (q.play (.drop h t)).AttacksSq q.turn s k ↔ s = t ∧ Attacks q.turn h.kind q.occ t k := by
  rw [hk.inCheck, opp_opp] at hnc
  intro s
  unfold Pos.AttacksSq
  rw [play_drop_occ]
  constructor
  · rintro ⟨kd', h1, h2⟩
    rw [attacks_drop] at h2
    rcases (play_drop_own ht).mp h1 with ⟨rfl, rfl⟩ | h3
    · exact ⟨rfl, h2.1⟩
    · exact absurd ⟨s, kd', h3, h2.1⟩ hnc
  · rintro ⟨rfl, h1⟩
    exact ⟨_, (play_drop_own ht).mpr (Or.inl ⟨rfl, rfl⟩), attacks_drop.mpr ⟨h1, fun hb => between_ne_left hb rfl⟩⟩

end

end Verif
