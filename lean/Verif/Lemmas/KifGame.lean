import Verif.Lemmas.Kif
import Verif.Spec.Kif

/-!
# Reading back a game written as KIF
-/

namespace Verif.Kif
open Spec Position Csa

/-! ### Start positions -/

/-- The board of a handicap position and nothing else. -/
def handicapModel (off : List Square) : Position := boardOnly (handicapPos off).board (handicapPos off).turn

theorem handicapModel_abs (off : List Square) : absPos (handicapModel off) = handicapPos off := by
  obtain ⟨h1, h2, h3⟩ := boardOnly_abs (handicapPos off).board (handicapPos off).turn
  exact pos_ext h1 (by funext c h; exact h2 c h) h3

/-- The position set up the other way, to look for checks. -/
def handicapSet (off : List Square) : Position :=
  setPieces zeroKeys { clear with turn := (handicapPos off).turn } (fun s => pieceCode ((handicapPos off).board s)) (fun _ _ => 0)

theorem handicap_regular (off : List Square) (h36 : 36 ∉ off) (h44 : 44 ∉ off)
    (hc : inCheckB (handicapSet off) (handicapPos off).turn.opp = false) : (handicapPos off).Regular ∧ (handicapPos off).InSet := by
  have hkb : ∀ s, startBoard s = some (.black, .king) ↔ s = 44 := by decide +kernel
  have hkw : ∀ s, startBoard s = some (.white, .king) ↔ s = 36 := by decide +kernel
  have hle : ∀ s x, (handicapPos off).board s = some x → startBoard s = some x := by
    intro s x hx
    unfold handicapPos at hx
    simp only at hx
    split at hx
    · cases hx
    · exact hx
  have hkings : ∀ c, ∃ k, ∀ s, (handicapPos off).board s = some (c, .king) ↔ s = k := by
    intro c
    cases c
    · refine ⟨44, fun s => ⟨fun h => (hkb s).mp (hle s _ h), ?_⟩⟩
      rintro rfl
      show (if (44 : Square) ∈ off then none else startBoard 44) = _
      rw [if_neg h44]; exact (hkb 44).mpr rfl
    · refine ⟨36, fun s => ⟨fun h => (hkw s).mp (hle s _ h), ?_⟩⟩
      rintro rfl
      show (if (36 : Square) ∈ off then none else startBoard 36) = _
      rw [if_neg h36]; exact (hkw 36).mpr rfl
  have hone : OneKing (handicapPos off).board := by
    intro c s t h1 h2
    obtain ⟨k, hk⟩ := hkings c
    rw [(hk s).mp h1, (hk t).mp h2]
  obtain ⟨g1, -, g3, -⟩ := setPieces_spec zeroKeys { clear with turn := (handicapPos off).turn } (handicapPos off) hone
    (fun _ _ => Nat.zero_le _) (fun _ _ => 0) (fun _ _ => rfl)
  refine ⟨⟨hkings, ?_, ?_⟩, ?_⟩
  · have := inCheckB_iff g1 (handicapPos off).turn.opp
    rw [g3] at this
    intro hh
    have h2 : inCheckB (handicapSet off) (handicapPos off).turn.opp = true := this.mpr hh
    rw [hc] at h2; cases h2
  · intro s c k h
    exact startPos_regular.alive s c k (hle s _ h)
  · intro h
    refine Nat.le_trans ?_ (startPos_inSet h)
    show (handicapPos off).onBoard h + 0 + 0 ≤ startPos.onBoard h + 0 + 0
    refine Nat.add_le_add_right (Nat.add_le_add_right (List.countP_mono_left fun s _ hs => ?_) 0) 0
    simp only [decide_eq_true_eq, Option.bind_eq_some_iff] at hs ⊢
    obtain ⟨x, h1, h2⟩ := hs
    exact ⟨x, hle s x h1, h2⟩

theorem read_good {Z : Zobrist} {p q : Position} {t : List Char} (h : ReadAs Z p q t) (hs : (absPos p).InSet) (hr : (absPos p).Regular) :
    Csa.Good Z q := by
  have hone : OneKing (absPos p).board := by
    intro c s t h1 h2
    obtain ⟨k, hk⟩ := hr.kings c
    rw [(hk s).mp h1, (hk t).mp h2]
  have hc : Consistent q := h.views hone
  have ht : q.turn = p.turn := congrArg Pos.turn h.same
  refine ⟨⟨hc, h.keys, by rw [h.same]; exact hs⟩, checkOK_find hc ?_ h.check, by rw [h.same]; exact hr⟩
  rw [h.same, ht]; exact hr.waiting

/-- What is to be looked up for each handicap. -/
def handicapB (x : List Char × List Char) (off : List Square) : Bool :=
  decide (36 ∉ off) && decide (44 ∉ off) && !inCheckB (handicapSet off) (handicapPos off).turn.opp &&
    decide (toSfen (handicapModel off) 1 = x.2)

theorem handicap_read (Z : Zobrist) {x : List Char × List Char} {off : List Square} (h : handicapB x off = true) :
    ∃ q, setSfen Z x.2 = .ok q ∧ absPos q = handicapPos off ∧ q.gamePly = 1 ∧ Csa.Good Z q := by
  simp only [handicapB, Bool.and_eq_true, decide_eq_true_eq, Bool.not_eq_true'] at h
  obtain ⟨⟨⟨h1, h2⟩, h3⟩, h4⟩ := h
  obtain ⟨g1, g2⟩ := handicap_regular off h1 h2 h3
  have ha := handicapModel_abs off
  have hcode : ∀ s, (handicapModel off).piece s = pieceCode ((absPos (handicapModel off)).board s) := boardOnly_code _ _
  obtain ⟨q, e, hr, ht, hg, hp, hh, -⟩ := sfen_spec Z hcode (by rw [ha]; exact fun _ _ => Nat.zero_le _) 1 (by decide) (by decide)
  rw [h4] at e
  have hr' : Raw (finish Z q) (absPos (handicapModel off)).board := hr.congr rfl rfl rfl
  have hra : ReadAs Z (handicapModel off) (finish Z q) x.2 := by
    refine ⟨e, ?_, hg, hr', finish_keys Z q, finish_checkers Z q, fun c => (hh c).1, hp,
      fun h1 => finish_consistent Z hr h1 fun c => (hh c).1⟩
    apply pos_ext hr'.abs
    · funext c hk
      exact (hh c).2 _ (hcode_lt hk)
    · exact ht
  exact ⟨finish Z q, e, hra.same.trans ha, hg, read_good hra (by rw [ha]; exact g2) (by rw [ha]; exact g1)⟩

/-- The squares left out, by the text of the name. -/
def offOf (name : List Char) : List Square := ((handicapSquares.find? fun x => x.1.toList = name).map (·.2)).getD []

theorem handicaps_ok : ∀ x ∈ handicaps, handicapB x (offOf x.1) = true ∧ ∃ n, (n, offOf x.1) ∈ handicapSquares ∧ n.toList = x.1 := by
  have h : (handicaps.all fun x => handicapB x (offOf x.1) &&
      handicapSquares.any fun y => decide (y.2 = offOf x.1) && decide (y.1.toList = x.1)) = true := by decide +kernel
  intro x hx
  have := List.all_eq_true.mp h x hx
  simp only [Bool.and_eq_true, List.any_eq_true, decide_eq_true_eq] at this
  obtain ⟨h1, y, hy, h2, h3⟩ := this
  exact ⟨h1, y.1, by rw [← h2]; exact hy, h3⟩

end Verif.Kif
