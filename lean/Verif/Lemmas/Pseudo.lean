import Verif.Lemmas.KeyAfter

namespace Verif
open Spec Bitboard Position

theorem steps_ne_zero (k : Kind) : ∀ d ∈ k.steps, ¬ (d.1 = 0 ∧ d.2 = 0) := by
  cases k <;> decide

theorem orient_ne_zero (c : Color) {d : Dir} (h : ¬ (d.1 = 0 ∧ d.2 = 0)) : ¬ ((orient c d).1 = 0 ∧ (orient c d).2 = 0) := by
  cases c
  · exact h
  · simp only [orient]; omega

theorem at_ne {s t : Square} {d : Dir} {k : Nat} (hk : 1 ≤ k) (hd : ¬ (d.1 = 0 ∧ d.2 = 0)) (h : At s d k t) : s ≠ t := by
  rintro rfl
  obtain ⟨h1, h2⟩ := h
  have e1 : (k : Int) * d.1 = 0 := by omega
  have e2 : (k : Int) * d.2 = 0 := by omega
  rw [mul_eq_zero] at e1 e2
  apply hd
  constructor
  · rcases e1 with e | e
    · omega
    · exact e
  · rcases e2 with e | e
    · omega
    · exact e

/-- A piece never attacks its own square. -/
theorem attacks_ne {c : Color} {k : Kind} {occ : Square → Bool} {s t : Square} (h : Attacks c k occ s t) : s ≠ t := by
  rcases h with ⟨d, hd, h⟩ | ⟨d, hd, n, hn, h, -⟩
  · exact at_ne (le_refl 1) (orient_ne_zero c (steps_ne_zero k d hd)) h
  · exact at_ne hn (orient_ne_zero c (isDir_slides k d hd).2.2) h

/-- A pseudo-legal move may be made when the opponent's king cannot be captured. -/
theorem pseudo_playable {q : Pos} {m : Mv} (hm : q.Pseudo m) (hk : ¬ q.InCheck q.turn.opp) : q.Playable m := by
  cases m with
  | move s t pro =>
    obtain ⟨k, hs, ha, ht, hp, -⟩ := hm
    refine ⟨attacks_ne ha, ⟨k, hs, fun e => (hp e).1⟩, ht, fun e => hk ⟨t, e, s, k, ?_, ?_⟩⟩
    · rw [opp_opp]; exact hs
    · rw [opp_opp]; exact ha
  | drop h t => exact ⟨hm.1, hm.2.1⟩

end Verif
