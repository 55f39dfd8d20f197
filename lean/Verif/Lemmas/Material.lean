import Verif.Lemmas.Undo

namespace Verif
open Spec

/-- Whether a board cell counts for a hand kind. -/
def cellCount (h : HKind) (_s : Square) (v : Option (Color × Kind)) : ℤ := if v.bind (·.2.hand) = some h then 1 else 0

theorem countP_sum (f : Square → Bool) : (((List.finRange 81).countP f : Nat) : ℤ) = ∑ s, (if f s = true then (1:ℤ) else 0) := by
  rw [Fin.sum_univ_def]
  induction List.finRange 81 with
  | nil => rfl
  | cons a l ih =>
    rw [List.countP_cons, List.map_cons, List.sum_cons, ← ih]
    push_cast
    split <;> simp [add_comm]

theorem onBoard_eq (q : Pos) (h : HKind) : (q.onBoard h : ℤ) = ∑ s, cellCount h s (q.board s) := by
  unfold Pos.onBoard
  rw [countP_sum]
  apply Finset.sum_congr rfl
  intro s _
  simp [cellCount]

theorem onBoard_set (b : Square → Option (Color × Kind)) (h : HKind) (s : Square) (v : Option (Color × Kind)) :
    ∑ u, cellCount h u (Pos.set b s v u) = ∑ u, cellCount h u (b u) - cellCount h s (b s) + cellCount h s v :=
  sum_upd (cellCount h) b s v

theorem arriving_hand {k : Kind} {pro : Bool} (hpro : pro = true → k.promoted.isSome = true) :
    (Pos.arriving k pro).hand = k.hand := by
  cases pro
  · rfl
  · have := hpro rfl
    cases k <;> simp [Kind.promoted] at this <;> rfl

theorem handKind_hand (h : HKind) : h.kind.hand = some h := by cases h <;> rfl

/-- Playing a move conserves material. -/
theorem material_play {q : Pos} {m : Mv} (hm : q.Playable m) (h : HKind) : (q.play m).material h = q.material h := by
  have key : ((q.play m).material h : ℤ) = q.material h := by
    unfold Pos.material
    push_cast
    rw [onBoard_eq, onBoard_eq]
    cases m with
    | drop hk t =>
      obtain ⟨h1, ht⟩ := hm
      simp only [Pos.play]
      rw [onBoard_set, ht]
      have e1 : cellCount h t none = 0 := rfl
      have e2 : cellCount h t (some (q.turn, hk.kind)) = if hk = h then 1 else 0 := by
        simp [cellCount, handKind_hand]
      rw [e1, e2]
      by_cases hh : hk = h
      · subst hh
        cases ht : q.turn <;> rw [ht] at h1 <;> simp <;> omega
      · have : ¬ h = hk := fun e => hh e.symm
        simp [hh, this]
    | move s t pro =>
      obtain ⟨hst, ⟨k, hs, hpro⟩, ht, htk⟩ := hm
      simp only [Pos.play, hs]
      rw [onBoard_set, onBoard_set]
      have e0 : Pos.set q.board s none t = q.board t := by
        unfold Pos.set; rw [if_neg (fun e => hst e.symm)]
      have e1 : cellCount h s (none : Option (Color × Kind)) = 0 := rfl
      have e2 : cellCount h t (some (q.turn, Pos.arriving k pro)) = cellCount h s (q.board s) := by
        simp [cellCount, hs, arriving_hand hpro]
      rw [e0, e1, e2]
      rcases hb : q.board t with _ | ⟨c', k'⟩
      · have e3 : cellCount h t (none : Option (Color × Kind)) = 0 := rfl
        rw [e3]; simp
      · have e3 : cellCount h t (some (c', k')) = if k'.hand = some h then 1 else 0 := rfl
        rw [e3]
        by_cases hh : k'.hand = some h
        · cases q.turn <;> simp [hh] <;> omega
        · simp [hh]
  exact_mod_cast key

theorem InSet.play {q : Pos} (hq : q.InSet) {m : Mv} (hm : q.Playable m) : (q.play m).InSet := by
  intro h; rw [material_play hm]; exact hq h

end Verif
