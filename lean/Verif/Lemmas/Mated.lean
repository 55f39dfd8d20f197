import Verif.Lemmas.Legal

/-!
Being mated, at the level of the rules: what has to be shown about the position after the mating move.
-/

namespace Verif
open Spec

/-- Mate: a checking piece, no square for the king, no capture, no interposition. -/
theorem mated_of {q : Pos} {k c : Square} (hK : KingAt q q.turn k) (hc : Checker q k c)
    (hking : ∀ u, StepAt q.turn .king k u → (∀ kd, q.board u ≠ some (q.turn, kd)) →
      ∃ s kd, q.board s = some (q.turn.opp, kd) ∧ Attacks q.turn.opp kd (occWithout q.occ k) s u)
    (hpiece : ∀ f v kd, q.board f = some (q.turn, kd) → kd ≠ .king → Attacks q.turn kd q.occ f v → v = c ∨ Between c v k →
      ∃ s, (Checker q k s ∨ PinLine q q.turn.opp k f s) ∧ s ≠ v ∧ ¬ Between s v k)
    (hdrop : ∀ hp v, Between c v k → q.Pseudo (.drop hp v) → ∃ s, Checker q k s ∧ ¬ Between s v k) : q.Mated := by
  refine ⟨hK.inCheck.mpr ⟨c, hc⟩, ?_⟩
  rintro m ⟨hm, hs⟩
  apply hs
  cases m with
  | drop hp v =>
    rw [drop_inCheck hK hm.2.1]
    by_cases hb : Between c v k
    · exact hdrop hp v hb hm
    · exact ⟨c, hc, hb⟩
  | move f v pro =>
    obtain ⟨kd, hf, ha, hv, -⟩ := hm
    by_cases hkd : kd = .king
    · subst hkd
      obtain rfl := (hK f).mp hf
      rw [king_inCheck hK (attacks_ne ha).symm]
      exact hking v (king_step ha) hv
    · rw [move_inCheck hK hf hkd hv]
      by_cases hb : v = c ∨ Between c v k
      · exact hpiece f v kd hf hkd ha hb
      · rw [not_or] at hb
        exact ⟨c, .inl hc, Ne.symm hb.1, hb.2⟩

/-- `q'` is `q` after the side to move has put a piece of kind `kt` on `t`, taking it from `src` if there is one. -/
structure After (q q' : Pos) (src : Option Square) (t : Square) (kt : Kind) : Prop where
  turn : q'.turn = q.turn.opp
  free : ∀ kd, q.board t ≠ some (q.turn, kd)
  own : ∀ s kd, q'.board s = some (q.turn, kd) ↔ (s = t ∧ kd = kt) ∨ (some s ≠ src ∧ q.board s = some (q.turn, kd))
  them : ∀ s kd, q'.board s = some (q.turn.opp, kd) ↔ s ≠ t ∧ q.board s = some (q.turn.opp, kd)
  occ : ∀ u, q'.occ u = true ↔ u = t ∨ (some u ≠ src ∧ q.occ u = true)
  hand : q'.hand q.turn.opp = q.hand q.turn.opp

theorem play_hand_opp {q : Pos} (m : Mv) : (q.play m).hand q.turn.opp = q.hand q.turn.opp := by
  have : q.turn.opp ≠ q.turn := opp_ne _
  cases m with
  | move f t pro =>
    funext h
    rcases hb : q.board f with _ | ⟨c, kd⟩ <;> simp only [Pos.play, hb, this, false_and, if_false]
  | drop hp t => funext h; simp only [Pos.play, this, false_and, if_false]

theorem After.of_move {q : Pos} {f t : Square} {kd : Kind} (pro : Bool) (hf : q.board f = some (q.turn, kd))
    (ht : ∀ kd', q.board t ≠ some (q.turn, kd')) : After q (q.play (.move f t pro)) (some f) t (Pos.arriving kd pro) where
  turn := play_turn _
  free := ht
  own s kd' := by
    rw [play_move_own hf]
    refine or_congr_right ⟨fun ⟨_, h2, h3⟩ => ⟨fun e => h2 (Option.some.inj e), h3⟩, fun ⟨h2, h3⟩ => ⟨?_, fun e => h2 (by rw [e]), h3⟩⟩
    rintro rfl; exact ht _ h3
  them s kd' := play_move_enemy hf
  occ u := by
    rw [play_move_occ hf]; unfold occMove
    by_cases h1 : u = t
    · simp [h1]
    · by_cases h2 : u = f <;> simp [h1, h2]
  hand := play_hand_opp _

theorem After.of_drop {q : Pos} {t : Square} (hp : HKind) (ht : q.board t = none) :
    After q (q.play (.drop hp t)) none t hp.kind where
  turn := play_turn _
  free kd := by rw [ht]; exact fun e => by cases e
  own s kd' := by rw [play_drop_own ht]; simp
  them s kd' := by
    rw [play_drop_enemy ht]
    refine ⟨fun e => ⟨?_, e⟩, fun e => e.2⟩
    rintro rfl; rw [ht] at e; cases e
  occ u := by
    rw [play_drop_occ]; unfold occDrop
    by_cases h1 : u = t <;> simp [h1]
  hand := play_hand_opp _

section
variable {q q' : Pos} {src : Option Square} {t : Square} {kt : Kind}

theorem After.arrived (h : After q q' src t kt) : q'.board t = some (q.turn, kt) := (h.own t kt).mpr (.inl ⟨rfl, rfl⟩)

theorem After.king (h : After q q' src t kt) {k : Square} (hK : KingAt q q.turn.opp k) (htk : t ≠ k) : KingAt q' q'.turn k := by
  intro s
  rw [h.turn, h.them, hK s]
  exact ⟨fun e => e.2, fun e => ⟨by rw [e]; exact htk.symm, e⟩⟩

/-- Fewer pieces on the way, more attacks. -/
theorem attacks_mono' {occ occ' : Square → Bool} {a : Color} {kd : Kind} {s k : Square}
    (h : ∀ u, Between s u k → occ' u = true → occ u = true) (ha : Attacks a kd occ s k) : Attacks a kd occ' s k := by
  rw [attacks_iff] at ha ⊢
  refine ha.imp_right fun ⟨h1, h2⟩ => ⟨h1, fun u hu => ?_⟩
  rw [Bool.eq_false_iff]
  intro ho
  have := h u hu ho
  rw [h2 u hu] at this; cases this

/-- A pin survives when the new piece stays off its line. -/
theorem After.pin (h : After q q' src t kt) {k f s : Square} (hp : PinLine q q.turn k f s) (hs : some s ≠ src)
    (hf : some f ≠ src) (hb : ¬ Between s t k) : PinLine q' q.turn k f s := by
  obtain ⟨⟨kd, h1, h2⟩, h3, h4, h5⟩ := hp
  refine ⟨⟨kd, (h.own s kd).mpr (.inr ⟨hs, h1⟩), h2⟩, h3, (h.occ f).mpr (.inr ⟨hf, h4⟩), fun u hu ho => ?_⟩
  rcases (h.occ u).mp ho with rfl | ⟨-, ho⟩
  · exact absurd hu hb
  · exact h5 u hu ho

/-- Squares of one line. -/
theorem onLine_of {s f v k : Square} (hf : Between s f k) (hv : v = s ∨ Between s v k) (hne : v ≠ f) : OnLine f v k := by
  obtain ⟨d, hd, h1, h2⟩ := between_iff.mp hf
  rcases hv with rfl | hb
  · exact ⟨d, hd, h2, Or.inr (line_symm.mp h1)⟩
  · obtain ⟨h3, h4⟩ := (between_on hd (line_trans h1 h2)).mp hb
    rcases line_total h1 h3 with e1 | e1 | e1
    · exact absurd e1.symm hne
    · exact ⟨d, hd, h2, Or.inl e1⟩
    · exact ⟨d, hd, h2, Or.inr (line_symm.mp e1)⟩

/-- A pinned piece that goes off the line of its pin exposes its king. -/
theorem PinLine.leaves {a : Color} {k f s v : Square} (hp : PinLine q a k f s) (hv : v ≠ f) (ho : ¬ OnLine f v k) :
    s ≠ v ∧ ¬ Between s v k :=
  ⟨fun e => ho (onLine_of hp.btw (.inl e.symm) hv), fun e => ho (onLine_of hp.btw (.inr e) hv)⟩

/-- Two checkers: only the king can move. -/
theorem mated_of_two {q : Pos} {k c c' : Square} (hK : KingAt q q.turn k) (hc : Checker q k c) (hc' : Checker q k c') (hne : c ≠ c')
    (hking : ∀ u, StepAt q.turn .king k u → (∀ kd, q.board u ≠ some (q.turn, kd)) →
      ∃ s kd, q.board s = some (q.turn.opp, kd) ∧ Attacks q.turn.opp kd (occWithout q.occ k) s u) : q.Mated := by
  refine mated_of hK hc hking (fun f v kd hf hkd ha hv => ⟨c', .inl hc', ?_⟩) (fun hp v hv _ => ⟨c', hc', ?_⟩)
  · rw [← not_or]
    intro h
    exact two_checkers hc hc' hne (hv.imp Eq.symm id) h
  · intro h
    exact two_checkers hc hc' hne (.inr hv) (.inr h)

end

end Verif
