import Verif.Spec.Mate
import Verif.Lemmas.CheckMoves

/-!
# Declining a promotion does not avoid mate in one

Between the position after a promotion and the one after the same move without it, the piece that moved attacks no more squares. A
move that mates in the first mates in the second.
-/

namespace Verif
open Spec

/-- Whether a king is in check depends on the occupied squares, the opposing pieces and the king. -/
theorem inCheck_same {a b : Pos} {c : Color} (ho : a.occ = b.occ) (hd : ∀ s kd, a.board s = some (c.opp, kd) ↔ b.board s = some (c.opp, kd))
    (hk : ∀ s, a.board s = some (c, .king) ↔ b.board s = some (c, .king)) : a.InCheck c ↔ b.InCheck c := by
  unfold Pos.InCheck Pos.Attacked Pos.AttacksSq
  simp only [ho, hd, hk]

theorem play_piece {a : Pos} {f u : Square} {pro : Bool} {d : Color} {kd : Kind} (hb : a.board f = some (d, kd)) : a.play (.move f u pro) =
    { board := Pos.set (Pos.set a.board f none) u (some (d, Pos.arriving kd pro))
      hand := fun c' h =>
        if c' = a.turn ∧ (∃ k', (a.board u).map Prod.snd = some k' ∧ k'.hand = some h) then a.hand c' h + 1 else a.hand c' h
      turn := a.turn.opp } := by
  unfold Pos.play
  dsimp only
  rw [hb]

/-- The two pieces on `t`. -/
structure Weaker (c : Color) (t : Square) (k k' : Kind) : Prop where
  attacks : ∀ occ s, Attacks c k occ t s → Attacks c k' occ t s
  king : k ≠ .king
  king' : k' ≠ .king
  pawn : k' ≠ .pawn
  hand : k.hand = k'.hand
  moves : ∀ s, ¬ Dead c k' s

/-- Two positions that differ only by the piece on `t`. -/
structure Dom (c : Color) (t : Square) (k k' : Kind) (a b : Pos) : Prop where
  weak : Weaker c t k k'
  at1 : a.board t = some (c, k)
  at2 : b.board t = some (c, k')
  off : ∀ s, s ≠ t → a.board s = b.board s
  hand : a.hand = b.hand
  turn : a.turn = b.turn

namespace Dom
variable {c : Color} {t : Square} {k k' : Kind} {a b : Pos} (h : Dom c t k k' a b)
include h

theorem occ : a.occ = b.occ := by
  funext s
  unfold Pos.occ
  by_cases e : s = t
  · rw [e, h.at1, h.at2]; rfl
  · rw [h.off s e]

theorem other {d : Color} (hd : d ≠ c) (s : Square) (kd : Kind) : a.board s = some (d, kd) ↔ b.board s = some (d, kd) := by
  by_cases e : s = t
  · rw [e, h.at1, h.at2]
    constructor <;> (intro e; cases e; exact absurd rfl hd)
  · rw [h.off s e]

theorem kings (d : Color) (s : Square) : a.board s = some (d, .king) ↔ b.board s = some (d, .king) := by
  by_cases e : s = t
  · rw [e, h.at1, h.at2]
    constructor
    · intro e; cases e; exact absurd rfl h.weak.king
    · intro e; cases e; exact absurd rfl h.weak.king'
  · rw [h.off s e]

theorem inCheck : a.InCheck c ↔ b.InCheck c :=
  inCheck_same h.occ (fun s kd => h.other (by cases c <;> decide) s kd) (h.kings c)

theorem inCheck_opp (hc : a.InCheck c.opp) : b.InCheck c.opp := by
  obtain ⟨s, hs, f, kd, hf, ha⟩ := hc
  refine ⟨s, (h.kings _ s).mp hs, f, ?_⟩
  rw [opp_opp] at hf ha ⊢
  rw [h.occ] at ha
  by_cases e : f = t
  · subst e
    rw [h.at1] at hf; cases hf
    exact ⟨k', h.at2, h.weak.attacks _ _ ha⟩
  · exact ⟨kd, by rw [← h.off f e]; exact hf, ha⟩

/-- A board move of another piece to another square keeps the difference. -/
theorem move {f u : Square} {pro : Bool} (hf : f ≠ t) (hu : u ≠ t) {d : Color} {kd : Kind} (hb : a.board f = some (d, kd)) :
    Dom c t k k' (a.play (.move f u pro)) (b.play (.move f u pro)) := by
  have hb' : b.board f = some (d, kd) := by rw [← h.off f hf]; exact hb
  have ht : b.turn = a.turn := h.turn.symm
  have hh : b.hand = a.hand := h.hand.symm
  rw [play_piece hb, play_piece hb']
  refine ⟨h.weak, ?_, ?_, fun s hs => ?_, ?_, by rw [ht]⟩
  · show Pos.set _ u _ t = _
    unfold Pos.set; rw [if_neg (Ne.symm hu), if_neg (Ne.symm hf)]; exact h.at1
  · show Pos.set _ u _ t = _
    unfold Pos.set; rw [if_neg (Ne.symm hu), if_neg (Ne.symm hf)]; exact h.at2
  · show Pos.set _ u _ s = Pos.set _ u _ s
    unfold Pos.set; rw [h.off s hs]
  · funext c' h'
    rw [ht, hh, h.off u hu]

theorem drop {u : Square} {x : HKind} (hu : u ≠ t) : Dom c t k k' (a.play (.drop x u)) (b.play (.drop x u)) := by
  have ht : b.turn = a.turn := h.turn.symm
  have hh : b.hand = a.hand := h.hand.symm
  refine ⟨h.weak, ?_, ?_, fun s hs => ?_, ?_, by show a.turn.opp = b.turn.opp; rw [ht]⟩
  · show Pos.set _ u _ t = _
    unfold Pos.set; rw [if_neg (Ne.symm hu)]; exact h.at1
  · show Pos.set _ u _ t = _
    unfold Pos.set; rw [if_neg (Ne.symm hu)]; exact h.at2
  · show Pos.set _ u _ s = Pos.set _ u _ s
    unfold Pos.set; rw [h.off s hs, ht]
  · funext c' h'
    show (if c' = a.turn ∧ h' = x then a.hand c' h' - 1 else a.hand c' h') = (if c' = b.turn ∧ h' = x then b.hand c' h' - 1 else b.hand c' h')
    rw [ht, hh]

/-- Capturing the piece removes the difference. -/
theorem capture {f : Square} {pro : Bool} (hf : f ≠ t) {d : Color} {kd : Kind} (hb : a.board f = some (d, kd)) :
    a.play (.move f t pro) = b.play (.move f t pro) := by
  have hb' : b.board f = some (d, kd) := by rw [← h.off f hf]; exact hb
  have ht : b.turn = a.turn := h.turn.symm
  have hh : b.hand = a.hand := h.hand.symm
  rw [play_piece hb, play_piece hb']
  have e1 : Pos.set (Pos.set a.board f none) t (some (d, Pos.arriving kd pro)) = Pos.set (Pos.set b.board f none) t (some (d, Pos.arriving kd pro)) := by
    funext s
    unfold Pos.set
    by_cases e : s = t
    · rw [if_pos e, if_pos e]
    · rw [if_neg e, if_neg e, h.off s e]
  have e2 : ∀ h', (∃ k', (a.board t).map Prod.snd = some k' ∧ k'.hand = some h') ↔ (∃ k', (b.board t).map Prod.snd = some k' ∧ k'.hand = some h') := by
    intro h'
    rw [h.at1, h.at2]
    simp only [Option.map_some, Option.some.injEq, exists_eq_left', h.weak.hand]
  simp only [e1, ht, hh, e2]

/-- The opponent's moves that are possible against the stronger piece are possible against the weaker one. -/
theorem pseudo_opp (hT : a.turn = c.opp) {m : Mv} (hm : b.Pseudo m) : a.Pseudo m := by
  have hne : c.opp ≠ c := by cases c <;> decide
  cases m with
  | move f u pro =>
    obtain ⟨kd, h1, h2, h3, h4⟩ := hm
    rw [← h.turn, hT] at h1 h2 h3 h4
    refine ⟨kd, ?_, ?_, ?_, ?_⟩
    · rw [hT]; exact (h.other hne f kd).mpr h1
    · rw [hT, h.occ]; exact h2
    · intro k2 e; rw [hT] at e; exact h3 k2 ((h.other hne u k2).mp e)
    · rw [hT]; exact h4
  | drop x u =>
    obtain ⟨h1, h2, h3, h4⟩ := hm
    rw [← h.turn, hT] at h1 h3 h4
    have hu : u ≠ t := by rintro rfl; rw [h.at2] at h2; cases h2
    refine ⟨by rw [hT, h.hand]; exact h1, by rw [h.off u hu]; exact h2, by rw [hT]; exact h3, fun e v hv e2 => ?_⟩
    rw [hT] at e2
    exact h4 e v hv ((h.other hne v _).mp e2)

/-- If the side with the weaker piece has a safe move, so has the side with the stronger one. -/
theorem safe_own (hT : a.turn = c) {m : Mv} (hm : a.Safe m) : ∃ m', b.Safe m' := by
  have hTb : b.turn = c := by rw [← h.turn]; exact hT
  have hkw := h.weak
  obtain ⟨hp, hs⟩ := hm
  rw [hT] at hs
  cases m with
  | move f u pro =>
    obtain ⟨kd, h1, h2, h3, h4⟩ := hp
    rw [hT] at h1 h2 h3 h4
    have hu : u ≠ t := by rintro rfl; exact h3 k h.at1
    have h3' : ∀ k2, b.board u ≠ some (c, k2) := by intro k2; rw [← h.off u hu]; exact h3 k2
    by_cases hf : f = t
    · subst hf
      rw [h.at1] at h1; cases h1
      refine ⟨.move f u false, ⟨k', by rw [hTb]; exact h.at2, by rw [hTb, ← h.occ]; exact hkw.attacks _ _ h2, by rw [hTb]; exact h3',
        (fun e => by cases e), fun _ => by rw [hTb]; exact hkw.moves u⟩, ?_⟩
      rw [hTb]
      refine fun e => hs ((inCheck_same ?_ ?_ ?_).mpr e)
      · funext s
        unfold Pos.occ
        rw [play_piece h.at1, play_piece h.at2]
        show (Pos.set _ u _ s).isSome = (Pos.set _ u _ s).isSome
        unfold Pos.set
        by_cases e1 : s = u
        · rw [if_pos e1, if_pos e1]; rfl
        · rw [if_neg e1, if_neg e1]
          by_cases e2 : s = f
          · rw [if_pos e2, if_pos e2]
          · rw [if_neg e2, if_neg e2, h.off s e2]
      · intro s kd
        rw [play_piece h.at1, play_piece h.at2]
        show Pos.set _ u _ s = _ ↔ Pos.set _ u _ s = _
        unfold Pos.set
        by_cases e1 : s = u
        · rw [if_pos e1, if_pos e1]
          constructor <;> (intro e; simp only [Option.some.injEq, Prod.mk.injEq] at e; exact absurd e.1 (by cases c <;> decide))
        · rw [if_neg e1, if_neg e1]
          by_cases e2 : s = f
          · rw [if_pos e2, if_pos e2]
          · rw [if_neg e2, if_neg e2, h.off s e2]
      · intro s
        rw [play_piece h.at1, play_piece h.at2]
        show Pos.set _ u _ s = _ ↔ Pos.set _ u _ s = _
        unfold Pos.set
        by_cases e1 : s = u
        · rw [if_pos e1, if_pos e1]
          have n1 : Pos.arriving k pro ≠ .king := by
            unfold Pos.arriving
            cases pro
            · exact hkw.king
            · cases k <;> first | decide | exact hkw.king
          have n2 : Pos.arriving k' false ≠ .king := hkw.king'
          constructor
          · intro e; simp only [Option.some.injEq, Prod.mk.injEq] at e; exact absurd e.2 n1
          · intro e; simp only [Option.some.injEq, Prod.mk.injEq] at e; exact absurd e.2 n2
        · rw [if_neg e1, if_neg e1]
          by_cases e2 : s = f
          · rw [if_pos e2, if_pos e2]
          · rw [if_neg e2, if_neg e2, h.off s e2]
    · have hb : b.board f = some (c, kd) := by rw [← h.off f hf]; exact h1
      refine ⟨.move f u pro, ⟨kd, by rw [hTb]; exact hb, by rw [hTb, ← h.occ]; exact h2, by rw [hTb]; exact h3', by rw [hTb]; exact h4⟩, ?_⟩
      rw [hTb]
      exact fun e => hs ((h.move hf hu h1).inCheck.mpr e)
  | drop x u =>
    obtain ⟨h1, h2, h3, h4⟩ := hp
    rw [hT] at h1 h3 h4
    have hu : u ≠ t := by rintro rfl; rw [h.at1] at h2; cases h2
    refine ⟨.drop x u, ⟨by rw [hTb, ← h.hand]; exact h1, by rw [← h.off u hu]; exact h2, by rw [hTb]; exact h3, fun e v hv e2 => ?_⟩, ?_⟩
    · rw [hTb] at e2
      by_cases e3 : v = t
      · rw [e3, h.at2] at e2; cases e2; exact hkw.pawn rfl
      · exact h4 e v hv (by rw [h.off v e3]; exact e2)
    · rw [hTb]
      exact fun e => hs ((h.drop hu).inCheck.mpr e)

theorem mated (hT : a.turn = c) (hm : b.Mated) : a.Mated := by
  have hTb : b.turn = c := by rw [← h.turn]; exact hT
  refine ⟨by rw [hT]; exact h.inCheck.mpr (by rw [← hTb]; exact hm.1), fun m hs => ?_⟩
  obtain ⟨m', h'⟩ := h.safe_own hT hs
  exact hm.2 m' h'

/-- A mate in one against the stronger piece is a mate in one against the weaker one. -/
theorem mate_one (hT : a.turn = c.opp) {m : Mv} (hl : b.Legal m) (hm : (b.play m).Mated) : a.Legal m ∧ (a.play m).Mated := by
  have hTb : b.turn = c.opp := by rw [← h.turn]; exact hT
  have hps := h.pseudo_opp hT hl.1.1
  have hsafe := hl.1.2
  rw [hTb] at hsafe
  have hnd : ∀ u, m ≠ .drop .pawn u := fun u e => hl.2 ⟨u, e, hm⟩
  have key : (¬ (a.play m).InCheck c.opp) ∧ (a.play m).Mated := by
    cases m with
    | move f u pro =>
      obtain ⟨kd, h1, -⟩ := hps
      rw [hT] at h1
      have hf : f ≠ t := by
        rintro rfl; rw [h.at1] at h1
        simp only [Option.some.injEq, Prod.mk.injEq] at h1
        exact absurd h1.1 (by cases c <;> decide)
      by_cases hu : u = t
      · subst hu
        rw [h.capture hf h1]; exact ⟨hsafe, hm⟩
      · have hd := h.move (pro := pro) hf hu h1
        have ht : (a.play (.move f u pro)).turn = c := by rw [play_turn, hT, opp_opp]
        exact ⟨fun e => hsafe (hd.inCheck_opp e), hd.mated ht hm⟩
    | drop x u =>
      have hu : u ≠ t := by rintro rfl; have := hps.2.1; rw [h.at1] at this; cases this
      have hd := h.drop (x := x) hu
      have ht : (a.play (.drop x u)).turn = c := by rw [play_turn, hT, opp_opp]
      exact ⟨fun e => hsafe (hd.inCheck_opp e), hd.mated ht hm⟩
  refine ⟨⟨⟨hps, by rw [hT]; exact key.1⟩, ?_⟩, key.2⟩
  rintro ⟨u, e, -⟩
  exact hnd u e

end Dom

/-! ### Declined promotions -/

theorem weaker_promoted {c : Color} {f t : Square} {k : Kind}
    (h : (k = .pawn ∨ k = .bishop ∨ k = .rook) ∧ (zone c f ∨ zone c t) ∨ k = .lance ∧ farRank c t ≤ 1) :
    ∃ k', k.promoted = some k' ∧ (zone c f ∨ zone c t) ∧ Weaker c t k k' := by
  rcases h with ⟨h, hz⟩ | ⟨rfl, hz⟩
  · rcases h with rfl | rfl | rfl
    · refine ⟨.proPawn, rfl, hz, ⟨fun occ s ha => ?_, by decide, by decide, by decide, rfl, fun _ => id⟩⟩
      rcases ha with ⟨d, hd, ha⟩ | ⟨d, hd, -⟩
      · refine .inl ⟨d, ?_, ha⟩
        simp only [Kind.steps, List.mem_singleton] at hd
        rw [hd]; decide
      · simp [Kind.slides] at hd
    · refine ⟨.horse, rfl, hz, ⟨fun occ s ha => ?_, by decide, by decide, by decide, rfl, fun _ => id⟩⟩
      rcases ha with ⟨d, hd, -⟩ | ha
      · simp [Kind.steps] at hd
      · exact .inr ha
    · refine ⟨.dragon, rfl, hz, ⟨fun occ s ha => ?_, by decide, by decide, by decide, rfl, fun _ => id⟩⟩
      rcases ha with ⟨d, hd, -⟩ | ha
      · simp [Kind.steps] at hd
      · exact .inr ha
  · refine ⟨.proLance, rfl, .inr (by unfold zone; omega), ⟨fun occ s ha => ?_, by decide, by decide, by decide, rfl, fun _ => id⟩⟩
    rcases ha with ⟨d, hd, -⟩ | ⟨d, hd, n, h1, h2, -⟩
    · simp [Kind.steps] at hd
    · simp only [Kind.slides, List.mem_singleton] at hd
      subst hd
      refine .inl ⟨(0, -1), by decide, ?_⟩
      have hn : n = 1 := by
        have := h2.2
        have hs : 0 ≤ Y s ∧ Y s ≤ 8 := by unfold Y; omega
        cases c
        · simp only [orient] at this; simp only [farRank] at hz; omega
        · simp only [orient] at this; simp only [farRank] at hz; omega
      rw [← hn]; exact h2

/-- The position after declining a promotion differs from the one after accepting it by a weaker piece. -/
theorem declined_dom {q : Pos} {f t : Square} {k : Kind} (hb : q.board f = some (q.turn, k))
    (h : (k = .pawn ∨ k = .bishop ∨ k = .rook) ∧ (zone q.turn f ∨ zone q.turn t) ∨ k = .lance ∧ farRank q.turn t ≤ 1)
    (hp : q.Legal (.move f t false)) :
    q.Legal (.move f t true) ∧ ∃ k', Dom q.turn t k k' (q.play (.move f t false)) (q.play (.move f t true)) := by
  obtain ⟨k', hk, hz, hw⟩ := weaker_promoted h
  obtain ⟨⟨⟨kd, h1, h2, h3, -⟩, hs⟩, -⟩ := hp
  rw [hb] at h1; cases h1
  have hd : Dom q.turn t k k' (q.play (.move f t false)) (q.play (.move f t true)) := by
    rw [play_piece hb, play_piece hb]
    refine ⟨hw, ?_, ?_, fun s hs => ?_, rfl, rfl⟩
    · show Pos.set _ t _ t = _
      unfold Pos.set; rw [if_pos rfl]; rfl
    · show Pos.set _ t _ t = _
      unfold Pos.set; rw [if_pos rfl]; unfold Pos.arriving; rw [if_pos rfl, hk]; rfl
    · show Pos.set _ t _ s = Pos.set _ t _ s
      unfold Pos.set; rw [if_neg hs, if_neg hs]
  refine ⟨⟨⟨⟨k, hb, h2, h3, fun _ => ⟨by rw [hk]; rfl, hz⟩, fun e => by cases e⟩, fun e => hs (hd.inCheck.mpr e)⟩, ?_⟩, k', hd⟩
  rintro ⟨u, e, -⟩
  cases e

/-- Who has a legal move has one that does not decline a promotion. -/
theorem keen_exists {q : Pos} {m : Mv} (hm : q.Legal m) : ∃ m', q.Legal m' ∧ keenReply q m' := by
  by_cases hd : Declines q m
  · obtain ⟨f, t, k, rfl, hb, h⟩ := hd
    refine ⟨_, (declined_dom hb h hm).1, ?_⟩
    rintro ⟨_, _, _, e, -⟩
    cases e
  · exact ⟨m, hm, hd⟩

/-- Mate in one move against every reply that does not decline a promotion is mate in one move against every reply. -/
theorem losesIn_one {q : Pos} (h : LosesIn keenReply 1 q) : LosesIn anyReply 1 q := by
  refine ⟨h.1, fun m hm _ => ?_⟩
  by_cases hd : Declines q m
  · obtain ⟨f, t, k, rfl, hb, hx⟩ := hd
    obtain ⟨hl, k', hdom⟩ := declined_dom hb hx hm
    have hkeen : keenReply q (.move f t true) := by
      rintro ⟨_, _, _, e, -⟩
      cases e
    obtain ⟨m', h1, h2⟩ := h.2 _ hl hkeen
    obtain ⟨g1, g2⟩ := hdom.mate_one (by rw [play_turn]) h1 h2
    exact ⟨m', g1, g2⟩
  · exact h.2 m hm hd

end Verif
