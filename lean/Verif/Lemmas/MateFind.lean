import Verif.Lemmas.MateKeen
import Verif.Lemmas.CheckAllGen

/-!
Which forced mates the mate search finds, exactly.
-/

namespace Verif
open Spec Bitboard Position

/-- The list of checks, exactly. -/
theorem orPicker_exact {Z : Zobrist} {p : Position} (hp : Sound Z p) {b : Bool} (hb : b = true ↔ (absPos p).InCheck p.turn) :
    (∃ r, orPicker p b = some r ∧ ∀ m, m ∈ r ↔ ∃ mv, m = encode p mv ∧ (absPos p).Legal mv ∧ ((absPos p).play mv).InCheck p.turn.opp) ∨
      (orPicker p b = none ∧ Spill Z 0 p) := by
  rcases orPicker_res hp hb with ⟨r, e, h1⟩ | h
  swap
  · exact .inr h
  refine .inl ⟨r, e, fun m => ⟨h1 m, ?_⟩⟩
  rintro ⟨mv, rfl, hl, hc⟩
  obtain ⟨k, hk⟩ := kings_of hp.inv.views hp.regular p.turn.opp
  unfold orPicker at e
  rw [hk] at e
  dsimp only at e
  obtain ⟨_, -, e⟩ := Option.bind_eq_some_iff.mp e
  obtain ⟨g, hg, e⟩ := Option.bind_eq_some_iff.mp e
  obtain ⟨g', hg', e'⟩ := Option.bind_eq_some_iff.mp hg
  unfold fits at e'
  split at e'
  swap
  · cases e'
  cases e'
  have hmem := genCheck_complete hp.inv.views hk hp.regular.waiting hp.regular hg' hl hc
  cases b
  · rw [if_neg (by decide)] at e
    cases e; exact hmem
  · rw [if_pos rfl] at e
    obtain ⟨_, -, e⟩ := Option.map_eq_some_iff.mp e
    rw [← e, (filterSwap_perm _ _ _ (le_refl _)).mem_iff, List.mem_filter]
    refine ⟨hmem, ?_⟩
    obtain ⟨g2, hg2, hgs⟩ := genCheck_sound hp.inv.views hk hp.regular.waiting true
    rw [hg'] at hg2; cases hg2
    obtain ⟨mv', e1, h1, -, -, h4⟩ := hgs _ hmem
    cases encode_inj p e1
    obtain ⟨b, e, he⟩ := evasion_test hp.inv.views hp.checks hp.regular (hp.checks.inCheck.mpr (hb.mp rfl)) h1 h4
    rw [e]
    exact he.mpr hl.1.2

/-- As `Res`, and the answer says exactly whether the property holds. -/
def Exact (Z : Zobrist) (k : Nat) (P : Prop) (p : Position) (o : Option (Bool × Position)) : Prop :=
  (∃ b, o = some (b, p) ∧ (b = true ↔ P)) ∨ (o = none ∧ Spill Z k p)

/-- The side to move is not in check and `mate_move_in_1ply` finds a mate. -/
def Found1 (p : Position) : Prop := ¬ (absPos p).InCheck p.turn ∧ ∃ m, p.mateMoveIn1Ply = some m ∧ m ≠ 0#32

theorem shogi_next {Z : Zobrist} {p p' s : Position} {m : Mv} (e : doMove Z p (encode p m) = some p') (h : (shogi Z).next p m s) : s = p' :=
  (Option.some.inj (e.symm.trans h)).symm

theorem replies3_exact {Z : Zobrist} {p : Position} (hp : Sound Z p) (l : List Move)
    (hl : ∀ m ∈ l, ∃ mv, m = encode p mv ∧ (absPos p).Legal mv) :
    ∃ b, replies3 Z l p = some (b, p) ∧ (b = true ↔ ∀ mv, encode p mv ∈ l → ∃ s, (shogi Z).next p mv s ∧ Found1 s) := by
  induction l with
  | nil => exact ⟨true, rfl, fun _ mv h => absurd h (by simp), fun _ => rfl⟩
  | cons m l ih =>
    obtain ⟨mv, e, hm⟩ := hl m List.mem_cons_self
    obtain ⟨b, e1, hb⟩ := ih fun m hm => hl m (List.mem_cons_of_mem _ hm)
    obtain ⟨p', s1, s2, s3, s4, s5, s6, s7⟩ := hp.step hm
    have bad : ¬ Found1 p' → ¬ ∀ mv, encode p mv ∈ m :: l → ∃ s, (shogi Z).next p mv s ∧ Found1 s := by
      intro hn ha
      obtain ⟨s, h1, h2⟩ := ha mv (e ▸ List.mem_cons_self)
      rw [shogi_next s1 h1] at h2
      exact hn h2
    rw [replies3]
    split
    · rename_i hg
      rw [e] at hg
      exact ⟨false, rfl, (fun h => by cases h), fun ha => absurd ha (bad fun h => h.1 (s7.mp hg))⟩
    · rename_i hg
      rw [Bool.not_eq_true, e] at hg
      rw [hg] at s2 s7
      have hn : ¬ (absPos p').InCheck p'.turn := fun h => absurd (s7.mpr h) (by decide)
      obtain ⟨r, er, -⟩ := mate1_res s3 hn keenReply
      rw [e, s2, Option.bind_some, er, Option.bind_some, s5, Option.bind_some]
      split
      · rename_i h0
        rw [e] at bad
        refine ⟨false, rfl, (fun h => by cases h), fun ha => absurd ha (bad ?_)⟩
        rintro ⟨-, m', e', hne⟩
        rw [er] at e'; cases e'; exact hne h0
      · rename_i hne
        refine ⟨b, e1, fun hbt mv' hmem => ?_, fun ha => hb.mpr fun mv' h => ha mv' (List.mem_cons_of_mem _ h)⟩
        rcases List.mem_cons.mp hmem with h | h
        · rw [encode_inj p h]; exact ⟨p', s1, hn, r, er, hne⟩
        · exact hb.mp hbt mv' h

/-- What one check in `mateMoveIn3Ply` has to do. -/
def ThreeBy (Z : Zobrist) (p : Position) (m : Mv) : Prop :=
  ∃ s', (shogi Z).next p m s' ∧ (absPos s').InCheck s'.turn ∧
    ∀ m', (absPos s').Legal m' → keenReply (absPos s') m' → ∃ s'', (shogi Z).next s' m' s'' ∧ Found1 s''

theorem checks3_exact {Z : Zobrist} {p : Position} (hp : Sound Z p) (l : List Move)
    (hl : ∀ m ∈ l, ∃ mv, m = encode p mv ∧ (absPos p).Legal mv ∧ ((absPos p).play mv).InCheck p.turn.opp) :
    Exact Z 1 (∃ mv, encode p mv ∈ l ∧ ThreeBy Z p mv) p (checks3 Z l p) := by
  induction l with
  | nil => exact .inl ⟨false, rfl, (fun h => by cases h), fun ⟨_, h, _⟩ => absurd h (by simp)⟩
  | cons m l ih =>
    obtain ⟨mv, e, hm, hc⟩ := hl m List.mem_cons_self
    have ih := ih fun m hm => hl m (List.mem_cons_of_mem _ hm)
    obtain ⟨p', s1, s2, s3, s4, s5, s6, s7⟩ := hp.step hm
    have hin : (absPos p').InCheck p'.turn := by rw [s4, s6]; exact hc
    rw [s7.mpr hin] at s2
    rw [checks3, e, s2, Option.bind_some]
    rcases andPicker_exact s3 hin with ⟨r, er, h1⟩ | ⟨er, hs⟩
    · obtain ⟨b, eb, hb⟩ := replies3_exact s3 r fun m hm => by
        obtain ⟨mv, h2, h3, -⟩ := (h1 m).mp hm; exact ⟨mv, h2, h3⟩
      have hb : b = true ↔ ThreeBy Z p mv := by
        rw [hb]
        constructor
        · intro ha
          exact ⟨p', s1, hin, fun m' h2 h3 => ha m' ((h1 _).mpr ⟨m', rfl, h2, h3⟩)⟩
        · rintro ⟨s', h2, -, h3⟩ mv' hmem
          rw [shogi_next s1 h2] at h3
          obtain ⟨mv2, e2, h4, h5⟩ := (h1 _).mp hmem
          rw [encode_inj p' e2]
          exact h3 mv2 h4 h5
      rw [er, Option.bind_some, eb, Option.bind_some, s5, Option.bind_some]
      cases b
      · have hnot : ¬ ThreeBy Z p mv := fun h => absurd (hb.mpr h) (by decide)
        rcases ih with ⟨b, eb, hb⟩ | ⟨eb, hs⟩
        · refine .inl ⟨b, eb, fun h => ?_, ?_⟩
          · obtain ⟨mv', h2, h3⟩ := hb.mp h
            exact ⟨mv', List.mem_cons_of_mem _ h2, h3⟩
          · rintro ⟨mv', h2, h3⟩
            rcases List.mem_cons.mp h2 with h2 | h2
            · rw [encode_inj p h2] at h3; exact absurd h3 hnot
            · exact hb.mpr ⟨mv', h2, h3⟩
        · exact .inr ⟨eb, hs⟩
      · exact .inl ⟨true, rfl, fun _ => ⟨mv, List.mem_cons_self, hb.mp rfl⟩, fun _ => rfl⟩
    · rw [er]
      exact .inr ⟨rfl, .step hm s1 hs⟩

theorem mate3_exact {Z : Zobrist} {p : Position} (hp : Sound Z p) {b : Bool} (hb : b = true ↔ (absPos p).InCheck p.turn) :
    Exact Z 1 (Three (shogi Z) keenReply Found1 p) p (mateMoveIn3Ply Z b p) := by
  unfold mateMoveIn3Ply
  rcases orPicker_exact hp hb with ⟨r, er, h1⟩ | ⟨er, hs⟩
  · rw [er, Option.bind_some]
    rcases checks3_exact hp r fun m hm => (h1 m).mp hm with ⟨b, eb, hb⟩ | h
    · refine .inl ⟨b, eb, hb.trans ⟨?_, ?_⟩⟩
      · rintro ⟨mv, hm, h⟩
        obtain ⟨mv', e, h2, -⟩ := (h1 _).mp hm
        cases encode_inj p e
        exact ⟨mv, h2, h⟩
      · rintro ⟨mv, h2, s', h3, h4, h5⟩
        refine ⟨mv, (h1 _).mpr ⟨mv, rfl, h2, ?_⟩, s', h3, h4, h5⟩
        have h2 : (absPos p).Legal mv := h2
        obtain ⟨p', s1, -, -, s4, -, s6, -⟩ := hp.step h2
        have h4 : (absPos s').InCheck s'.turn := h4
        rw [shogi_next s1 h3, s4, s6] at h4
        exact h4
    · exact .inr h
  · rw [er]; exact .inr ⟨rfl, hs.mono (by omega)⟩

/-! ### The general search -/

theorem judge_iff {Z : Zobrist} {p : Position} {d : Repetition} (hd : p.isDraw 16 = some d) (v : Verdict) : (shogi Z).judge p v ↔ d = Verdict.rep v := by
  constructor
  · intro h
    exact Option.some.inj (hd.symm.trans h)
  · intro h
    show p.isDraw 16 = some (Verdict.rep v)
    rw [hd, h]

theorem oddLoop_exact {Z : Zobrist} {k : Nat} {P : Position → Prop} {even : Position → Option (Bool × Position)}
    (he : ∀ q, Sound Z q → (absPos q).InCheck q.turn → Exact Z k (P q) q (even q))
    {p : Position} (hp : Sound Z p) (l : List Move)
    (hl : ∀ m ∈ l, ∃ mv, m = encode p mv ∧ (absPos p).Legal mv ∧ ((absPos p).play mv).InCheck p.turn.opp) :
    (∃ o, oddLoop Z even l p = some (o, p) ∧ (o = none → ∀ mv, encode p mv ∈ l → ¬ ChecksBy (shogi Z) P p mv) ∧
      ∀ m, o = some m → ∃ mv, m = encode p mv ∧ ChecksBy (shogi Z) P p mv) ∨
      (oddLoop Z even l p = none ∧ Spill Z (k + 1) p) := by
  induction l with
  | nil => exact .inl ⟨none, rfl, (fun _ _ h => absurd h (by simp)), fun _ h => by cases h⟩
  | cons m l ih =>
    obtain ⟨mv, e, hm, hc⟩ := hl m List.mem_cons_self
    have ih := ih fun m hm => hl m (List.mem_cons_of_mem _ hm)
    obtain ⟨p', s1, s2, s3, s4, s5, s6, s7⟩ := hp.step hm
    have hin : (absPos p').InCheck p'.turn := by rw [s4, s6]; exact hc
    rw [s7.mpr hin] at s2
    obtain ⟨d, hd⟩ := isDraw_some s3
    rw [oddLoop, e, s2, Option.bind_some, hd, Option.bind_some]
    rw [e] at hl
    -- a check that does not do
    have skip : ¬ ChecksBy (shogi Z) P p mv →
        (∃ o, oddLoop Z even l p = some (o, p) ∧ (o = none → ∀ mv', encode p mv' ∈ encode p mv :: l → ¬ ChecksBy (shogi Z) P p mv') ∧
          ∀ m, o = some m → ∃ mv, m = encode p mv ∧ ChecksBy (shogi Z) P p mv) ∨ (oddLoop Z even l p = none ∧ Spill Z (k + 1) p) := by
      intro hn
      rcases ih with ⟨o, eo, h1, h2⟩ | h
      · refine .inl ⟨o, eo, fun h mv' hmem => ?_, h2⟩
        rcases List.mem_cons.mp hmem with h' | h'
        · rw [encode_inj p h']; exact hn
        · exact h1 h mv' h'
      · exact .inr h
    have giveUp : (d ≠ .none ∧ d ≠ .inferior ∧ d ≠ .lose) → ¬ ChecksBy (shogi Z) P p mv := by
      rintro ⟨n1, n2, n3⟩ ⟨-, s', h1, -, h2⟩
      rw [shogi_next s1 h1] at h2
      simp only [judge_iff hd, Verdict.rep] at h2
      rcases h2 with h2 | ⟨h2 | h2, -⟩
      exacts [n3 h2, n1 h2, n2 h2]
    have next : (d = .none ∨ d = .inferior) →
        (∃ o, ((even p').bind fun r => (undoMove r.2 (encode p mv)).bind fun p2 => if r.1 then some (some (encode p mv), p2) else oddLoop Z even l p2) =
          some (o, p) ∧ (o = none → ∀ mv', encode p mv' ∈ encode p mv :: l → ¬ ChecksBy (shogi Z) P p mv') ∧
          ∀ m, o = some m → ∃ mv, m = encode p mv ∧ ChecksBy (shogi Z) P p mv) ∨
        (((even p').bind fun r => (undoMove r.2 (encode p mv)).bind fun p2 => if r.1 then some (some (encode p mv), p2) else oddLoop Z even l p2) = none ∧
          Spill Z (k + 1) p) := by
      intro hd'
      rcases he p' s3 hin with ⟨b, eb, hb⟩ | ⟨eb, hs⟩
      · rw [eb, Option.bind_some, s5, Option.bind_some]
        cases b
        · refine skip ?_
          rintro ⟨-, s', h1, -, h2⟩
          rw [shogi_next s1 h1] at h2
          rcases h2 with h2 | ⟨-, h2⟩
          · rw [judge_iff hd] at h2
            rcases hd' with rfl | rfl <;> cases h2
          · exact absurd (hb.mpr h2) (by decide)
        · refine .inl ⟨some (encode p mv), rfl, (fun h => by cases h), fun m' hm' => ⟨mv, by cases hm'; rfl, hm, p', s1, hin, .inr ⟨?_, hb.mp rfl⟩⟩⟩
          rcases hd' with rfl | rfl
          · exact .inl hd
          · exact .inr hd
      · rw [eb]; exact .inr ⟨rfl, .step hm s1 hs⟩
    cases d
    · simp only [afterCheck]; exact next (.inl rfl)
    · simp only [afterCheck]; rw [s5, Option.bind_some]; exact skip (giveUp ⟨by decide, by decide, by decide⟩)
    · simp only [afterCheck]; rw [s5, Option.bind_some]; exact skip (giveUp ⟨by decide, by decide, by decide⟩)
    · simp only [afterCheck]; rw [s5]
      exact .inl ⟨some (encode p mv), rfl, (fun h => by cases h), fun m' hm' => ⟨mv, by cases hm'; rfl, hm, p', s1, hin, .inl hd⟩⟩
    · simp only [afterCheck]; rw [s5, Option.bind_some]; exact skip (giveUp ⟨by decide, by decide, by decide⟩)
    · simp only [afterCheck]; exact next (.inr rfl)

/-- One whole node with checks. -/
theorem odd_exact {Z : Zobrist} {k : Nat} {P : Position → Prop} {even : Position → Option (Bool × Position)}
    (he : ∀ q, Sound Z q → (absPos q).InCheck q.turn → Exact Z k (P q) q (even q))
    {p : Position} (hp : Sound Z p) {b : Bool} (hb : b = true ↔ (absPos p).InCheck p.turn) :
    (∃ o, ((orPicker p b).bind fun l => oddLoop Z even l p) = some (o, p) ∧ (o = none → ∀ mv, ¬ ChecksBy (shogi Z) P p mv) ∧
      ∀ m, o = some m → ∃ mv, m = encode p mv ∧ ChecksBy (shogi Z) P p mv) ∨
      (((orPicker p b).bind fun l => oddLoop Z even l p) = none ∧ Spill Z (k + 1) p) := by
  rcases orPicker_exact hp hb with ⟨r, er, h1⟩ | ⟨er, hs⟩
  · rw [er, Option.bind_some]
    rcases oddLoop_exact he hp r fun m hm => (h1 m).mp hm with ⟨o, eo, h2, h3⟩ | h
    · refine .inl ⟨o, eo, fun h mv hmv => h2 h mv ((h1 _).mpr ⟨mv, rfl, hmv.1, ?_⟩) hmv, h3⟩
      obtain ⟨hl, s', h4, h5, -⟩ := hmv
      have hl : (absPos p).Legal mv := hl
      obtain ⟨p', s1, -, -, s4, -, s6, -⟩ := hp.step hl
      have h5 : (absPos s').InCheck s'.turn := h5
      rw [shogi_next s1 h4, s4, s6] at h5
      exact h5
    · exact .inr h
  · rw [er]; exact .inr ⟨rfl, hs.mono (by omega)⟩

theorem evenLoop_exact {Z : Zobrist} {k : Nat} {P : Position → Prop} {depth : Int} {odd : Bool → Position → Option (Bool × Position)}
    (ho : ∀ q b, Sound Z q → (b = true ↔ (absPos q).InCheck q.turn) → Exact Z k (P q) q (afterEven Z depth odd b q))
    {p : Position} (hp : Sound Z p) (l : List Move) (hl : ∀ m ∈ l, ∃ mv, m = encode p mv ∧ (absPos p).Legal mv) :
    Exact Z (k + 1) (∀ mv, encode p mv ∈ l → ∃ s', (shogi Z).next p mv s' ∧ ((shogi Z).judge s' .win ∨
      ((shogi Z).judge s' .new ∨ (shogi Z).judge s' .superior) ∧ P s')) p (evenLoop Z depth odd l p) := by
  induction l with
  | nil => exact .inl ⟨true, rfl, fun _ mv h => absurd h (by simp), fun _ => rfl⟩
  | cons m l ih =>
    obtain ⟨mv, e, hm⟩ := hl m List.mem_cons_self
    have ih := ih fun m hm => hl m (List.mem_cons_of_mem _ hm)
    obtain ⟨p', s1, s2, s3, s4, s5, s6, s7⟩ := hp.step hm
    obtain ⟨d, hd⟩ := isDraw_some s3
    rw [evenLoop, e, s2, Option.bind_some, hd, Option.bind_some]
    obtain ⟨J, hJ⟩ : ∃ J : Mv → Prop, J = fun mv => ∃ s', (shogi Z).next p mv s' ∧ ((shogi Z).judge s' .win ∨
      ((shogi Z).judge s' .new ∨ (shogi Z).judge s' .superior) ∧ P s') := ⟨_, rfl⟩
    have hJmv : J mv ↔ ((shogi Z).judge p' .win ∨ ((shogi Z).judge p' .new ∨ (shogi Z).judge p' .superior) ∧ P p') := by
      rw [hJ]
      constructor
      · rintro ⟨s', h1, h2⟩; rw [shogi_next s1 h1] at h2; exact h2
      · intro h; exact ⟨p', s1, h⟩
    change Exact Z (k + 1) (∀ mv', encode p mv' ∈ encode p mv :: l → (fun mv => ∃ s', (shogi Z).next p mv s' ∧ ((shogi Z).judge s' .win ∨
      ((shogi Z).judge s' .new ∨ (shogi Z).judge s' .superior) ∧ P s')) mv') _ _
    change Exact Z (k + 1) (∀ mv', encode p mv' ∈ l → (fun mv => ∃ s', (shogi Z).next p mv s' ∧ ((shogi Z).judge s' .win ∨
      ((shogi Z).judge s' .new ∨ (shogi Z).judge s' .superior) ∧ P s')) mv') _ _ at ih
    rw [← hJ] at ih ⊢
    have cont : J mv → Exact Z (k + 1) (∀ mv', encode p mv' ∈ encode p mv :: l → J mv') p (evenLoop Z depth odd l p) := by
      intro hj
      rcases ih with ⟨b, eb, hb⟩ | ⟨eb, hs⟩
      · refine .inl ⟨b, eb, fun hbt mv' hmem => ?_, fun ha => hb.mpr fun mv' h => ha mv' (List.mem_cons_of_mem _ h)⟩
        rcases List.mem_cons.mp hmem with h | h
        · rw [encode_inj p h]; exact hj
        · exact hb.mp hbt mv' h
      · exact .inr ⟨eb, hs⟩
    have stop : ¬ J mv → Exact Z (k + 1) (∀ mv', encode p mv' ∈ encode p mv :: l → J mv') p (some (false, p)) := fun hn =>
      .inl ⟨false, rfl, (fun h => by cases h), fun ha => absurd (ha mv List.mem_cons_self) hn⟩
    have next : (d = .none ∨ d = .superior) →
        Exact Z (k + 1) (∀ mv', encode p mv' ∈ encode p mv :: l → J mv') p
          ((afterEven Z depth odd (p.moveGivesCheck (encode p mv)) p').bind fun r => (undoMove r.2 (encode p mv)).bind fun p =>
            if r.1 then evenLoop Z depth odd l p else some (false, p)) := by
      intro hj
      rcases ho p' _ s3 s7 with ⟨b, eb, hb⟩ | ⟨eb, hs⟩
      · rw [eb, Option.bind_some, s5, Option.bind_some]
        cases b
        · refine stop fun h => ?_
          rcases hJmv.mp h with h | ⟨-, h⟩
          · rw [judge_iff hd] at h
            rcases hj with rfl | rfl <;> cases h
          · exact absurd (hb.mpr h) (by decide)
        · refine cont (hJmv.mpr (.inr ⟨?_, hb.mp rfl⟩))
          rcases hj with rfl | rfl
          · exact .inl hd
          · exact .inr hd
      · rw [eb]; exact .inr ⟨rfl, .step hm s1 hs⟩
    have bad : (d ≠ .none ∧ d ≠ .superior ∧ d ≠ .win) → ¬ J mv := by
      rintro ⟨n1, n2, n3⟩ h
      have h := hJmv.mp h
      simp only [judge_iff hd, Verdict.rep] at h
      rcases h with h | ⟨h | h, -⟩
      exacts [n3 h, n1 h, n2 h]
    cases d
    · exact next (.inl rfl)
    · simp only [afterReply]; rw [s5]; exact stop (bad ⟨by decide, by decide, by decide⟩)
    · simp only [afterReply]; rw [s5, Option.bind_some]; exact cont (hJmv.mpr (.inl hd))
    · simp only [afterReply]; rw [s5]; exact stop (bad ⟨by decide, by decide, by decide⟩)
    · exact next (.inr rfl)
    · simp only [afterReply]; rw [s5]; exact stop (bad ⟨by decide, by decide, by decide⟩)

/-- One whole node with replies. -/
theorem even_exact {Z : Zobrist} {k : Nat} {P : Position → Prop} {depth : Int} {odd : Bool → Position → Option (Bool × Position)}
    (ho : ∀ q b, Sound Z q → (b = true ↔ (absPos q).InCheck q.turn) → Exact Z k (P q) q (afterEven Z depth odd b q))
    {p : Position} (hp : Sound Z p) (hin : (absPos p).InCheck p.turn) :
    Exact Z (k + 1) (Answers (shogi Z) keenReply P p) p ((andPicker p).bind fun l => evenLoop Z depth odd l p) := by
  rcases andPicker_exact hp hin with ⟨r, er, h1⟩ | ⟨er, hs⟩
  · rw [er, Option.bind_some]
    rcases evenLoop_exact ho hp r fun m hm => by
        obtain ⟨mv, h2, h3, -⟩ := (h1 m).mp hm; exact ⟨mv, h2, h3⟩ with ⟨b, eb, hb⟩ | h
    · refine .inl ⟨b, eb, hb.trans ⟨fun ha => ⟨hin, fun m hm hk => ha m ((h1 _).mpr ⟨m, rfl, hm, hk⟩)⟩, fun ha mv hmem => ?_⟩⟩
      obtain ⟨mv2, e2, h4, h5⟩ := (h1 _).mp hmem
      rw [encode_inj p e2]
      exact ha.2 mv2 h4 h5
    · exact .inr h
  · rw [er]; exact .inr ⟨rfl, hs.mono (by omega)⟩

theorem evenPly_exact {Z : Zobrist} (n : Nat) : ∀ (fuel : Nat), n + 1 ≤ fuel → ∀ {p : Position}, Sound Z p → (absPos p).InCheck p.turn →
    Exact Z (2 * n + 1) (Caught (shogi Z) keenReply Found1 n p) p (evenPly Z fuel (2 * (n + 1) : Nat) p) := by
  induction n using Nat.strong_induction_on with
  | _ n ih =>
    intro fuel hf p hp hin
    obtain ⟨fuel, rfl⟩ : ∃ f, fuel = f + 1 := ⟨fuel - 1, by omega⟩
    rw [evenPly]
    match n, ih, hf with
    | 0, _, _ =>
      rw [Caught]
      refine even_exact (k := 0) ?_ hp hin
      intro q b hq hb
      unfold afterEven
      rw [if_neg (by decide), if_pos (by rfl)]
      cases b
      · have hn : ¬ (absPos q).InCheck q.turn := fun h => absurd (hb.mpr h) (by decide)
        obtain ⟨r, er, -⟩ := mate1_res hq hn keenReply
        rw [if_neg (by decide), er]
        refine .inl ⟨_, rfl, fun h => ⟨hn, r, er, of_decide_eq_true h⟩, ?_⟩
        rintro ⟨-, m, em, hne⟩
        rw [er] at em; cases em
        exact decide_eq_true hne
      · exact .inl ⟨false, rfl, (fun h => by cases h), fun h => absurd (hb.mp rfl) h.1⟩
    | 1, _, _ =>
      rw [Caught]
      refine even_exact (k := 2) ?_ hp hin
      intro q b hq hb
      unfold afterEven
      rw [if_pos (by rfl)]
      rcases mate3_exact hq hb with h | ⟨eb, hs⟩
      · exact .inl h
      · exact .inr ⟨eb, hs.mono (by omega)⟩
    | n + 2, ih, hf =>
      rw [Caught]
      refine even_exact (k := 2 * (n + 1) + 1 + 1) ?_ hp hin
      intro q b hq hb
      unfold afterEven
      rw [if_neg (by push_cast; omega), if_neg (by push_cast; omega)]
      have hdep : ((2 * (n + 2 + 1) : Nat) : Int) - 2 = (2 * (n + 1 + 1) : Nat) := by push_cast; omega
      beta_reduce
      rw [hdep]
      have main := odd_exact (fun q hq hin => ih (n + 1) (by omega) fuel (by omega) hq hin) hq hb
      have assoc : ((orPicker q b).bind fun l => (oddLoop Z (evenPly Z fuel (2 * (n + 1 + 1) : Nat)) l q).map fun r => (r.1.isSome, r.2)) =
          ((orPicker q b).bind fun l => oddLoop Z (evenPly Z fuel (2 * (n + 1 + 1) : Nat)) l q).map fun r => (r.1.isSome, r.2) := by
        rcases orPicker q b with _ | l <;> rfl
      rw [assoc]
      rcases main with ⟨o, eo, h1, h2⟩ | ⟨eo, hs⟩
      · rw [eo]
        refine .inl ⟨o.isSome, rfl, fun h => ?_, ?_⟩
        · obtain ⟨m, rfl⟩ := Option.isSome_iff_exists.mp h
          obtain ⟨mv, -, hmv⟩ := h2 m rfl
          exact ⟨mv, hmv⟩
        · rintro ⟨mv, hmv⟩
          cases o with
          | none => exact absurd hmv (h1 rfl mv)
          | some m => rfl
      · rw [eo]; exact .inr ⟨rfl, hs⟩

end Verif
