import Verif.Lemmas.MateSearch
import Verif.Lemmas.Repetition

/-!
# The mate search: soundness of the loops
-/

namespace Verif
open Spec Bitboard Position

/-- How `is_draw` names a verdict. -/
def Verdict.rep : Verdict → Repetition
  | .new => .none | .draw => .draw | .win => .win | .lose => .lose | .superior => .superior | .inferior => .inferior

/-- The game of the library: positions with their history, `push`, and `is_draw(16)` as the judge. -/
def shogi (Z : Zobrist) : GameTree Position where
  view := absPos
  next p m p' := doMove Z p (encode p m) = some p'
  judge p v := p.isDraw 16 = some (Verdict.rep v)

/-- `q` is reached from `p` by at most the given number of legal moves. -/
inductive Reaches (Z : Zobrist) : Nat → Position → Position → Prop
  | refl (k p) : Reaches Z k p p
  | step {k p p' q} (m : Mv) : (absPos p).Legal m → doMove Z p (encode p m) = some p' → Reaches Z k p' q → Reaches Z (k + 1) p q

/-- A list of moves that the search writes is longer than its buffer. -/
def Overrun (p : Position) : Prop :=
  ((absPos p).InCheck p.turn ∧ ∃ l, genEvasion p false = some l ∧ 91 < l.length) ∨
  ∃ k, p.kingSquare p.turn.opp = some k ∧ (91 < (boardChecks p true k).length ∨ ∃ l, genCheck p true = some l ∧ 91 < l.length)

/-- Some position reached by at most `k` legal moves overruns the buffer. -/
def Spill (Z : Zobrist) (k : Nat) (p : Position) : Prop := ∃ q, Reaches Z k p q ∧ Overrun q

theorem Reaches.mono {Z : Zobrist} {k : Nat} {p q : Position} (h : Reaches Z k p q) {k' : Nat} (hk : k ≤ k') : Reaches Z k' p q := by
  induction h generalizing k' with
  | refl => exact .refl _ _
  | step m h1 h2 _ ih =>
    obtain ⟨j, rfl⟩ : ∃ j, k' = j + 1 := ⟨k' - 1, by omega⟩
    exact .step m h1 h2 (ih (by omega))

theorem Spill.mono {Z : Zobrist} {k k' : Nat} {p : Position} (h : Spill Z k p) (hk : k ≤ k') : Spill Z k' p := by
  obtain ⟨q, h1, h2⟩ := h
  exact ⟨q, h1.mono hk, h2⟩

theorem Spill.step {Z : Zobrist} {k : Nat} {p p' : Position} {m : Mv} (hm : (absPos p).Legal m) (he : doMove Z p (encode p m) = some p')
    (h : Spill Z k p') : Spill Z (k + 1) p := by
  obtain ⟨q, h1, h2⟩ := h
  exact ⟨q, .step m hm he h1, h2⟩

theorem Spill.here {Z : Zobrist} {k : Nat} {p : Position} (h : Overrun p) : Spill Z k p := ⟨p, .refl k p, h⟩

/-- One move. -/
theorem Sound.step {Z : Zobrist} {p : Position} (hp : Sound Z p) {mv : Mv} (hm : (absPos p).Legal mv) :
    ∃ p', doMove Z p (encode p mv) = some p' ∧ doMoveGC Z p (encode p mv) (p.moveGivesCheck (encode p mv)) = some p' ∧ Sound Z p' ∧
      absPos p' = (absPos p).play mv ∧ undoMove p' (encode p mv) = some p ∧ p'.turn = p.turn.opp ∧
      (p.moveGivesCheck (encode p mv) = true ↔ (absPos p').InCheck p'.turn) := by
  obtain ⟨p', e, h1, h2, h3, h4, h5⟩ := doMove_safe Z hp.inv hp.regular.waiting hm.1
  obtain ⟨r1, r2, r3, -⟩ := doMove_record e
  refine ⟨p', e, e, ⟨h1, h2, ?_, ?_⟩, h4, h5, r3, ?_⟩
  · rw [h4]; exact Regular.play hp.regular hm.1
  · rw [r1, r2, List.length_cons]; have := hp.plies; push_cast; omega
  · rw [r3, h4]; exact C22_moveGivesCheck p hp.inv.views hp.regular.waiting mv hm.1

/-- What a part of the search returns: the same position and a right answer, or it overruns a buffer somewhere. -/
def Res (Z : Zobrist) (k : Nat) (P : Prop) (p : Position) (o : Option (Bool × Position)) : Prop :=
  (∃ b, o = some (b, p) ∧ (b = true → P)) ∨ (o = none ∧ Spill Z k p)

theorem mate1_res {Z : Zobrist} {p : Position} (hp : Sound Z p) (hn : ¬ (absPos p).InCheck p.turn) (allow : Pos → Mv → Prop) :
    ∃ r, p.mateMoveIn1Ply = some r ∧ (r ≠ 0#32 → MatesIn allow 0 (absPos p)) := by
  obtain ⟨r, e, h⟩ := C55_mate1_partial p hp.inv.views hp.regular hn
  refine ⟨r, e, fun hne => ?_⟩
  obtain ⟨mv, h1, h2, -⟩ := h hne
  exact ⟨mv, h1, h2⟩

theorem replies3_res {Z : Zobrist} {p : Position} (hp : Sound Z p) (l : List Move)
    (hl : ∀ m ∈ l, ∃ mv, m = encode p mv ∧ (absPos p).Legal mv) :
    ∃ b, replies3 Z l p = some (b, p) ∧ (b = true → ∀ mv, encode p mv ∈ l → MatesIn keenReply 0 ((absPos p).play mv)) := by
  induction l with
  | nil => exact ⟨true, rfl, fun _ mv h => absurd h (by simp)⟩
  | cons m l ih =>
    obtain ⟨mv, e, hm⟩ := hl m List.mem_cons_self
    obtain ⟨b, e1, hb⟩ := ih fun m hm => hl m (List.mem_cons_of_mem _ hm)
    obtain ⟨p', s1, s2, s3, s4, s5, s6, s7⟩ := hp.step hm
    rw [replies3]
    split
    · exact ⟨false, rfl, fun h => by cases h⟩
    · rename_i hg
      rw [Bool.not_eq_true, e] at hg
      rw [hg] at s2 s7
      obtain ⟨r, er, hr⟩ := mate1_res s3 (fun h => absurd (s7.mpr h) (by decide)) keenReply
      rw [e, s2, Option.bind_some, er, Option.bind_some, s5, Option.bind_some]
      split
      · exact ⟨false, rfl, fun h => by cases h⟩
      · rename_i hne
        refine ⟨b, e1, fun hbt mv' hmem => ?_⟩
        rcases List.mem_cons.mp hmem with h | h
        · rw [encode_inj p h, ← s4]; exact hr hne
        · exact hb hbt mv' h

/-- The overrun cases of the two lists. -/
theorem andPicker_res {Z : Zobrist} {p : Position} (hp : Sound Z p) (hin : (absPos p).InCheck p.turn) :
    (∃ r, andPicker p = some r ∧ (∀ m ∈ r, ∃ mv, m = encode p mv ∧ (absPos p).Legal mv) ∧
      ∀ mv, (absPos p).Legal mv → keenReply (absPos p) mv → encode p mv ∈ r) ∨ (andPicker p = none ∧ Spill Z 0 p) := by
  obtain ⟨l, hl, h1, h2⟩ := andPicker_sound hp hin
  by_cases hn : l.length ≤ 91
  · exact .inl (h2 hn)
  · exact .inr ⟨h1 (by omega), .here (.inl ⟨hin, l, hl, by omega⟩)⟩

theorem orPicker_res {Z : Zobrist} {p : Position} (hp : Sound Z p) {b : Bool} (hb : b = true ↔ (absPos p).InCheck p.turn) :
    (∃ r, orPicker p b = some r ∧ ∀ m ∈ r, ∃ mv, m = encode p mv ∧ (absPos p).Legal mv ∧ ((absPos p).play mv).InCheck p.turn.opp) ∨
      (orPicker p b = none ∧ Spill Z 0 p) := by
  rcases ho : orPicker p b with _ | l
  · refine .inr ⟨rfl, .here (.inr ?_)⟩
    obtain ⟨k, hk⟩ := kings_of hp.inv.views hp.regular p.turn.opp
    obtain ⟨k', hk'⟩ := kings_of hp.inv.views hp.regular p.turn
    obtain ⟨g, hg, -⟩ := genCheck_sound hp.inv.views hk hp.regular.waiting true
    refine ⟨k, hk, ?_⟩
    by_cases h1 : (boardChecks p true k).length ≤ 91
    · refine .inr ⟨g, hg, ?_⟩
      by_contra h2
      unfold orPicker fits maxCheckMoves at ho
      rw [hk] at ho
      dsimp only at ho
      rw [if_pos h1, Option.bind_some, hg, Option.bind_some, if_pos (by omega), Option.bind_some, hk'] at ho
      split at ho <;> cases ho
    · exact .inl (by omega)
  · exact .inl ⟨l, rfl, orPicker_sound hp hb ho⟩

theorem checks3_res {Z : Zobrist} {p : Position} (hp : Sound Z p) (l : List Move)
    (hl : ∀ m ∈ l, ∃ mv, m = encode p mv ∧ (absPos p).Legal mv ∧ ((absPos p).play mv).InCheck p.turn.opp) :
    Res Z 1 (MatesIn keenReply 1 (absPos p)) p (checks3 Z l p) := by
  induction l with
  | nil => exact .inl ⟨false, rfl, fun h => by cases h⟩
  | cons m l ih =>
    obtain ⟨mv, e, hm, hc⟩ := hl m List.mem_cons_self
    have ih := ih fun m hm => hl m (List.mem_cons_of_mem _ hm)
    obtain ⟨p', s1, s2, s3, s4, s5, s6, s7⟩ := hp.step hm
    have hin : (absPos p').InCheck p'.turn := by rw [s4, s6]; exact hc
    rw [s7.mpr hin] at s2
    rw [checks3, e, s2, Option.bind_some]
    rcases andPicker_res s3 hin with ⟨r, er, h1, h2⟩ | ⟨er, hs⟩
    · obtain ⟨b, eb, hb⟩ := replies3_res s3 r h1
      rw [er, Option.bind_some, eb, Option.bind_some, s5, Option.bind_some]
      cases b
      · exact ih
      · refine .inl ⟨true, rfl, fun _ => ⟨mv, hm, ?_⟩⟩
        rw [← s4]
        exact ⟨hin, fun m' hm' hk => hb rfl m' (h2 m' hm' hk)⟩
    · rw [er]
      exact .inr ⟨rfl, .step hm s1 hs⟩

theorem mate3_res {Z : Zobrist} {p : Position} (hp : Sound Z p) {b : Bool} (hb : b = true ↔ (absPos p).InCheck p.turn) :
    Res Z 1 (MatesIn keenReply 1 (absPos p)) p (mateMoveIn3Ply Z b p) := by
  unfold mateMoveIn3Ply
  rcases orPicker_res hp hb with ⟨r, er, h1⟩ | ⟨er, hs⟩
  · rw [er]; exact checks3_res hp r h1
  · rw [er]; exact .inr ⟨rfl, hs.mono (by omega)⟩

/-! ### The general search -/

theorem isDraw_some {Z : Zobrist} {p : Position} (hp : Sound Z p) : ∃ d, p.isDraw 16 = some d := by
  have := isDraw_safe hp.plies 16
  rcases h : p.isDraw 16 with _ | d
  · exact absurd h this
  · exact ⟨d, rfl⟩

/-- The loop over the checks. -/
theorem oddLoop_res {Z : Zobrist} {n k : Nat} {even : Position → Option (Bool × Position)}
    (he : ∀ q, Sound Z q → (absPos q).InCheck q.turn → Res Z k (GLosesIn (shogi Z) keenReply n q) q (even q))
    {p : Position} (hp : Sound Z p) (l : List Move)
    (hl : ∀ m ∈ l, ∃ mv, m = encode p mv ∧ (absPos p).Legal mv ∧ ((absPos p).play mv).InCheck p.turn.opp) :
    (∃ o, oddLoop Z even l p = some (o, p) ∧ ∀ m, o = some m → ∃ mv, m = encode p mv ∧ GMatesBy (shogi Z) keenReply n p mv) ∨
      (oddLoop Z even l p = none ∧ Spill Z (k + 1) p) := by
  induction l with
  | nil => exact .inl ⟨none, rfl, fun _ h => by cases h⟩
  | cons m l ih =>
    obtain ⟨mv, e, hm, hc⟩ := hl m List.mem_cons_self
    have ih := ih fun m hm => hl m (List.mem_cons_of_mem _ hm)
    obtain ⟨p', s1, s2, s3, s4, s5, s6, s7⟩ := hp.step hm
    have hin : (absPos p').InCheck p'.turn := by rw [s4, s6]; exact hc
    rw [s7.mpr hin] at s2
    obtain ⟨d, hd⟩ := isDraw_some s3
    rw [oddLoop, e, s2, Option.bind_some, hd, Option.bind_some]
    have next : (d = .none ∨ d = .inferior) →
        (∃ o, ((even p').bind fun r => (undoMove r.2 (encode p mv)).bind fun p => if r.1 then some (some m, p) else oddLoop Z even l p) =
          some (o, p) ∧ ∀ m, o = some m → ∃ mv, m = encode p mv ∧ GMatesBy (shogi Z) keenReply n p mv) ∨
        (((even p').bind fun r => (undoMove r.2 (encode p mv)).bind fun p => if r.1 then some (some m, p) else oddLoop Z even l p) = none ∧
          Spill Z (k + 1) p) := by
      intro hd'
      rcases he p' s3 hin with ⟨b, eb, hb⟩ | ⟨eb, hs⟩
      · rw [eb, Option.bind_some, s5, Option.bind_some]
        cases b
        · exact ih
        · refine .inl ⟨some m, rfl, fun m' hm' => ⟨mv, by cases hm'; exact e, hm, p', s1, .inr ⟨?_, hb rfl⟩⟩⟩
          rcases hd' with rfl | rfl
          · exact .inl hd
          · exact .inr hd
      · rw [eb]; exact .inr ⟨rfl, .step hm s1 hs⟩
    rw [e] at next
    cases d
    · exact next (.inl rfl)
    · simp only [afterCheck]; rw [s5, Option.bind_some]; exact ih
    · simp only [afterCheck]; rw [s5, Option.bind_some]; exact ih
    · simp only [afterCheck]; rw [s5]
      exact .inl ⟨some (encode p mv), rfl, fun m' hm' => ⟨mv, by cases hm'; rfl, hm, p', s1, .inl hd⟩⟩
    · simp only [afterCheck]; rw [s5, Option.bind_some]; exact ih
    · exact next (.inr rfl)

/-- What is asked after a reply. -/
def AfterReply (Z : Zobrist) (n : Nat) (p : Position) : Prop :=
  n ≤ 1 ∧ MatesIn keenReply n (absPos p) ∨ 2 ≤ n ∧ ∃ m, GMatesBy (shogi Z) keenReply n p m

theorem evenLoop_res {Z : Zobrist} {n k : Nat} {depth : Int} {odd : Bool → Position → Option (Bool × Position)}
    (ho : ∀ q b, Sound Z q → (b = true ↔ (absPos q).InCheck q.turn) → Res Z k (AfterReply Z n q) q (afterEven Z depth odd b q))
    {p : Position} (hp : Sound Z p) (l : List Move) (hl : ∀ m ∈ l, ∃ mv, m = encode p mv ∧ (absPos p).Legal mv) :
    Res Z (k + 1) (∀ mv, encode p mv ∈ l → ∃ s', (shogi Z).next p mv s' ∧ ((shogi Z).judge s' .win ∨
      ((shogi Z).judge s' .new ∨ (shogi Z).judge s' .superior) ∧ AfterReply Z n s')) p (evenLoop Z depth odd l p) := by
  induction l with
  | nil => exact .inl ⟨true, rfl, fun _ mv h => absurd h (by simp)⟩
  | cons m l ih =>
    obtain ⟨mv, e, hm⟩ := hl m List.mem_cons_self
    have ih := ih fun m hm => hl m (List.mem_cons_of_mem _ hm)
    obtain ⟨p', s1, s2, s3, s4, s5, s6, s7⟩ := hp.step hm
    obtain ⟨d, hd⟩ := isDraw_some s3
    rw [evenLoop, e, s2, Option.bind_some, hd, Option.bind_some]
    have cont : ((shogi Z).judge p' .win ∨ ((shogi Z).judge p' .new ∨ (shogi Z).judge p' .superior) ∧ AfterReply Z n p') →
        Res Z (k + 1) (∀ mv', encode p mv' ∈ encode p mv :: l → ∃ s', (shogi Z).next p mv' s' ∧ ((shogi Z).judge s' .win ∨
          ((shogi Z).judge s' .new ∨ (shogi Z).judge s' .superior) ∧ AfterReply Z n s')) p (evenLoop Z depth odd l p) := by
      intro hj
      rcases ih with ⟨b, eb, hb⟩ | ⟨eb, hs⟩
      · refine .inl ⟨b, eb, fun hbt mv' hmem => ?_⟩
        rcases List.mem_cons.mp hmem with h | h
        · rw [encode_inj p h]; exact ⟨p', s1, hj⟩
        · exact hb hbt mv' h
      · exact .inr ⟨eb, hs⟩
    have next : ((shogi Z).judge p' .new ∨ (shogi Z).judge p' .superior) →
        Res Z (k + 1) (∀ mv', encode p mv' ∈ encode p mv :: l → ∃ s', (shogi Z).next p mv' s' ∧ ((shogi Z).judge s' .win ∨
          ((shogi Z).judge s' .new ∨ (shogi Z).judge s' .superior) ∧ AfterReply Z n s')) p
          ((afterEven Z depth odd (p.moveGivesCheck (encode p mv)) p').bind fun r => (undoMove r.2 (encode p mv)).bind fun p =>
            if r.1 then evenLoop Z depth odd l p else some (false, p)) := by
      intro hj
      rcases ho p' _ s3 s7 with ⟨b, eb, hb⟩ | ⟨eb, hs⟩
      · rw [eb, Option.bind_some, s5, Option.bind_some]
        cases b
        · exact .inl ⟨false, rfl, fun h => by cases h⟩
        · exact cont (.inr ⟨hj, hb rfl⟩)
      · rw [eb]; exact .inr ⟨rfl, .step hm s1 hs⟩
    cases d
    · exact next (.inl hd)
    · simp only [afterReply]; rw [s5]; exact .inl ⟨false, rfl, fun h => by cases h⟩
    · simp only [afterReply]; rw [s5, Option.bind_some]; exact cont (.inl hd)
    · simp only [afterReply]; rw [s5]; exact .inl ⟨false, rfl, fun h => by cases h⟩
    · exact next (.inr hd)
    · simp only [afterReply]; rw [s5]; exact .inl ⟨false, rfl, fun h => by cases h⟩

theorem evenPly_res {Z : Zobrist} (n : Nat) : ∀ (fuel : Nat), n + 1 ≤ fuel → ∀ {p : Position}, Sound Z p → (absPos p).InCheck p.turn →
    Res Z (2 * n + 1) (GLosesIn (shogi Z) keenReply (n + 1) p) p (evenPly Z fuel (2 * (n + 1) : Nat) p) := by
  induction n using Nat.strong_induction_on with
  | _ n ih =>
    intro fuel hf p hp hin
    obtain ⟨fuel, rfl⟩ : ∃ f, fuel = f + 1 := ⟨fuel - 1, by omega⟩
    rw [evenPly]
    rcases andPicker_res hp hin with ⟨r, er, h1, h2⟩ | ⟨er, hs⟩
    swap
    · rw [er]; exact .inr ⟨rfl, hs.mono (by omega)⟩
    rw [er, Option.bind_some]
    have main := evenLoop_res (Z := Z) (n := n) (k := 2 * n) (depth := (2 * (n + 1) : Nat)) (odd := fun inCheck q => (orPicker q inCheck).bind fun l =>
        (oddLoop Z (evenPly Z fuel ((2 * (n + 1) : Nat) - 2)) l q).map fun r => (r.1.isSome, r.2)) ?_ hp r h1
    · rcases main with ⟨b, eb, hb⟩ | ⟨eb, hs⟩
      · refine .inl ⟨b, eb, fun hbt => ⟨hin, fun m hm hk => ?_⟩⟩
        obtain ⟨s', hs1, hs2⟩ := hb hbt m (h2 m hm hk)
        refine ⟨s', hs1, ?_⟩
        rcases hs2 with hs2 | ⟨hs2, ⟨hn, hs3⟩ | ⟨hn, m', hm', s'', hs4, hs5⟩⟩
        · exact .inl hs2
        · exact .inr ⟨hs2, .inl ⟨hn, hs3⟩⟩
        · exact .inr ⟨hs2, .inr ⟨hn, m', hm', s'', hs4, hs5⟩⟩
      · exact .inr ⟨eb, hs⟩
    · intro q b hq hb
      unfold afterEven
      by_cases h0 : n = 0
      · subst h0
        rw [if_neg (by decide), if_pos (by rfl)]
        cases b
        · obtain ⟨r, er, hr⟩ := mate1_res hq (fun h => absurd (hb.mpr h) (by decide)) keenReply
          rw [if_neg (by decide), er]
          exact .inl ⟨_, rfl, fun h => .inl ⟨by omega, hr (of_decide_eq_true h)⟩⟩
        · exact .inl ⟨false, rfl, fun h => by cases h⟩
      · by_cases h1 : n = 1
        · subst h1
          rw [if_pos (by rfl)]
          rcases mate3_res hq hb with ⟨b', eb, hb'⟩ | ⟨eb, hs⟩
          · exact .inl ⟨b', eb, fun h => .inl ⟨le_refl _, hb' h⟩⟩
          · exact .inr ⟨eb, hs.mono (by omega)⟩
        · rw [if_neg (by push_cast; omega), if_neg (by push_cast; omega)]
          obtain ⟨k, rfl⟩ : ∃ k, n = k + 2 := ⟨n - 2, by omega⟩
          have hdep : ((2 * (k + 2 + 1) : Nat) : Int) - 2 = (2 * (k + 1 + 1) : Nat) := by push_cast; omega
          beta_reduce
          rw [hdep]
          rcases orPicker_res hq hb with ⟨r, er, h1⟩ | ⟨er, hs⟩
          · rw [er, Option.bind_some]
            rcases oddLoop_res (n := k + 1 + 1) (fun q hq hin => ih (k + 1) (by omega) fuel (by omega) hq hin) hq r h1 with ⟨o, eo, ho⟩ | ⟨eo, hs⟩
            · rw [eo]
              refine .inl ⟨o.isSome, rfl, fun h => .inr ⟨by omega, ?_⟩⟩
              obtain ⟨m, rfl⟩ := Option.isSome_iff_exists.mp h
              obtain ⟨mv, -, hmv⟩ := ho m rfl
              exact ⟨mv, hmv⟩
            · rw [eo]; exact .inr ⟨rfl, hs.mono (by omega)⟩
          · rw [er]; exact .inr ⟨rfl, hs.mono (by omega)⟩

/-! ### The position is left as it was, whatever the depth -/

theorem Res.same {Z : Zobrist} {k : Nat} {P : Prop} {p : Position} {o : Option (Bool × Position)} (h : Res Z k P p o)
    {r : Bool × Position} (e : o = some r) : r.2 = p := by
  rcases h with ⟨b, e', -⟩ | ⟨e', -⟩
  · rw [e] at e'; cases e'; rfl
  · rw [e] at e'; cases e'

theorem oddLoop_same {Z : Zobrist} {even : Position → Option (Bool × Position)}
    (he : ∀ q r, Sound Z q → (absPos q).InCheck q.turn → even q = some r → r.2 = q) {p : Position} (hp : Sound Z p) (l : List Move)
    (hl : ∀ m ∈ l, ∃ mv, m = encode p mv ∧ (absPos p).Legal mv ∧ ((absPos p).play mv).InCheck p.turn.opp) {r : Option Move × Position}
    (e : oddLoop Z even l p = some r) : r.2 = p := by
  induction l with
  | nil => cases e; rfl
  | cons m l ih =>
    obtain ⟨mv, em, hm, hc⟩ := hl m List.mem_cons_self
    have ih := ih fun m hm => hl m (List.mem_cons_of_mem _ hm)
    obtain ⟨p', s1, s2, s3, s4, s5, s6, s7⟩ := hp.step hm
    have hin : (absPos p').InCheck p'.turn := by rw [s4, s6]; exact hc
    rw [s7.mpr hin] at s2
    obtain ⟨d, hd⟩ := isDraw_some s3
    rw [oddLoop, em, s2, Option.bind_some, hd, Option.bind_some] at e
    have stop : (undoMove p' (encode p mv)).bind (fun p => oddLoop Z even l p) = some r → r.2 = p := by
      intro e
      rw [s5, Option.bind_some] at e
      exact ih e
    have on : ((even p').bind fun r => (undoMove r.2 (encode p mv)).bind fun p'' =>
        if r.1 then some (some (encode p mv), p'') else oddLoop Z even l p'') = some r → r.2 = p := by
      intro e
      obtain ⟨r', e1, e⟩ := Option.bind_eq_some_iff.mp e
      rw [he p' r' s3 hin e1, s5, Option.bind_some] at e
      split at e
      · cases e; rfl
      · exact ih e
    cases d
    · exact on e
    · exact stop e
    · exact stop e
    · simp only [afterCheck] at e; rw [s5] at e; cases e; rfl
    · exact stop e
    · exact on e

theorem evenLoop_same {Z : Zobrist} {depth : Int} {odd : Bool → Position → Option (Bool × Position)}
    (ho : ∀ q b r, Sound Z q → (b = true ↔ (absPos q).InCheck q.turn) → odd b q = some r → r.2 = q)
    {p : Position} (hp : Sound Z p) (l : List Move) (hl : ∀ m ∈ l, ∃ mv, m = encode p mv ∧ (absPos p).Legal mv) {r : Bool × Position}
    (e : evenLoop Z depth odd l p = some r) : r.2 = p := by
  induction l with
  | nil => cases e; rfl
  | cons m l ih =>
    obtain ⟨mv, em, hm⟩ := hl m List.mem_cons_self
    have ih := ih fun m hm => hl m (List.mem_cons_of_mem _ hm)
    obtain ⟨p', s1, s2, s3, s4, s5, s6, s7⟩ := hp.step hm
    obtain ⟨d, hd⟩ := isDraw_some s3
    rw [evenLoop, em, s2, Option.bind_some, hd, Option.bind_some] at e
    have next : ∀ r', afterEven Z depth odd (p.moveGivesCheck (encode p mv)) p' = some r' → r'.2 = p' := by
      intro r' e
      unfold afterEven at e
      split at e
      · exact (mate3_res s3 s7).same e
      · split at e
        · split at e
          · cases e; rfl
          · obtain ⟨_, -, e⟩ := Option.map_eq_some_iff.mp e
            rw [← e]
        · exact ho p' _ r' s3 s7 e
    have on : ((afterEven Z depth odd (p.moveGivesCheck (encode p mv)) p').bind fun r => (undoMove r.2 (encode p mv)).bind fun p =>
        if r.1 then evenLoop Z depth odd l p else some (false, p)) = some r → r.2 = p := by
      intro e
      obtain ⟨r', e1, e⟩ := Option.bind_eq_some_iff.mp e
      rw [next r' e1, s5, Option.bind_some] at e
      split at e
      · exact ih e
      · cases e; rfl
    have stop : (undoMove p' (encode p mv)).map (fun p => (false, p)) = some r → r.2 = p := by
      intro e
      rw [s5] at e; cases e; rfl
    have cont : (undoMove p' (encode p mv)).bind (fun p => evenLoop Z depth odd l p) = some r → r.2 = p := by
      intro e
      rw [s5, Option.bind_some] at e; exact ih e
    cases d
    · exact on e
    · exact stop e
    · exact cont e
    · exact stop e
    · exact on e
    · exact stop e

theorem evenPly_same {Z : Zobrist} (fuel : Nat) : ∀ (depth : Int) {p : Position} {r : Bool × Position}, Sound Z p →
    (absPos p).InCheck p.turn → evenPly Z fuel depth p = some r → r.2 = p := by
  induction fuel with
  | zero => intro depth p r hp hin e; cases e
  | succ fuel ih =>
    intro depth p r hp hin e
    rw [evenPly] at e
    rcases andPicker_res hp hin with ⟨l, el, h1, -⟩ | ⟨el, -⟩
    · rw [el, Option.bind_some] at e
      refine evenLoop_same (fun q b r hq hb e => ?_) hp l h1 e
      rcases orPicker_res hq hb with ⟨l, el, h1⟩ | ⟨el, -⟩
      · rw [el, Option.bind_some] at e
        obtain ⟨r', e1, e⟩ := Option.map_eq_some_iff.mp e
        rw [← e]
        exact oddLoop_same (fun q r hq hin e => ih _ hq hin e) hq l h1 e1
      · rw [el] at e; cases e
    · rw [el] at e; cases e

end Verif
