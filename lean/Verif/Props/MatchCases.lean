import Verif.Props.Match
import Verif.Props.Features

/-!
# C77: games that the match runner judges wrongly
-/

namespace Verif.Match
open Spec Bitboard Position

/-! ### Games from the starting position -/

/-- Just a move. -/
def plain (mv : Mv) : Said := ⟨.move mv, none, 0⟩

/-- No clocks. -/
def noClock : Color → Option Int := fun _ => none

/-- No position comes up for the fourth time. -/
def noFourB (P : Pos) (h : List Pos) : List Mv → Bool
  | [] => true
  | mv :: mvs => decide ((P.play mv :: P :: h).countP (fun r => sameB r (P.play mv)) ≠ 4) && noFourB (P.play mv) (P :: h) mvs

theorem charge_noClock (R : Rules) (c : Color) (s : Said) : R.charge noClock c s = noClock := by
  funext c'
  unfold Rules.charge noClock
  split <;> rfl

theorem overrun_noClock (R : Rules) (c : Color) (s : Said) : ¬ R.Overrun noClock c s := by
  rintro ⟨t, h, -⟩; cases h

theorem plain_quiet {R : Rules} (h1 : R.resign = none) (mv : Mv) : ¬ R.GivesUp (plain mv) ∧ ¬ R.Announces (plain mv) := by
  constructor
  · rintro (h | ⟨n, x, h, -⟩)
    · cases h
    · rw [h1] at h; cases h
  · rintro ⟨-, h⟩; cases h

/-- A game goes on along a line. -/
theorem ends_line {R : Rules} (h1 : R.resign = none) {ss : List Said} {r : Result} : ∀ (mvs : List Mv) {P : Pos} {h : List Pos}, P.Line mvs →
    (∃ mv, (P.after mvs).Legal mv) → (h.length + mvs.length : Int) ≤ R.limit → noFourB P h mvs = true →
    (∀ t, P.record h mvs = P.after mvs :: t → Ends R noClock (P.after mvs) t ss r) → Ends R noClock P h (mvs.map plain ++ ss) r
  | [], P, h, _, _, _, _, hE => hE h rfl
  | mv :: mvs, P, h, hl, hx, hlim, hf, hE => by
    unfold noFourB at hf
    rw [Bool.and_eq_true, decide_eq_true_eq, ← occurrences_sameB] at hf
    simp only [List.length_cons] at hlim
    have hnext : ∃ mv', (P.play mv).Legal mv' := by
      cases mvs with
      | nil => exact hx
      | cons mv' _ => exact ⟨mv', hl.2.1⟩
    obtain ⟨mv', hnext⟩ := hnext
    refine .next _ _ _ _ _ mv mv' _ (by push_cast at hlim; omega) (overrun_noClock _ _ _) (plain_quiet h1 mv).1 rfl hl.1 (plain_quiet h1 mv).2 hf.1 hnext ?_
    rw [charge_noClock]
    exact ends_line h1 mvs hl.2 hx (by simp only [List.length_cons]; push_cast at hlim ⊢; omega) hf.2 hE

/-- A quiet repetition is a draw. -/
theorem repeated_quiet {P q : Pos} {h : List Pos} (h4 : occurrences q (q :: P :: h) = 4) (h0 : ¬ q.InCheck q.turn) (h1 : ¬ P.InCheck P.turn)
    (ht : q.turn = P.turn.opp) : Repeated q (P :: h) .draw := by
  intro d hd c hp
  have := occurrences_le hd.2
  by_cases e : q.turn = c.opp
  · exact h0 (by rw [e]; exact hp 0 (by omega) q rfl e)
  · have e' : P.turn = c.opp := by
      rw [ht] at e
      revert e
      cases P.turn <;> cases c <;> decide
    exact h1 (by rw [e']; exact hp 1 (by omega) P rfl e')

/-- The board after `reset()`. -/
def startGame : Position := setPieces mixKeys { clear with gamePly := 1 } (fun s => pieceCode (startBoard s)) (fun _ _ => 0)

theorem startGame_spec : Inv mixKeys startGame ∧ absPos startGame = startPos := by
  obtain ⟨h1, h2, h3, -⟩ := setPieces_spec mixKeys { clear with gamePly := 1 } startPos startBoard_oneKing (fun _ _ => Nat.zero_le _) (fun _ _ => 0)
    (fun _ _ => rfl)
  refine ⟨⟨h1, h2, ?_⟩, h3⟩
  show (absPos (setPieces mixKeys { clear with gamePly := 1 } (fun s => pieceCode (startPos.board s)) fun _ _ => 0)).InSet
  rw [h3]
  intro h; cases h <;> decide +kernel

theorem startGame_good : Csa.Good mixKeys startGame := by
  obtain ⟨h1, h2⟩ := startGame_spec
  have hr : (absPos startGame).Regular := by rw [h2]; exact startPos_regular
  exact ⟨h1, checkOK_find h1.views hr.waiting (setPieces_checkers _ _ _ _), hr⟩

theorem startGame_fresh : Fresh startGame ∧ startGame.gamePly = 1 := ⟨⟨fun c => by cases c <;> decide +kernel, by decide +kernel⟩, by decide +kernel⟩

/-- A quick test for legal lines. -/
def promotionB (q : Pos) : Mv → Bool
  | .move f t pro => match q.board f with
    | some (_, kd) => if pro then kd.promoted.isSome && decide (zone q.turn f ∨ zone q.turn t) else decide (¬ Dead q.turn kd t)
    | none => true
  | .drop h t => decide (¬ Dead q.turn h.kind t)

theorem promotionB_ok {q : Pos} {mv : Mv} (h : promotionB q mv = true) : PromotionOK q mv := by
  cases mv with
  | move f t pro =>
    intro kd hk
    simp only [promotionB, hk] at h
    cases pro
    · exact ⟨fun e => (nomatch e), fun _ => by simpa using h⟩
    · exact ⟨fun _ => by simpa using h, fun e => nomatch e⟩
  | drop k t =>
    have : ¬ Dead q.turn k.kind t := by simpa [promotionB] using h
    exact this

def legalB (Z : Zobrist) (p : Position) : List Mv → Bool
  | [] => true
  | mv :: mvs => promotionB (absPos p) mv && decide (p.isLegal (encode p mv) = some true) &&
    match doMove Z p (encode p mv) with | some p' => legalB Z p' mvs | none => false

theorem legalB_line {Z : Zobrist} : ∀ (mvs : List Mv) {p : Position}, Csa.Good Z p → legalB Z p mvs = true → (absPos p).Line mvs
  | [], _, _, _ => trivial
  | mv :: mvs, p, hg, h => by
    unfold legalB at h
    rw [Bool.and_eq_true, Bool.and_eq_true, decide_eq_true_eq] at h
    obtain ⟨⟨h0, h1⟩, h2⟩ := h
    obtain ⟨b, l, e1, -, -, e2⟩ := C27_is_legal_partial p hg.inv.views hg.check hg.regular mv (promotionB_ok h0)
    rw [e1] at h1
    have hl := e2.mp (Option.some.inj h1)
    obtain ⟨p', e2, g, a⟩ := hg.doMove hl
    rw [e2] at h2
    exact ⟨hl, by rw [← a]; exact legalB_line mvs g h2⟩

/-- Legal lines from the start. -/
theorem start_line {mvs : List Mv} (h : legalB mixKeys startGame mvs = true) : startPos.Line mvs := by
  have := legalB_line mvs startGame_good h
  rwa [startGame_spec.2] at this

/-- Checks after a legal line from the start. -/
theorem start_quiet {mvs : List Mv} (hl : startPos.Line mvs) {c : Color} (h : (afterB mixKeys startGame mvs).map (fun p' => inCheckB p' c) = some false) :
    ¬ (startPos.after mvs).InCheck c := by
  have := after_quiet startGame_good (by rw [startGame_spec.2]; exact hl) h
  rwa [startGame_spec.2] at this

theorem start_checked {mvs : List Mv} (hl : startPos.Line mvs) {c : Color} (h : (afterB mixKeys startGame mvs).map (fun p' => inCheckB p' c) = some true) :
    (startPos.after mvs).InCheck c := by
  obtain ⟨p', e, g, a⟩ := afterB_spec mvs startGame_good (by rw [startGame_spec.2]; exact hl)
  rw [e] at h
  simp only [Option.map_some, Option.some.injEq] at h
  rw [← startGame_spec.2, ← a, ← inCheckB_iff g.inv.views]
  exact h

/-- What the runner gives for a game from the start, without the board. -/
def outcome (R : Rules) (clock : Color → Option Int) (ss : List Said) : Out (Option (Option Color × String)) :=
  (game mixKeys (termsOf R) startGame clock (ss.map replyOf)).bind fun x => .ok (x.map (·.1))

/-- Only the number of plies is limited. -/
def upTo (n : Int) : Rules := ⟨n, none, false, fun _ => none, fun _ => 0⟩

/-- The rooks go to and fro. -/
def rooks : List Mv := [.move 16 25 false, .move 64 55 false, .move 25 16 false, .move 55 64 false]

def rooksTwice : List Mv := rooks ++ rooks ++ [.move 16 25 false, .move 64 55 false, .move 25 16 false]

/-- **C77** fails: the starting position comes up for the fourth time, and the game should be drawn; the runner does not count its first
occurrence and goes on. -/
theorem C77_fails : startPos.Line (rooksTwice ++ [.move 55 64 false]) ∧
    Ends (upTo 256) noClock startPos [] (rooksTwice.map plain ++ [plain (.move 55 64 false)]) .draw ∧
    outcome (upTo 256) noClock (rooksTwice.map plain ++ [plain (.move 55 64 false)]) = .ok none := by
  have hl : startPos.Line (rooksTwice ++ [.move 55 64 false]) := start_line (by decide +kernel)
  obtain ⟨h1, h2, -⟩ := line_append.mp hl
  refine ⟨hl, ends_line rfl _ h1 ⟨_, h2⟩ (by decide) (by decide +kernel) fun t ht => ?_, by decide +kernel⟩
  have ho : occurrences ((startPos.after rooksTwice).play (.move 55 64 false)) ((startPos.after rooksTwice).play (.move 55 64 false) :: startPos.after rooksTwice :: t) = 4 := by
    rw [occurrences_sameB, ← ht]; decide +kernel
  have hlen : t.length = 11 := by
    have : (startPos.record [] rooksTwice).length = 12 := by decide
    rw [ht] at this; simpa using this
  refine .repeated _ _ _ _ _ _ _ ?_ (overrun_noClock _ _ _) (plain_quiet rfl _).1 rfl h2 (plain_quiet rfl _).2 ho ?_
  · rw [hlen]; decide
  · refine repeated_quiet ho ?_ (start_quiet h1 (by decide +kernel)) (by decide +kernel)
    have := start_quiet hl (c := .black) (by decide +kernel)
    rw [after_append] at this
    exact this

/-- The bishop promotes on 3c with check and takes on 4c with check; then it goes to and fro with checks. -/
def perpetual : List Mv := [.move 60 59 false, .move 20 21 false, .move 70 20 true, .move 36 37 false, .move 20 29 false, .move 37 36 false,
  .move 29 20 false, .move 36 37 false, .move 20 29 false, .move 37 36 false,
  .move 29 20 false, .move 36 37 false, .move 20 29 false, .move 37 36 false,
  .move 29 20 false, .move 36 37 false]

/-- Where a position first stood. -/
theorem firstAt_eq {q : Pos} {l : List Pos} {n d : Nat} (h1 : (l[n]?).any (fun r => sameB r q) = true)
    (h2 : (l.drop (n + 1)).all (fun r => !sameB r q) = true) (hd : FirstAt q l d) : d = n := by
  have hn : l[n]? = some q := by
    rcases hx : l[n]? with _ | r
    · rw [hx] at h1; cases h1
    · rw [hx] at h1; rw [sameB_iff.mp h1]
  have := hd.2 n hn
  rcases Nat.lt_or_ge n d with h | h
  · have hm : q ∈ l.drop (n + 1) := by
      refine List.mem_of_getElem? (i := d - (n + 1)) ?_
      rw [List.getElem?_drop, show n + 1 + (d - (n + 1)) = d by omega]
      exact hd.1
    have := List.all_eq_true.mp h2 q hm
    rw [sameB_iff.mpr rfl] at this
    cases this
  · omega

/-- All of one side's moves gave check. -/
theorem perpetual_two {l : List Pos} {n : Nat} {c : Color} {q1 q2 : Pos} (h1 : q1.InCheck c.opp) (h2 : q2.InCheck c.opp)
    (h : (l.take n).all (fun r => decide (r.turn = c) || sameB r q1 || sameB r q2) = true) : Perpetual l c n := by
  intro j hj r hr ht
  have hm : r ∈ l.take n := by
    refine List.mem_of_getElem? (i := j) ?_
    rw [List.getElem?_take, if_pos hj]
    exact hr
  have := List.all_eq_true.mp h r hm
  simp only [Bool.or_eq_true, decide_eq_true_eq, sameB_iff] at this
  rcases this with (e | rfl) | rfl
  · rw [ht] at e; cases c <;> cases e
  · exact h1
  · exact h2

/-- **C77** fails: with the last ply that may be played Black repeats a position for the fourth time, always giving check, and loses by
the rules. The runner calls the game drawn. -/
theorem C77_fails_limit : startPos.Line (perpetual ++ [.move 20 29 false]) ∧
    Ends (upTo 17) noClock startPos [] (perpetual.map plain ++ [plain (.move 20 29 false)]) (.wins .white) ∧
    outcome (upTo 17) noClock (perpetual.map plain ++ [plain (.move 20 29 false)]) = .ok (some (none, "%JISHOGI")) := by
  have hl : startPos.Line (perpetual ++ [.move 20 29 false]) := start_line (by decide +kernel)
  obtain ⟨h1, h2, -⟩ := line_append.mp hl
  have h15 : startPos.Line (perpetual.take 15) := by
    have e : perpetual = perpetual.take 15 ++ perpetual.drop 15 := by decide
    rw [e] at h1; exact (line_append.mp h1).1
  have c0 := start_checked hl (c := .white) (by decide +kernel)
  rw [after_append] at c0
  have c1 := start_checked h15 (c := .white) (by decide +kernel)
  refine ⟨hl, ends_line rfl _ h1 ⟨_, h2⟩ (by decide) (by decide +kernel) fun t ht => ?_, by decide +kernel⟩
  obtain ⟨q, hq⟩ : ∃ q, q = (startPos.after perpetual).play (.move 20 29 false) := ⟨_, rfl⟩
  have ho : occurrences q (q :: startPos.after perpetual :: t) = 4 := by
    rw [occurrences_sameB, ← ht, hq]; decide +kernel
  have hlen : t.length = 16 := by
    have : (startPos.record [] perpetual).length = 17 := by decide
    rw [ht] at this; simpa using this
  refine .repeated _ _ _ _ _ _ _ ?_ (overrun_noClock _ _ _) (plain_quiet rfl _).1 rfl h2 (plain_quiet rfl _).2 (by rw [← hq]; exact ho) ?_
  · rw [hlen]; decide
  · rw [← hq]
    intro d hd
    have hd12 : d = 12 := firstAt_eq (by rw [← ht, hq]; decide +kernel) (by rw [← ht, hq]; decide +kernel) hd
    subst hd12
    refine ⟨perpetual_two (q1 := q) (q2 := startPos.after (perpetual.take 15)) (by rw [hq]; exact c0) c1 (by rw [← ht, hq]; decide +kernel), fun hp => ?_⟩
    exact start_quiet h1 (c := .black) (by decide +kernel) (hp 1 (by omega) _ rfl (by decide +kernel))

/-- **C77** fails: a mate announced with the last ply that may be played does not win. -/
theorem C77_fails_mate :
    Ends ⟨1, none, true, fun _ => none, fun _ => 0⟩ noClock startPos [] [⟨.move (.move 60 59 false), some 100000, 0⟩] (.wins .black) ∧
    outcome ⟨1, none, true, fun _ => none, fun _ => 0⟩ noClock [⟨.move (.move 60 59 false), some 100000, 0⟩] = .ok (some (none, "%JISHOGI")) := by
  have hl : startPos.Line [.move 60 59 false] := start_line (by decide +kernel)
  refine ⟨.announced _ _ _ _ _ _ (by decide) (overrun_noClock _ _ _) ?_ rfl hl.1 ⟨rfl, rfl⟩, by decide +kernel⟩
  rintro (h | ⟨n, x, h, -⟩) <;> cases h

/-- **C77** fails: a mate announced with an illegal move is not refused; no move is made on the board, and what happens then is
undefined. -/
theorem C77_fails_garbage : ¬ startPos.Legal (.move 60 58 false) ∧
    Ends ⟨256, none, true, fun _ => none, fun _ => 0⟩ noClock startPos [] [⟨.move (.move 60 58 false), some 100000, 0⟩] (.wins .white) ∧
    outcome ⟨256, none, true, fun _ => none, fun _ => 0⟩ noClock [⟨.move (.move 60 58 false), some 100000, 0⟩] = .ub := by
  have hn : ¬ startPos.Legal (.move 60 58 false) := by
    obtain ⟨b, l, e1, -, -, e2⟩ := C27_is_legal_partial startGame startGame_good.inv.views startGame_good.check startGame_good.regular
      (.move 60 58 false) (promotionB_ok (by decide +kernel))
    have : startGame.isLegal (encode startGame (.move 60 58 false)) = some false := by decide +kernel
    rw [this] at e1; cases e1
    rw [startGame_spec.2] at e2
    exact fun h => nomatch e2.mpr h
  refine ⟨hn, .illegal _ _ _ _ _ _ (by decide) (overrun_noClock _ _ _) ?_ rfl hn, by decide +kernel⟩
  rintro (h | ⟨n, x, h, -⟩) <;> cases h

/-- **C77** fails: any declaration wins, here one with the first move. -/
theorem C77_fails_declare : ¬ startPos.CanDeclare ∧ Ends (upTo 256) noClock startPos [] [⟨.declare, none, 0⟩] (.wins .white) ∧
    outcome (upTo 256) noClock [⟨.declare, none, 0⟩] = .ok (some (some .black, "%KACHI")) := by
  have hn : ¬ startPos.CanDeclare := by
    rw [← startGame_spec.2, ← C40_declaration _ startGame_good.inv.views startGame_good.check]
    decide +kernel
  refine ⟨hn, .misdeclare _ _ _ _ _ (by decide) (overrun_noClock _ _ _) ?_ rfl hn, by decide +kernel⟩
  rintro (h | ⟨n, x, h, -⟩) <;> cases h

/-- **C77** fails: ten seconds a move and no other time; a move made in five seconds loses on time. -/
theorem C77_fails_byoyomi : startPos.Legal (.move 60 59 false) ∧
    Ends ⟨256, none, false, fun _ => none, fun _ => 10000⟩ (fun _ => some 0) startPos []
      [⟨.move (.move 60 59 false), none, 5000⟩, ⟨.resign, none, 0⟩] (.wins .black) ∧
    outcome ⟨256, none, false, fun _ => none, fun _ => 10000⟩ (fun _ => some 0)
      [⟨.move (.move 60 59 false), none, 5000⟩, ⟨.resign, none, 0⟩] = .ok (some (some .white, "%TIME_UP")) := by
  have hl : startPos.Line [.move 60 59 false, .move 20 21 false] := start_line (by decide +kernel)
  have ho : occurrences (startPos.play (.move 60 59 false)) [startPos.play (.move 60 59 false), startPos] ≠ 4 := by
    rw [occurrences_sameB]; decide +kernel
  refine ⟨hl.1, .next _ _ _ _ _ _ _ _ (by decide) ?_ ?_ rfl hl.1 (fun h => nomatch h.2) ho hl.2.1 (.resign _ _ _ _ _ (by decide) ?_ (.inl rfl)), by decide +kernel⟩
  · rintro ⟨t, h, h'⟩
    cases h
    revert h'; decide
  · rintro (h | ⟨n, x, h, -⟩) <;> cases h
  · rintro ⟨t, h, h'⟩
    have : t = 0 := by
      revert h
      cases (startPos.play (.move 60 59 false)).turn <;> intro h <;> cases h <;> rfl
    subst this
    revert h'; decide

end Verif.Match
