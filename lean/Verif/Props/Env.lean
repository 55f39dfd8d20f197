import Verif.Lemmas.Match
import Verif.Props.PositionText
import Verif.Props.DfpnCases

/-!
# C76: the rewards of the reinforcement-learning environment
-/

namespace Verif
open Spec Bitboard Position

/-- The reward of the side that has just moved. -/
def rewardOf (mover : Color) : Result → Int
  | .draw => 0
  | .wins c => if c = mover then 1 else -1

/-- The environment after a line of legal moves. -/
structure EnvAt (Z : Zobrist) (p0 : Position) (P : Pos) (h : List Pos) (e : Env) : Prop where
  played : Played Z p0 P h e.board
  counts : e.counts = keyCount Z (P :: h)

theorem env_reset {Z : Zobrist} {p : Position} (hg : Csa.Good Z p) (hf : Fresh p) : EnvAt Z p (absPos p) [] (Env.reset p) := by
  refine ⟨⟨hg, rfl, [], GameLine.fresh True hg.inv hg.check hg.regular.waiting hf⟩, ?_⟩
  rw [keyCount_cons]
  show Env.count (fun _ => 0) p.getKey = _
  rw [getKey_spec Z p hg.inv.views.code hg.inv.keys]
  rfl

/-- One legal move. -/
theorem EnvAt.step {Z : Zobrist} {p0 : Position} {P : Pos} {h : List Pos} {e : Env} (he : EnvAt Z p0 P h e) {mv : Mv} (hm : P.Legal mv) :
    ∃ reply e', e.step Z (encode e.board.pos mv) = .ok (reply, e') ∧ EnvAt Z p0 (P.play mv) (P :: h) e' ∧
      e'.board = ⟨e'.board.pos, .move (encode e.board.pos mv) :: e.board.hist⟩ ∧
      (keyCount Z (P.play mv :: P :: h) (specKey Z (P.play mv)) = 4 →
        reply.done = true ∧ ∃ v, e'.board.pos.isDraw 2147483647 = some v ∧ reply.isDraw = some v ∧ reply.reward = Env.drawReward v) ∧
      (keyCount Z (P.play mv :: P :: h) (specKey Z (P.play mv)) ≠ 4 →
        (reply.done = true ↔ ∀ mv', ¬ (P.play mv).Legal mv') ∧ reply.reward = if reply.done then 1 else 0) := by
  obtain ⟨b', h1, h2, h3, h4, h5, -⟩ := he.played.push hm
  have hstep : e.step Z (encode e.board.pos mv) = Env.finish { e with board := b' } := by
    unfold Env.step; rw [if_neg h5, h4]; dsimp only; rw [h1]
  have hc : Env.count e.counts b'.pos.getKey = keyCount Z (P.play mv :: P :: h) := by rw [keyCount_cons, h3.key, he.counts]
  rw [hstep]
  unfold Env.finish
  dsimp only
  rw [hc, h3.key]
  by_cases h4 : keyCount Z (P.play mv :: P :: h) (specKey Z (P.play mv)) = 4
  · obtain ⟨v, hv⟩ := h3.isDraw_safe
    rw [if_pos h4, hv]
    exact ⟨_, _, rfl, ⟨h3, rfl⟩, h2, fun _ => ⟨rfl, v, hv, rfl, rfl⟩, fun hx => absurd h4 hx⟩
  · obtain ⟨over, ho, hiff⟩ := h3.over
    rw [if_neg h4, ho]
    exact ⟨_, _, rfl, ⟨h3, rfl⟩, h2, fun hx => absurd hx h4, fun _ => ⟨hiff, rfl⟩⟩

/-- The last reply in a line. -/
def lastReply (Z : Zobrist) (e : Env) : List Mv → Out Env.Reply
  | [] => .error
  | mv :: mvs => (e.step Z (encode e.board.pos mv)).bind fun x => if mvs = [] then .ok x.1 else lastReply Z x.2 mvs

/-- A line of legal moves. -/
theorem EnvAt.play {Z : Zobrist} {p0 : Position} : ∀ (mvs : List Mv) {P : Pos} {h : List Pos} {e : Env}, EnvAt Z p0 P h e → P.Line mvs →
    ∃ ms e', e.play Z ms = .ok e' ∧ ms.mapM Move.toUSI = some (mvs.map usiText) ∧ e'.board.history = e.board.history ++ ms ∧
      (∀ mv, lastReply Z e (mvs ++ [mv]) = lastReply Z e' [mv]) ∧
      ∃ t, P.record h mvs = P.after mvs :: t ∧ EnvAt Z p0 (P.after mvs) t e'
  | [], P, h, e, he, _ => ⟨[], e, rfl, rfl, by simp, fun _ => rfl, h, rfl, he⟩
  | mv :: mvs, P, h, e, he, hl => by
    obtain ⟨reply, e1, s1, s2, s3, -⟩ := he.step hl.1
    obtain ⟨ms, e', i1, i2, i3, i4, i5⟩ := EnvAt.play mvs s2 hl.2
    refine ⟨encode e.board.pos mv :: ms, e', ?_, ?_, ?_, fun mv' => ?_, i5⟩
    · unfold Env.play; rw [s1]; exact i1
    · have : (absPos e.board.pos).Pseudo mv := by rw [he.played.now]; exact hl.1.1.1
      rw [List.mapM_cons, toUSI_encode this, i2]; rfl
    · rw [i3, s3]; simp [Board.history]
    · rw [← i4, List.cons_append]
      conv_lhs => unfold lastReply
      rw [s1]
      simp [Out.bind]

/-- **C76** (partial): after any legal moves from a position that has been set up, one more legal move is answered as the rules
say, if the positions have different hashes: when the position has come up for the fourth time the game is over, and the reward is
that of the rules if the repetition was of one kind throughout (`Steady`); otherwise the game is over exactly when the opponent has
no legal move, and this is rewarded. Resigning costs a point; an illegal move (other than a wrong promotion) is refused.

Missing: repetitions that are not `Steady`; see `C76_fails`. -/
theorem C76_step_partial (Z : Zobrist) (p : Position) (hp : Inv Z p) (hc : CheckOK p) (hr : (absPos p).Regular) (hf : Fresh p)
    (mvs : List Mv) (hl : (absPos p).Line mvs) (hn : mvs.length < 2147483647) :
    ∃ ms e h, (Env.reset p).play Z ms = .ok e ∧ ms.mapM Move.toUSI = some (mvs.map usiText) ∧ e.board.history = ms ∧
      absPos e.board.pos = (absPos p).after mvs ∧ (absPos p).record [] mvs = (absPos p).after mvs :: h ∧
      e.step Z 0#32 = .ok (⟨-1, true, none⟩, e) ∧
      ∀ mv q, q = ((absPos p).after mvs).play mv →
        (¬ ((absPos p).after mvs).Legal mv → PromotionOK ((absPos p).after mvs) mv → encode e.board.pos mv ≠ 0#32 →
          e.step Z (encode e.board.pos mv) = .error) ∧
        (((absPos p).after mvs).Legal mv → Distinct Z q ((absPos p).after mvs :: h) →
          ∃ reply e', e.step Z (encode e.board.pos mv) = .ok (reply, e') ∧ absPos e'.board.pos = q ∧
            (occurrences q (q :: (absPos p).after mvs :: h) = 4 → reply.done = true ∧ (Steady q ((absPos p).after mvs :: h) →
              ∃ r, Repeated q ((absPos p).after mvs :: h) r ∧ reply.reward = rewardOf q.turn.opp r)) ∧
            (occurrences q (q :: (absPos p).after mvs :: h) ≠ 4 →
              (reply.done = true ↔ ∀ mv', ¬ q.Legal mv') ∧ reply.reward = if reply.done then 1 else 0)) := by
  obtain ⟨ms, e, i1, i2, i3, -, h, i4, i5⟩ := EnvAt.play mvs (env_reset ⟨hp, hc, hr⟩ hf) hl
  refine ⟨ms, e, h, i1, i2, ?_, i5.played.now, i4, rfl, ?_⟩
  · rw [i3]; simp [Env.reset, Board.history]
  rintro mv q rfl
  refine ⟨fun hbad hok h0 => ?_, fun hm hd => ?_⟩
  · have hg := i5.played.good
    obtain ⟨x, l, j1, -, -, j2⟩ := C27_is_legal_partial e.board.pos hg.inv.views hg.check hg.regular mv (by rw [i5.played.now]; exact hok)
    have hx : x = false := by
      rcases hx : x with _ | _
      · rfl
      · exact absurd (by rw [← i5.played.now]; exact j2.mp hx) hbad
    rw [hx] at j1
    unfold Env.step
    rw [if_neg h0, j1]
  · obtain ⟨reply, e', s1, s2, -, s4, s5⟩ := i5.step hm
    have hk : keyCount Z (((absPos p).after mvs).play mv :: (absPos p).after mvs :: h) (specKey Z (((absPos p).after mvs).play mv)) =
        occurrences (((absPos p).after mvs).play mv) (((absPos p).after mvs).play mv :: (absPos p).after mvs :: h) := by
      refine keyCount_occurrences fun r hr e => ?_
      rcases List.mem_cons.mp hr with rfl | hr
      · rfl
      · exact (hd r hr).1 e
    rw [hk] at s4 s5
    refine ⟨reply, e', s1, s2.played.now, fun h4 => ?_, s5⟩
    obtain ⟨d1, v, d2, -, d3⟩ := s4 h4
    refine ⟨d1, fun hs => ?_⟩
    obtain ⟨v', e1, e2⟩ := s2.played.isDraw hd
    rw [d2] at e1; cases e1
    have hlen : ((absPos p).after mvs :: h).length ≤ 2147483647 := by
      have h1 : ((absPos p).record [] mvs).length = mvs.length + 1 := by
        have : ∀ (l : List Mv) (P : Pos) (h : List Pos), (P.record h l).length = l.length + h.length + 1 := by
          intro l
          induction l with
          | nil => intro P h; simp [Pos.record]
          | cons m l ih => intro P h; rw [Pos.record, ih]; simp; omega
        rw [this]; simp
      rw [← i4, h1]; omega
    have ha : Alternate (((absPos p).after mvs).play mv :: (absPos p).after mvs :: h) := by
      have := s2.played.recorded.alt
      rw [s2.played.now] at this; exact this
    rw [d3]
    rcases verdict_repeated ha hlen h4 hs e2 with ⟨rfl, hr⟩ | ⟨rfl, hr⟩ | ⟨rfl, hr⟩
    · exact ⟨_, hr, by simp [rewardOf, Env.drawReward]⟩
    · refine ⟨_, hr, ?_⟩
      cases (((absPos p).after mvs).play mv).turn <;> rfl
    · exact ⟨_, hr, rfl⟩

/-! ### Two games with a rook -/

theorem line_append {P : Pos} {l l' : List Mv} : P.Line (l ++ l') ↔ P.Line l ∧ (P.after l).Line l' := by
  induction l generalizing P with
  | nil => simp [Pos.Line, Pos.after]
  | cons m l ih => rw [List.cons_append, Pos.Line, ih, Pos.Line, and_assoc]; rfl

theorem after_append (P : Pos) (l l' : List Mv) : P.after (l ++ l') = (P.after l).after l' := by
  unfold Pos.after; rw [List.foldl_append]

/-- Kings on 5a and 5i, a black rook on 2h, Black to move. -/
def rookMix : Position := setPieces mixKeys clear (fun s => pieceCode (passBoard s)) fun _ _ => 0

theorem rookMix_ok : Inv mixKeys rookMix ∧ absPos rookMix = passPos ∧ CheckOK rookMix ∧ (absPos rookMix).Regular :=
  setup_regular passBoard (fun _ _ => 0) 44 36 (by decide +kernel) (by decide +kernel) (fun c h => by cases c <;> cases h <;> decide)
    (by decide +kernel) (fun h => by cases h <;> decide +kernel) (by decide +kernel)

theorem rookMix_fresh : Fresh rookMix := ⟨fun c => by cases c <;> decide +kernel, by decide +kernel⟩

/-- The position after some moves. -/
def afterB (Z : Zobrist) (p : Position) : List Mv → Option Position
  | [] => some p
  | mv :: mvs => match doMove Z p (encode p mv) with | some p' => afterB Z p' mvs | none => none

theorem afterB_spec {Z : Zobrist} : ∀ (mvs : List Mv) {p : Position}, Csa.Good Z p → (absPos p).Line mvs →
    ∃ p', afterB Z p mvs = some p' ∧ Csa.Good Z p' ∧ absPos p' = (absPos p).after mvs
  | [], p, hg, _ => ⟨p, rfl, hg, rfl⟩
  | mv :: mvs, p, hg, hl => by
    obtain ⟨p1, e1, g1, a1⟩ := hg.doMove hl.1
    obtain ⟨p', e2, g2, a2⟩ := afterB_spec mvs g1 (by rw [a1]; exact hl.2)
    refine ⟨p', ?_, g2, by rw [a2, a1]; rfl⟩
    unfold afterB; rw [e1]; exact e2

theorem after_quiet {Z : Zobrist} {mvs : List Mv} {p : Position} (hg : Csa.Good Z p) (hl : (absPos p).Line mvs) {c : Color}
    (h : (afterB Z p mvs).map (fun p' => inCheckB p' c) = some false) : ¬ ((absPos p).after mvs).InCheck c := by
  obtain ⟨p', e, g, a⟩ := afterB_spec mvs hg hl
  rw [e] at h
  simp only [Option.map_some, Option.some.injEq] at h
  rw [← a, ← inCheckB_iff g.inv.views, h]
  simp

theorem sameB_iff {q r : Pos} : sameB q r = true ↔ q = r := by
  refine ⟨sameB_eq, ?_⟩
  rintro rfl
  simp [sameB]

theorem occurrences_sameB (q : Pos) (l : List Pos) : occurrences q l = l.countP fun r => sameB r q := by
  classical
  unfold occurrences
  refine List.countP_congr fun r _ => ?_
  simp [sameB_iff]

/-- Test for `Distinct`, and for the first part of `Steady`. -/
def distinctB (Z : Zobrist) (q : Pos) (h : List Pos) : Bool :=
  h.all fun r => sameB r q || (decide (specKey Z r ≠ specKey Z q) && decide (specBoardKey Z r ≠ specBoardKey Z q))

theorem distinctB_spec {Z : Zobrist} {q : Pos} {h : List Pos} (hd : distinctB Z q h = true) :
    Distinct Z q h ∧ ∀ r ∈ h, r.board = q.board → r.turn = q.turn → r = q := by
  unfold distinctB at hd
  rw [List.all_eq_true] at hd
  refine ⟨fun r hr => ?_, fun r hr h1 h2 => ?_⟩
  · have := hd r hr
    simp only [Bool.or_eq_true, Bool.and_eq_true, decide_eq_true_eq, sameB_iff] at this
    rcases this with rfl | ⟨h1, h2⟩
    · exact ⟨fun _ => rfl, fun _ => ⟨rfl, rfl⟩⟩
    · exact ⟨fun e => absurd e h1, fun e => absurd e h2⟩
  · have := hd r hr
    simp only [Bool.or_eq_true, Bool.and_eq_true, decide_eq_true_eq, sameB_iff] at this
    rcases this with rfl | ⟨-, h3⟩
    · rfl
    · exact absurd (by unfold specBoardKey; rw [h1, h2]) h3

/-- The rook and the king go to and fro. -/
def toAndFro : List Mv := [.move 16 25 false, .move 36 27 false, .move 25 16 false, .move 27 36 false]

def fourfold : List Mv := toAndFro ++ toAndFro ++ [.move 16 25 false, .move 36 27 false, .move 25 16 false]

theorem fourfold_line : passPos.Line (fourfold ++ [.move 27 36 false]) := by
  have := lineB_line (Z := mixKeys) (fourfold ++ [.move 27 36 false]) (p := rookMix) ⟨rookMix_ok.1, rookMix_ok.2.2.1, rookMix_ok.2.2.2⟩ (by decide +kernel)
  rwa [rookMix_ok.2.1] at this

/-- A game of one kind throughout: with the king's return the start position comes up for the fourth time. -/
example : Inv mixKeys rookMix ∧ CheckOK rookMix ∧ (absPos rookMix).Regular ∧ Fresh rookMix ∧ (absPos rookMix).Line fourfold ∧
    ((absPos rookMix).after fourfold).Legal (.move 27 36 false) ∧
    ∃ q h, q = ((absPos rookMix).after fourfold).play (.move 27 36 false) ∧
      (absPos rookMix).record [] fourfold = (absPos rookMix).after fourfold :: h ∧
      Distinct mixKeys q ((absPos rookMix).after fourfold :: h) ∧ occurrences q (q :: (absPos rookMix).after fourfold :: h) = 4 ∧
      Steady q ((absPos rookMix).after fourfold :: h) ∧ Repeated q ((absPos rookMix).after fourfold :: h) .draw := by
  obtain ⟨h1, h2, h3, h4⟩ := rookMix_ok
  have hg : Csa.Good mixKeys rookMix := ⟨h1, h3, h4⟩
  have hl := fourfold_line
  rw [← h2] at hl
  obtain ⟨hl1, hl2⟩ := line_append.mp hl
  obtain ⟨h, hh⟩ := record_head (absPos rookMix) [] fourfold
  obtain ⟨q, hq⟩ : ∃ q, q = ((absPos rookMix).after fourfold).play (.move 27 36 false) := ⟨_, rfl⟩
  have hd : distinctB mixKeys q ((absPos rookMix).after fourfold :: h) = true := by
    rw [← hh, hq, h2]; decide +kernel
  have ho : occurrences q (q :: (absPos rookMix).after fourfold :: h) = 4 := by
    rw [occurrences_sameB, ← hh, hq, h2]; decide +kernel
  have c0 : ¬ q.InCheck .black := by
    have := after_quiet hg hl (c := .black) (by decide +kernel)
    rwa [after_append, show ((absPos rookMix).after fourfold).after [.move 27 36 false] = q from hq.symm] at this
  have c1 : ¬ ((absPos rookMix).after fourfold).InCheck .white := after_quiet hg hl1 (by decide +kernel)
  have t0 : q.turn = .black := by rw [hq, h2]; decide +kernel
  have t1 : ((absPos rookMix).after fourfold).turn = .white := by rw [h2]; decide +kernel
  have np : ∀ d c, 4 ≤ d → ¬ Perpetual (q :: (absPos rookMix).after fourfold :: h) c d := by
    intro d c hd hp
    cases c
    · exact c1 (hp 1 (by omega) _ rfl t1)
    · exact c0 (hp 0 (by omega) _ rfl t0)
  have far : ∀ d, FirstAt q (q :: (absPos rookMix).after fourfold :: h) d → 4 ≤ d := by
    intro d hf
    have : (q :: (absPos rookMix).after fourfold :: h)[4]? = some q := by
      have e : ((q :: (absPos rookMix).record [] fourfold)[4]?).any (fun r => sameB r q) = true := by
        rw [hq, h2]; decide +kernel
      rw [hh] at e
      rcases hx : (q :: (absPos rookMix).after fourfold :: h)[4]? with _ | r
      · rw [hx] at e; cases e
      · rw [hx] at e; rw [sameB_iff.mp e]
    exact hf.2 4 this
  refine ⟨h1, h3, h4, rookMix_fresh, hl1, hl2.1, q, h, hq, hh, (distinctB_spec hd).1, ho, ⟨?_, ?_, ?_⟩, ?_⟩
  · intro r hr e
    exact (distinctB_spec hd).2 r hr e.1 e.2.1
  · intro d d' c h4 _ _ hp
    exact absurd hp (np d c h4)
  · intro d c hf hp
    exact np d c (far d hf) hp.1
  · intro d hf c
    exact np d c (far d hf)

/-- The rook checks, goes away, checks again, and then chases the king with checks. -/
def lateChase : List Mv := [.move 16 9 false, .move 36 37 false, .move 9 16 false, .move 37 36 false, .move 16 9 false,
  .move 36 37 false, .move 9 10 false, .move 37 36 false, .move 10 9 false, .move 36 37 false, .move 9 10 false, .move 37 36 false]

/-- **C76** fails: the position after R2a comes up for the fourth time, all hashes are different, and in the first round Black
did not check with every move. By the rules the game is drawn; the environment looks only at the last round and gives Black −1. -/
theorem C76_fails : Inv mixKeys rookMix ∧ CheckOK rookMix ∧ (absPos rookMix).Regular ∧ Fresh rookMix ∧ (absPos rookMix).Line lateChase ∧
    ((absPos rookMix).after lateChase).Legal (.move 10 9 false) ∧
    ∃ ms e q h reply e', (Env.reset rookMix).play mixKeys ms = .ok e ∧ ms.mapM Move.toUSI = some (lateChase.map usiText) ∧
      q = ((absPos rookMix).after lateChase).play (.move 10 9 false) ∧
      (absPos rookMix).record [] lateChase = (absPos rookMix).after lateChase :: h ∧
      Distinct mixKeys q ((absPos rookMix).after lateChase :: h) ∧ occurrences q (q :: (absPos rookMix).after lateChase :: h) = 4 ∧
      e.step mixKeys (encode e.board.pos (.move 10 9 false)) = .ok (reply, e') ∧ reply.done = true ∧ reply.reward = -1 ∧
      Repeated q ((absPos rookMix).after lateChase :: h) .draw := by
  obtain ⟨h1, h2, h3, h4⟩ := rookMix_ok
  have hg : Csa.Good mixKeys rookMix := ⟨h1, h3, h4⟩
  have hl : (absPos rookMix).Line (lateChase ++ [.move 10 9 false]) := lineB_line _ hg (by decide +kernel)
  obtain ⟨hl1, hl2⟩ := line_append.mp hl
  obtain ⟨ms, e, i1, i2, -, i4, h, hh, i5⟩ := EnvAt.play lateChase (env_reset hg rookMix_fresh) hl1
  obtain ⟨q, hq⟩ : ∃ q, q = ((absPos rookMix).after lateChase).play (.move 10 9 false) := ⟨_, rfl⟩
  have hd : distinctB mixKeys q ((absPos rookMix).after lateChase :: h) = true := by
    rw [← hh, hq, h2]; decide +kernel
  have ho : occurrences q (q :: (absPos rookMix).after lateChase :: h) = 4 := by
    rw [occurrences_sameB, ← hh, hq, h2]; decide +kernel
  obtain ⟨reply, e', s1, s2, s3, s4, -⟩ := i5.step hl2.1
  rw [← hq] at s2 s4
  rw [keyCount_occurrences (fun r hr e => by
      rcases List.mem_cons.mp hr with rfl | hr
      · rfl
      · exact ((distinctB_spec hd).1 r hr).1 e)] at s4
  have hv : reply.reward = -1 := by
    have hr : lastReply mixKeys (Env.reset rookMix) (lateChase ++ [.move 10 9 false]) = .ok ⟨-1, true, some .win⟩ := by decide +kernel
    rw [i4] at hr
    unfold lastReply at hr
    rw [s1] at hr
    simp only [Out.bind, if_true, Out.ok.injEq] at hr
    rw [hr]
  refine ⟨h1, h3, h4, rookMix_fresh, hl1, hl2.1, ms, e, q, h, reply, e', i1, i2, hq, hh, (distinctB_spec hd).1, ho, s1, (s4 ho).1, hv, ?_⟩
  intro d hf c hp
  have at12 : (q :: (absPos rookMix).after lateChase :: h)[12]? = some q := by
    have e : ((q :: (absPos rookMix).record [] lateChase)[12]?).any (fun r => sameB r q) = true := by
      rw [hq, h2]; decide +kernel
    rw [hh] at e
    rcases hx : (q :: (absPos rookMix).after lateChase :: h)[12]? with _ | r
    · rw [hx] at e; cases e
    · rw [hx] at e; rw [sameB_iff.mp e]
  have hd12 := hf.2 12 at12
  have r10 : (q :: (absPos rookMix).after lateChase :: h)[10]? = some ((absPos rookMix).after (lateChase.take 3)) := by
    rw [← hh]; rfl
  have r1 : (q :: (absPos rookMix).after lateChase :: h)[1]? = some ((absPos rookMix).after lateChase) := rfl
  have l3 : (absPos rookMix).Line (lateChase.take 3) := by
    have : lateChase = lateChase.take 3 ++ lateChase.drop 3 := by decide
    rw [this] at hl1
    exact (line_append.mp hl1).1
  cases c
  · refine after_quiet hg l3 (c := .white) (by decide +kernel) (hp 10 (by omega) _ r10 ?_)
    rw [h2]; decide +kernel
  · refine after_quiet hg hl1 (c := .black) (by decide +kernel) (hp 1 (by omega) _ r1 ?_)
    rw [h2]; decide +kernel

end Verif
