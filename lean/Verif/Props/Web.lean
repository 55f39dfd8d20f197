import Verif.Lemmas.Web
import Verif.Props.MatchUsual

/-!
# C94: what the web page shows of a game
-/

namespace Verif.Web
open Spec Bitboard Position
open Match (upTo noClock At Usual Flag termsOf startGame)

/-- The page shows these moves: `made` from the position `P`, the first with number `n`. -/
def Shows (P : Pos) (last : Option Square) (n : Nat) : List Told → List Entry → Prop
  | [], es => es = []
  | t :: ts, es => ∃ mv e es', t.answer = .move mv ∧ P.Legal mv ∧ es = e :: es' ∧ Right P last n mv t.info t.secs e ∧
      Shows (P.play mv) (some (Spec.Web.dest mv)) (n + 1) ts es'

/-- The lines of information fit the positions in which they are given. -/
def Informed (P : Pos) : List Told → Prop
  | [] => True
  | t :: ts => ∀ mv, t.answer = .move mv → P.Legal mv → (∀ i, t.info = some i → i.OK P) ∧ Informed (P.play mv) ts

/-- After a legal move that does not end the game. -/
theorem next_at {Z : Zobrist} {p0 : Position} {P0 : Pos} {P : Pos} {h : List Pos} {g g' : Match.State} {mv : Mv} {b' : Board}
    (ha : At Z p0 P0 noClock P h g) (hm : P.Legal mv) (hb : g.board.push Z (encode g.board.pos mv) = some b') (w1 : Distinct Z (P.play mv) (P :: h))
    (w2 : occurrences (P.play mv) (P.play mv :: P :: h) = 4 → P.play mv ≠ P0) (hx : Match.afterMove { g with board := b' } = .ok (none, g')) :
    occurrences (P.play mv) (P.play mv :: P :: h) ≠ 4 ∧ At Z p0 P0 noClock (P.play mv) (P :: h) g' ∧ g'.board = b' := by
  obtain ⟨b1, c1, -, c3, -, -, c6⟩ := ha.played.push hm
  rw [hb] at c1; cases c1
  obtain ⟨q, hq⟩ : ∃ q, q = P.play mv := ⟨_, rfl⟩
  rw [← hq] at w1 w2 c3 ⊢
  obtain ⟨l, l1, l2⟩ := ha.counts
  have hkey : Env.count g.counts b'.pos.getKey = keyCount Z (q :: l) := by rw [keyCount_cons, c3.key, l2]
  have hocc : keyCount Z (q :: l) (specKey Z q) = occurrences q (q :: l) := by
    refine keyCount_occurrences fun r hr e => ?_
    rcases List.mem_cons.mp hr with rfl | hr
    · rfl
    · exact (w1 r (by rw [l1]; exact List.mem_append_left _ hr)).1 e
  have hall : occurrences q (q :: P :: h) = occurrences q (q :: l) + (open Classical in if P0 = q then 1 else 0) := by
    rw [l1, ← List.cons_append, Match.occurrences_snoc]
  have hle : occurrences q (q :: P :: h) ≤ 4 := by
    rw [Match.occurrences_cons, if_pos rfl]
    have := ha.few q
    omega
  unfold Match.afterMove at hx
  dsimp only at hx
  rw [hkey, c3.key] at hx
  by_cases h4 : keyCount Z (q :: l) (specKey Z q) = 4
  · rw [if_pos h4] at hx
    obtain ⟨v, d⟩ := c3.isDraw_safe
    rw [d] at hx
    cases hx
  · rw [if_neg h4] at hx
    obtain ⟨over, o1, o2⟩ := c3.over
    rw [o1] at hx
    have hfour : occurrences q (q :: P :: h) ≠ 4 := by
      intro h5
      rw [if_neg (fun e => w2 h5 e.symm)] at hall
      exact h4 (by omega)
    cases over with
    | true => cases hx
    | false =>
      cases hx
      refine ⟨hfour, ⟨c3, ha.remain, ?_, ⟨q :: l, ?_, rfl⟩, fun r => ?_, ?_⟩, rfl⟩
      · show b'.pos.gamePly = _
        rw [c6, ha.ply]; simp
      · rw [List.cons_append, ← l1]
      · rw [Match.occurrences_cons]
        have := ha.few r
        by_cases e : q = r
        · subst e
          rw [if_pos rfl]
          rw [Match.occurrences_cons, if_pos rfl] at hfour
          omega
        · rw [if_neg e]; omega
      · by_contra hx
        have := o2.mpr (fun mv' h => hx ⟨mv', h⟩)
        cases this

/-- `afterMove` is defined. -/
theorem after_ok {Z : Zobrist} {p0 : Position} {P : Pos} {h : List Pos} {g : Match.State} (hp : Played Z p0 P h g.board) :
    ∃ x, Match.afterMove g = .ok x ∧ x.2.board = g.board ∧ x.2.remain = g.remain := by
  unfold Match.afterMove
  dsimp only
  obtain ⟨v, d⟩ := hp.isDraw_safe
  obtain ⟨over, o, -⟩ := hp.over
  rw [d, o]
  split
  · exact ⟨_, rfl, rfl, rfl⟩
  · exact ⟨_, rfl, rfl, rfl⟩

/-- A round of the match runner without clocks and thresholds. -/
theorem round_plain (Z : Zobrist) (draw : Int) {g : Match.State} (hr : g.remain = noClock) (s : Told) :
    Match.round Z (termsOf (upTo draw)) g (Match.replyOf (said s)) =
      if Match.answerText s.answer = "resign".toList then .ok (some .stopped, g)
      else if Match.answerText s.answer = "win".toList then .ok (some .nyugyoku, g)
      else Match.tryMove Z g (Match.replyOf (said s)) := by
  have hcharge : ∀ m, Match.charge (termsOf (upTo draw)) g m = (false, g) := by
    intro m
    unfold Match.charge
    rw [hr]; rfl
  unfold Match.round
  rw [hcharge]
  dsimp only
  rw [if_neg (show ¬ false = true by decide), if_neg (show ¬ Match.belowThreshold (termsOf (upTo draw)) (Match.replyOf (said s)) = true from fun h => by cases h),
    if_neg (show ¬ Match.announcesMate (termsOf (upTo draw)) (Match.replyOf (said s)) = true from fun h => by cases h)]
  rfl

theorem round_page (Z : Zobrist) {st : State} (hr : st.game.remain = noClock) (t : Told) :
    round Z st (replyOf t) =
      if Match.answerText t.answer = "resign".toList then .ok (some .stopped, st)
      else if Match.answerText t.answer = "win".toList then .ok (some .nyugyoku, st)
      else tryMove Z st (replyOf t) := by
  unfold round
  rw [hr]
  rfl

/-- The game on the page goes as in the match runner, and the page shows the moves. -/
theorem sim {Z : Zobrist} {p0 : Position} {P0 : Pos} {draw : Int} : ∀ (ts : List Told) {P : Pos} {h : List Pos} {last : Option Square} {st : State},
    At Z p0 P0 noClock P h st.game → LastIs st.game.board last → P.turn = (if (h.length + 1) % 2 = 1 then Color.black else .white) →
    Usual Z (upTo draw) P0 noClock P h (ts.map said) → Informed P ts →
    ∃ f st' made rest es, loop Z draw st (ts.map replyOf) = .ok (f, st') ∧
      Match.loop Z (termsOf (upTo draw)) st.game (ts.map fun t => Match.replyOf (said t)) = .ok (f.map fun f => (f, st'.game)) ∧
      st'.shown = st.shown ++ es ∧ ts = made ++ rest ∧ Shows P last (h.length + 1) made es ∧
      st'.game.board.pos.gamePly = h.length + 1 + made.length ∧
      st'.game.board.pos.turn = (if made.length % 2 = 0 then P.turn else P.turn.opp) ∧ (f = none → rest = [])
  | [], P, h, last, st, ha, _, _, _, _ => by
    refine ⟨_, st, [], [], [], rfl, ?_, by simp, rfl, rfl, by rw [ha.ply]; simp, ha.turn, fun _ => rfl⟩
    show Out.ok _ = _
    rw [show (termsOf (upTo draw)).draw = draw from rfl]
    split <;> rfl
  | t :: ts, P, h, last, st, ha, hlast, hturn, hu, hi => by
    rw [List.map_cons, List.map_cons]
    unfold loop Match.loop
    rw [show (termsOf (upTo draw)).draw = draw from rfl]
    by_cases hl : st.game.board.pos.gamePly > draw
    · rw [if_pos hl, if_pos hl]
      exact ⟨some .stopped, st, [], t :: ts, [], rfl, rfl, by simp, rfl, rfl, by rw [ha.ply]; simp, ha.turn, fun h => by cases h⟩
    rw [if_neg hl, if_neg hl]
    have hr : st.game.remain = noClock := ha.remain
    rw [round_plain Z draw hr t, round_page Z hr t]
    have hstop : ∀ f : Flag, ∃ f' st' made rest es, (Out.ok (some f, st) : Out (Option Flag × State)).bind (proceed fun st => loop Z draw st (ts.map replyOf)) = .ok (f', st') ∧
        (Out.ok (some f, st.game) : Out (Option Flag × Match.State)).bind (Match.proceed fun g => Match.loop Z (termsOf (upTo draw)) g (ts.map fun t => Match.replyOf (said t))) =
          .ok (f'.map fun f => (f, st'.game)) ∧
        st'.shown = st.shown ++ es ∧ t :: ts = made ++ rest ∧ Shows P last (h.length + 1) made es ∧
        st'.game.board.pos.gamePly = h.length + 1 + made.length ∧
        st'.game.board.pos.turn = (if made.length % 2 = 0 then P.turn else P.turn.opp) ∧ (f' = none → rest = []) :=
      fun f => ⟨some f, st, [], t :: ts, [], rfl, rfl, by simp, rfl, rfl, by rw [ha.ply]; simp, ha.turn, fun h => by cases h⟩
    have hl' : (h.length + 1 : Int) ≤ draw := by rw [← ha.ply]; omega
    obtain ⟨-, -, u3⟩ := hu hl' (Match.overrun_noClock _ _ _) (fun n x h1 => by cases h1)
    cases hans : t.answer with
    | resign =>
      rw [if_pos (show Match.answerText .resign = "resign".toList from rfl), if_pos (show Match.answerText .resign = "resign".toList from rfl)]
      exact hstop _
    | declare =>
      rw [if_neg (by decide), if_pos (show Match.answerText .declare = "win".toList from rfl), if_neg (by decide),
        if_pos (show Match.answerText .declare = "win".toList from rfl)]
      exact hstop _
    | move mv =>
      rw [if_neg (show Match.answerText (.move mv) ≠ _ from Match.usiText_ne_resign mv), if_neg (show Match.answerText (.move mv) ≠ _ from Match.usiText_ne_win mv),
        if_neg (show Match.answerText (.move mv) ≠ _ from Match.usiText_ne_resign mv), if_neg (show Match.answerText (.move mv) ≠ _ from Match.usiText_ne_win mv)]
      obtain ⟨v1, v2⟩ := u3 mv hans
      have hgood := ha.played.good
      unfold tryMove Match.tryMove
      rw [show (replyOf t).bestmove = usiText mv from by unfold replyOf; rw [hans]; rfl,
        show (Match.replyOf (said t)).bestmove = usiText mv from by unfold Match.replyOf said; rw [hans]; rfl]
      by_cases hm : P.Legal mv
      · obtain ⟨w1, w2, w3⟩ := v2 (fun h => nomatch h.2) hm
        obtain ⟨i1, i2⟩ := hi mv hans hm
        obtain ⟨b', c1, c2, c3, c4, -, c6⟩ := ha.played.push hm
        rw [usi_text c4]
        dsimp only
        rw [c4]
        dsimp only
        have hm' : (absPos st.game.board.pos).Legal mv := by rw [ha.played.now]; exact hm
        obtain ⟨e, e1, e2⟩ := entry_right hgood hlast hm' (n := h.length + 1) (by rw [ha.ply]; simp) (by rw [ha.turn]; exact hturn) t
          (by rw [ha.played.now]; exact i1)
        rw [e1, Out.bind, c1]
        dsimp only
        obtain ⟨⟨f, g'⟩, a1, a2, -⟩ := after_ok (g := { st.game with board := b' }) c3
        rw [a1]
        dsimp only [Out.bind]
        have hR : Right P last (h.length + 1) mv t.info t.secs e := by rw [ha.played.now] at e2; exact e2
        replace a2 : g'.board = b' := a2
        cases f with
        | some f =>
          refine ⟨some f, ⟨g', st.shown ++ [e]⟩, [t], ts, [e], rfl, rfl, rfl, rfl, ⟨mv, e, [], hans, hm, rfl, hR, rfl⟩, ?_, ?_, fun h => by cases h⟩
          · show g'.board.pos.gamePly = _
            rw [a2, c6, ha.ply]; simp
          · show g'.board.pos.turn = _
            rw [a2, show b'.pos.turn = (absPos b'.pos).turn from rfl, c3.now]
            exact play_turn mv
        | none =>
          obtain ⟨n1, n2, -⟩ := next_at ha hm c1 w1 (fun h4 => (w2 h4).1) a1
          have hu' := w3 n1
          rw [Match.charge_noClock] at hu'
          obtain ⟨f, st', made, rest, es, k1, k2, k3, k4, k5, k6, k8, k7⟩ := sim (draw := draw) ts (st := ⟨g', st.shown ++ [e]⟩) (last := some (Spec.Web.dest mv)) n2
            (by show LastIs g'.board _; rw [a2]; exact lastIs_push hm'.1.1 c1)
            (by rw [play_turn, hturn]
                simp only [List.length_cons]
                by_cases hp : (h.length + 1) % 2 = 1
                · rw [if_pos hp, if_neg (by omega)]; rfl
                · rw [if_neg hp, if_pos (by omega)]; rfl) hu' i2
          refine ⟨f, st', t :: made, rest, e :: es, k1, k2, by rw [k3]; simp, by rw [k4]; rfl, ⟨mv, e, es, hans, hm, rfl, hR, ?_⟩, ?_, ?_, k7⟩
          · exact k5
          rotate_left
          · rw [k8, play_turn, List.length_cons]
            by_cases hp : made.length % 2 = 0
            · rw [if_pos hp, if_neg (by omega)]
            · rw [if_neg hp, if_pos (by omega), opp_opp]
          · rw [k6]; simp only [List.length_cons]; push_cast; omega
      · have hnot : st.game.board.pos.isLegal (encode st.game.board.pos mv) = some false := by
          obtain ⟨x, l, j1, -, -, j2⟩ := C27_is_legal_partial st.game.board.pos hgood.inv.views hgood.check hgood.regular mv (by rw [ha.played.now]; exact v1)
          cases x
          · exact j1
          · exact absurd (by rw [← ha.played.now]; exact j2.mp rfl) hm
        rw [usi_text_not hnot]
        dsimp only
        rw [Match.isLegal_zero]
        exact hstop _

/-- The text of the page for each flag. -/
def flagText (c : Color) : Flag → List Char
  | .fourfold => "千日手".toList
  | .nyugyoku => symbol c :: "入玉宣言".toList
  | .illegal => (if c.opp = .white then "先手" else "後手").toList ++ "の反則負け".toList
  | .repetitionWin => (if c = .black then "先手" else "後手").toList ++ "の反則勝ち".toList
  | .repetitionLose => (if c.opp = .white then "先手" else "後手").toList ++ "の反則負け".toList
  | .timeup => (if c.opp = .white then "先手" else "後手").toList ++ "の切れ負け".toList
  | .stopped => symbol c :: "投了".toList

/-- The reasons that go with a line. -/
theorem line_reasons {c : Color} {late : Prop} {reason : Reason} {t : String} (h : reason.Line c late t) :
    (t = "%JISHOGI" ∧ (reason = .limit ∨ reason = .repeated .draw ∧ late)) ∨ (t = "%TIME_UP" ∧ reason = .time) ∨
    (t = "%TORYO" ∧ (reason = .resign ∨ reason = .announced ∨ reason = .mate)) ∨ (t = "%KACHI" ∧ reason = .declare) ∨
    (t = "%ILLEGAL_MOVE" ∧ reason = .illegal) ∨ (t = "%SENNICHITE" ∧ reason = .repeated .draw) ∨
    (t = "%+ILLEGAL_ACTION" ∧ c = .white ∧ reason = .repeated (.wins .white)) ∨
    (t = "%-ILLEGAL_ACTION" ∧ c = .black ∧ reason = .repeated (.wins .black)) ∨ (t = "ILLEGAL_MOVE" ∧ reason = .repeated (.wins c.opp)) := by
  rcases reason with _ | _ | _ | _ | _ | _ | (_ | ⟨_ | _⟩) | _
  · exact .inl ⟨h, .inl rfl⟩
  · exact .inr (.inl ⟨h, rfl⟩)
  · exact .inr (.inr (.inl ⟨h, .inl rfl⟩))
  · exact .inr (.inr (.inr (.inl ⟨h, rfl⟩)))
  · exact .inr (.inr (.inr (.inr (.inl ⟨h, rfl⟩))))
  · exact .inr (.inr (.inl ⟨h, .inr (.inl rfl)⟩))
  · rcases h with h | ⟨h1, h⟩
    · exact .inr (.inr (.inr (.inr (.inr (.inl ⟨h, rfl⟩)))))
    · exact .inl ⟨h, .inr ⟨rfl, h1⟩⟩
  · cases c
    · exact .inr (.inr (.inr (.inr (.inr (.inr (.inr (.inl ⟨h, rfl, rfl⟩)))))))
    · exact .inr (.inr (.inr (.inr (.inr (.inr (.inr (.inr ⟨h, rfl⟩)))))))
  · cases c
    · exact .inr (.inr (.inr (.inr (.inr (.inr (.inr (.inr ⟨h, rfl⟩)))))))
    · exact .inr (.inr (.inr (.inr (.inr (.inr (.inl ⟨h, rfl, rfl⟩))))))
  · exact .inr (.inr (.inl ⟨h, .inr (.inr rfl)⟩))

theorem flag_text (c : Color) (f : Flag) {late : Prop} {reason : Reason} (h : reason.Line c late (Match.flagLine c f)) :
    Spec.Web.EndLine c late reason (flagText c f) := by
  rcases line_reasons h with ⟨e, r⟩ | ⟨e, r⟩ | ⟨e, r⟩ | ⟨e, r⟩ | ⟨e, r⟩ | ⟨e, r⟩ | ⟨e, r0, r⟩ | ⟨e, r0, r⟩ | ⟨e, r⟩
  · exfalso; revert e; cases f <;> cases c <;> decide
  · have : f = .timeup := by revert e; cases f <;> cases c <;> decide
    subst this; subst r; cases c <;> rfl
  · have : f = .stopped := by revert e; cases f <;> cases c <;> decide
    subst this; rcases r with rfl | rfl | rfl <;> cases c <;> rfl
  · have : f = .nyugyoku := by revert e; cases f <;> cases c <;> decide
    subst this; subst r; cases c <;> rfl
  · have : f = .illegal := by revert e; cases f <;> cases c <;> decide
    subst this; subst r; cases c <;> rfl
  · have : f = .fourfold := by revert e; cases f <;> cases c <;> decide
    subst this; subst r; exact .inl rfl
  · have : f = .repetitionWin := by revert e; cases f <;> cases c <;> decide
    subst this; subst r; subst r0; rfl
  · have : f = .repetitionWin := by revert e; cases f <;> cases c <;> decide
    subst this; subst r; subst r0; rfl
  · have : f = .repetitionLose := by revert e; cases f <;> cases c <;> decide
    subst this; subst r; cases c <;> rfl

/-- The last line says who wins, and why. -/
theorem result_text {draw : Int} {f : Flag} {st : State} {w : Option Color} {text : String}
    (h : Match.verdict (termsOf (upTo draw)) f st.game = .ok (w, text)) {reason : Reason}
    (hl : reason.Line st.game.board.pos.turn (draw < st.game.board.pos.gamePly) text) :
    ∃ t, resultText draw f st = .ok t ∧ Spec.Web.readResult t = some (Match.resultOfWin w) ∧
      Spec.Web.EndLine st.game.board.pos.turn (draw < st.game.board.pos.gamePly) reason t := by
  unfold Match.verdict at h
  unfold resultText
  cases ho : st.game.board.pos.isGameOver with
  | none => rw [ho] at h; cases h
  | some over =>
    rw [ho] at h
    dsimp only at h ⊢
    rw [show (termsOf (upTo draw)).draw = draw from rfl] at h
    obtain ⟨late, hlate⟩ : ∃ late : Prop, late = (draw < st.game.board.pos.gamePly) := ⟨_, rfl⟩
    rw [← hlate] at hl ⊢
    obtain ⟨c, hc⟩ : ∃ c, c = st.game.board.pos.turn := ⟨_, rfl⟩
    rw [← hc] at h hl ⊢
    by_cases hx : (!over && decide (st.game.board.pos.gamePly > draw)) = true
    · rw [if_pos hx] at h ⊢
      cases h
      refine ⟨_, rfl, by decide, ?_⟩
      have hd : late := by
        rw [hlate]
        simp only [Bool.and_eq_true, decide_eq_true_eq] at hx
        exact hx.2
      rcases line_reasons hl with ⟨e, r⟩ | ⟨e, r⟩ | ⟨e, r⟩ | ⟨e, r⟩ | ⟨e, r⟩ | ⟨e, r⟩ | ⟨e, r0, r⟩ | ⟨e, r0, r⟩ | ⟨e, r⟩
      · rcases r with rfl | ⟨rfl, -⟩
        · rfl
        · exact .inr ⟨hd, rfl⟩
      all_goals exact absurd e (by decide)
    · rw [if_neg hx] at h ⊢
      have hf : (w, text) = (w, Match.flagLine c f) := by cases f <;> cases h <;> rfl
      rw [(Prod.mk.inj hf).2] at hl
      refine ⟨flagText c f, by cases f <;> rfl, ?_, flag_text c f hl⟩
      cases f <;> cases h <;> cases c <;> decide

/-- The moves shown, and whose turn it is then. -/
theorem shows_line : ∀ {made : List Told} {es : List Entry} {P : Pos} {last : Option Square} {n : Nat}, Shows P last n made es →
    ∃ mvs, made.map Told.answer = mvs.map Answer.move ∧ P.Line mvs ∧ es.length = made.length ∧
      (P.after mvs).turn = if made.length % 2 = 0 then P.turn else P.turn.opp
  | [], es, P, last, n, h => by
    subst h
    exact ⟨[], rfl, trivial, rfl, rfl⟩
  | t :: made, es, P, last, n, h => by
    obtain ⟨mv, e, es', h1, h2, rfl, -, h3⟩ := h
    obtain ⟨mvs, i1, i2, i3, i4⟩ := shows_line h3
    refine ⟨mv :: mvs, by rw [List.map_cons, List.map_cons, i1, h1], ⟨h2, i2⟩, by simp [i3], ?_⟩
    show ((P.play mv).after mvs).turn = _
    rw [i4, play_turn, List.length_cons]
    by_cases hp : made.length % 2 = 0
    · rw [if_pos hp, if_neg (by omega)]
    · rw [if_neg hp, if_pos (by omega), opp_opp]

/-- **C94** (partial): whatever the players answer, the page shows the moves made, in order and numbered from 1, each with the sign of the
side, its KIF text, its time, the score from Black's side and the variation that the player announced; while the game goes on
nothing else, and it asks the side to move for a move, if that is played on the page; and when the game is decided, there is one more
entry with the next number that names the result and the reason.

Missing: games with a clock (`C94_fails_clock`), and the games that the match runner judges wrongly, too (`Usual`). -/
theorem C94_page_partial (Z : Zobrist) (p : Position) (hp : Inv Z p) (hc : CheckOK p) (hr : (absPos p).Regular) (hf : Fresh p)
    (hply : p.gamePly = 1) (hblack : p.turn = .black) (hlive : ∃ mv, (absPos p).Legal mv) (draw : Int) (ts : List Told) (hn : ts.length < 2147483647)
    (hu : Usual Z (upTo draw) (absPos p) noClock (absPos p) [] (ts.map said)) (hi : Informed (absPos p) ts) :
    ∃ over shown made rest es, page Z draw none p (ts.map replyOf) = .ok (over, shown) ∧ ts = made ++ rest ∧ Shows (absPos p) none 1 made es ∧
      (over = false → shown = es ∧ rest = [] ∧ (∀ r, ¬ Ends (upTo draw) noClock (absPos p) [] (ts.map said) r) ∧
        ∃ mvs, ts.map Told.answer = mvs.map Answer.move ∧ (absPos p).Line mvs ∧
          ∀ humans, asked humans shown = if humans ((absPos p).after mvs).turn then some ((absPos p).after mvs).turn else none) ∧
      (over = true → ∃ e r, shown = es ++ [e] ∧ e.number = ((made.length + 1 : Nat) : Int) ∧ e.move = 0#32 ∧ Spec.Web.readResult e.text = some r ∧
        Ends (upTo draw) noClock (absPos p) [] (ts.map said) r ∧ ∃ mvs reason, made.map Told.answer = mvs.map Answer.move ∧ (absPos p).Line mvs ∧
          EndsBy (upTo draw) noClock (absPos p) [] (ts.map said) reason ∧
          Spec.Web.EndLine ((absPos p).after mvs).turn (draw < made.length + 1) reason e.text) := by
  have hat : At Z p (absPos p) noClock (absPos p) [] (Match.start p fun _ => none) := by
    refine ⟨⟨⟨hp, hc, hr⟩, rfl, [], GameLine.fresh True hp hc hr.waiting hf⟩, rfl, ?_, ⟨[], rfl, ?_⟩, fun r => ?_, hlive⟩
    · rw [show (Match.start p fun _ => none).board.pos = p from rfl, hply]; rfl
    · funext k; rfl
    · rw [Match.occurrences_cons]
      have : occurrences r [] = 0 := rfl
      split <;> omega
  obtain ⟨⟨x, g1, g2, g3⟩, -⟩ := Match.C77_result_partial Z p hp hc hr hf hply hlive (upTo draw) noClock (fun _ => .inl rfl) (ts.map said)
    (by simpa using hn) hu
  obtain ⟨f, st', made, rest, es, k1, k2, k3, k4, k5, k6, k8, k7⟩ := sim (draw := draw) ts (st := ⟨Match.start p fun _ => none, []⟩) (last := none) hat rfl
    (by show p.turn = _; rw [hblack]; rfl) hu hi
  replace k2 : Match.loop Z (termsOf (upTo draw)) (Match.start p noClock) ((ts.map said).map Match.replyOf) = .ok (f.map fun f => (f, st'.game)) := by
    rw [List.map_map]; exact k2
  unfold Match.game at g1
  rw [k2] at g1
  replace g1 : Match.conclude (termsOf (upTo draw)) (f.map fun f => (f, st'.game)) = .ok x := g1
  have hpage : page Z draw none p (ts.map replyOf) = conclude draw (f, st') := by
    unfold page
    rw [k1]; rfl
  replace k3 : st'.shown = es := k3
  cases f with
  | none =>
    cases g1
    have hrest := k7 rfl
    subst hrest
    rw [List.append_nil] at k4
    subst k4
    refine ⟨false, es, ts, [], es, ?_, by simp, k5, fun _ => ⟨rfl, rfl, g2 rfl, ?_⟩, fun h => by cases h⟩
    · rw [hpage]
      show Out.ok (false, st'.shown) = _
      rw [k3]
    · obtain ⟨mvs, i1, i2, i3, i4⟩ := shows_line k5
      refine ⟨mvs, i1, i2, fun humans => ?_⟩
      have : ((absPos p).after mvs).turn = if es.length % 2 = 0 then .black else .white := by
        rw [i4, i3, show (absPos p).turn = .black from hblack]; rfl
      rw [this]
      rfl
  | some f =>
    replace g1 : (Match.verdict (termsOf (upTo draw)) f st'.game).bind (fun v => Out.ok (some (v, st'.game.board))) = .ok x := g1
    cases hv : Match.verdict (termsOf (upTo draw)) f st'.game with
    | error => rw [hv] at g1; cases g1
    | ub => rw [hv] at g1; cases g1
    | ok v =>
      rw [hv] at g1
      cases g1
      obtain ⟨w, text⟩ := v
      obtain ⟨r1, reason, r2, r3⟩ := g3 _ _ rfl
      obtain ⟨t, t1, t2, t3⟩ := result_text hv r3
      obtain ⟨mvs, i1, i2, i3, i4⟩ := shows_line k5
      have hply : st'.game.board.pos.gamePly = ((made.length + 1 : Nat) : Int) := by
        rw [k6]
        simp only [List.length_nil]
        push_cast
        omega
      refine ⟨true, es ++ [⟨st'.game.board.pos.gamePly, t, 0, 0#32, none, []⟩], made, rest, es, ?_, k4, k5, fun h => (by cases h),
        fun _ => ⟨_, _, rfl, hply, rfl, t2, r1, mvs, reason, i1, i2, r2, ?_⟩⟩
      · rw [hpage]
        show (resultText draw f st').bind _ = _
        rw [t1, ← k3]; rfl
      · rw [hply, k8, ← i4] at t3
        exact_mod_cast t3

/-- **C94** fails: with a clock every game ends with an exception (NameError) at the first reply, and the page shows nothing. -/
theorem C94_fails_clock (Z : Zobrist) {p : Position} {draw : Int} (h : p.gamePly ≤ draw) (time : Int) (r : Reply) (rs : List Reply) :
    page Z draw (some time) p (r :: rs) = .error := by
  unfold page loop
  rw [if_neg (show ¬ (Match.start p fun _ => some time).board.pos.gamePly > draw from by show ¬ p.gamePly > draw; omega)]
  rfl

/-- **C94** fails: when Black has resigned, the page asks White for a move. -/
theorem C94_fails_asked : ∃ shown : List Entry, page mixKeys 256 none startGame [⟨"resign".toList, [], 3⟩] = .ok (true, shown) ∧
    asked (fun _ => true) shown = some .white :=
  ⟨[⟨1, "▲投了".toList, 0, 0#32, none, []⟩], by decide +kernel, by decide⟩

/-- A move without information. -/
def bare (mv : Mv) : Told := ⟨.move mv, none, 1⟩

/-- **C94** fails as C77 does: the starting position has come up for the fourth time, and the page shows a game that goes on. -/
theorem C94_fails_repetition :
    Ends (upTo 256) noClock startPos [] ((Match.rooksTwice ++ [Mv.move 55 64 false]).map fun mv => said (bare mv)) .draw ∧
    (page mixKeys 256 none startGame ((Match.rooksTwice ++ [Mv.move 55 64 false]).map fun mv => replyOf (bare mv))).bind (fun x => .ok x.1) = .ok false :=
  ⟨Match.C77_fails.2.1, by decide +kernel⟩

/-- **C94** fails as C77 does: Black declares a win with the first move, which is not allowed, and the page says that Black has declared. -/
theorem C94_fails_declare : Ends (upTo 256) noClock startPos [] [⟨.declare, none, 0⟩] (.wins .white) ∧
    page mixKeys 256 none startGame [⟨"win".toList, [], 1⟩] = .ok (true, [⟨1, "▲入玉宣言".toList, 0, 0#32, none, []⟩]) ∧
    Spec.Web.readResult "▲入玉宣言".toList = some (.wins .black) :=
  ⟨Match.C77_fails_declare.2.1, by decide +kernel, by decide⟩

/-- P7g-7f with a score and a variation, P3c-3d, Bx2b+ and a resignation. -/
def someGame : List Told :=
  [⟨.move (.move 60 59 false), some ⟨[("depth".toList, 9)], .cp 35, [], .move 60 59 false, [.move 20 21 false, .move 70 10 true], []⟩, 4⟩,
   bare (.move 20 21 false), bare (.move 70 10 true), ⟨.resign, none, 2⟩]

/-- The page of that game. -/
example : (page mixKeys 256 none startGame (someGame.map replyOf)).bind (fun x => .ok (x.1, x.2.map fun e => { e with move := 0#32 })) = .ok (true,
    [⟨1, "▲７六歩(77)".toList, 4, 0#32, some 35, "▲７六歩(77) △３四歩(33) ▲２二角成(88)".toList⟩, ⟨2, "△３四歩(33)".toList, 1, 0#32, none, []⟩,
     ⟨3, "▲２二角成(88)".toList, 1, 0#32, none, []⟩, ⟨4, "△投了".toList, 0, 0#32, none, []⟩]) := by
  decide +kernel

/-- The hypotheses of `C94_page_partial` are met by it. -/
example : Inv mixKeys startGame ∧ CheckOK startGame ∧ (absPos startGame).Regular ∧ Fresh startGame ∧ startGame.gamePly = 1 ∧ startGame.turn = .black ∧
    (∃ mv, (absPos startGame).Legal mv) ∧ Usual mixKeys (upTo 256) (absPos startGame) noClock (absPos startGame) [] (someGame.map said) ∧
    Informed (absPos startGame) someGame := by
  have hl : startPos.Line [.move 60 59 false, .move 20 21 false, .move 70 10 true] := Match.start_line (by decide +kernel)
  refine ⟨Match.startGame_good.inv, Match.startGame_good.check, Match.startGame_good.regular, Match.startGame_fresh.1, Match.startGame_fresh.2,
    by decide +kernel, ⟨_, Match.startGame_spec.2 ▸ hl.1⟩, ?_, ?_⟩
  · rw [Match.startGame_spec.2]
    refine Match.usual_line [.move 60 59 false, .move 20 21 false, .move 70 10 true] (by decide +kernel) (by decide +kernel) fun t => ?_
    exact fun _ _ _ => ⟨fun h => (nomatch h.2), fun _ h => (nomatch h), fun mv e => (nomatch e)⟩
  · rw [Match.startGame_spec.2]
    refine fun mv e _ => ⟨fun i hi => ?_, fun mv e _ => ⟨fun i hi => (nomatch hi), fun mv e _ => ⟨fun i hi => (nomatch hi), fun mv e _ => (nomatch e)⟩⟩⟩
    cases hi
    exact ⟨fun x hx => absurd hx List.not_mem_nil, hl, trivial⟩

end Verif.Web
