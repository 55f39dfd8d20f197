import Verif.Lemmas.MatchRun
import Verif.Props.Env

/-!
# C77: who wins a match game
-/

namespace Verif.Match
open Spec Bitboard Position

/-- The answers of a game in which nothing happens that the match runner judges wrongly, step by step until the game is over: a mate
is announced only with a legal move, and with the last ply only if it is mate; who declares may do so; a move is written with `+`
only where it can be; positions have different hashes; the position from which the game started does not come up four times; a
fourfold repetition is `Steady`, and the last ply does not complete one by perpetual check. -/
def Usual (Z : Zobrist) (R : Rules) (P0 : Pos) : (Color → Option Int) → Pos → List Pos → List Said → Prop
  | _, _, _, [] => True
  | clock, P, h, s :: ss => (h.length + 1 : Int) ≤ R.limit → ¬ R.Overrun clock P.turn s →
    (∀ n x, R.resign = some n → s.score = some x → ¬ x ≤ -n) →
    (R.Announces s → ∃ mv, s.answer = .move mv ∧ P.Legal mv ∧
      ((h.length + 1 : Int) < R.limit ∨ ∀ mv', ¬ (P.play mv).Legal mv')) ∧
    (¬ R.Announces s → s.answer = .declare → P.CanDeclare) ∧
    ∀ mv, s.answer = .move mv → PromotionOK P mv ∧
      (¬ R.Announces s → P.Legal mv → Distinct Z (P.play mv) (P :: h) ∧
        (occurrences (P.play mv) (P.play mv :: P :: h) = 4 → P.play mv ≠ P0 ∧ Steady (P.play mv) (P :: h) ∧
          ((h.length + 1 : Int) < R.limit ∨ Repeated (P.play mv) (P :: h) .draw)) ∧
        (occurrences (P.play mv) (P.play mv :: P :: h) ≠ 4 → Usual Z R P0 (R.charge clock P.turn s) (P.play mv) (P :: h) ss))

/-- What is to be proved of the end of a game. -/
def Right (R : Rules) (clock : Color → Option Int) (P : Pos) (h : List Pos) (ss : List Said)
    (o : Out (Option ((Option Color × String) × Board))) : Prop :=
  ∃ x, o = .ok x ∧ (x = none → ∀ r, ¬ Ends R clock P h ss r) ∧ ∀ w b, x = some (w, b) → Ends R clock P h ss (resultOfWin w.1) ∧
    ∃ reason, EndsBy R clock P h ss reason ∧ reason.Line b.pos.turn (R.limit < b.pos.gamePly) w.2

theorem right_some {R : Rules} {clock : Color → Option Int} {P : Pos} {h : List Pos} {ss : List Said} {w : Option Color}
    {o : Out (Option ((Option Color × String) × Board))} {b : Board} {text : String} (e : o = .ok (some ((w, text), b)))
    (hE : Ends R clock P h ss (resultOfWin w)) {reason : Reason} (hB : EndsBy R clock P h ss reason)
    (hT : reason.Line b.pos.turn (R.limit < b.pos.gamePly) text) : Right R clock P h ss o := by
  subst e
  refine ⟨_, rfl, fun h => (by cases h), fun w b hw => ?_⟩
  cases hw; exact ⟨hE, reason, hB, hT⟩

/-- The verdict on a fourfold repetition. -/
theorem fourfold_right {Z : Zobrist} {p0 : Position} {R : Rules} {clock : Color → Option Int} {P q : Pos} {h : List Pos} {s : Said} {ss : List Said}
    {b : Board} (hp : Played Z p0 q (P :: h) b) (hn : (P :: h).length ≤ 2147483647) (hd : Distinct Z q (P :: h))
    (h4 : occurrences q (q :: P :: h) = 4) (hs : Steady q (P :: h)) (hlim : b.pos.gamePly ≤ R.limit ∨ Repeated q (P :: h) .draw)
    (hE : ∀ r, Repeated q (P :: h) r → Ends R clock P h (s :: ss) r ∧ EndsBy R clock P h (s :: ss) (.repeated r)) {st : State} (hb : st.board = b) :
    ∃ v, b.pos.isDraw 2147483647 = some v ∧ Right R clock P h (s :: ss) (conclude (termsOf R) (some (repetitionFlag v, st))) := by
  subst hb
  obtain ⟨v, d1, d2⟩ := hp.isDraw hd
  refine ⟨v, d1, ?_⟩
  have halt : Alternate (q :: P :: h) := by
    have := hp.recorded.alt
    rw [hp.now] at this; exact this
  have ht : st.board.pos.turn = q.turn := by rw [← hp.now]; rfl
  obtain ⟨over, o1, o2⟩ := hp.over
  by_cases hl : over = true ∨ st.board.pos.gamePly ≤ (termsOf R).draw
  · rcases verdict_repeated halt hn h4 hs d2 with ⟨rfl, hr⟩ | ⟨rfl, hr⟩ | ⟨rfl, hr⟩
    · exact right_some (conclude_spec (f := .repetitionLose) (w := some st.board.pos.turn.opp) o1 hl rfl) (by rw [ht]; exact (hE _ hr).1) (hE _ hr).2
        (by rw [← ht]; cases st.board.pos.turn <;> rfl)
    · exact right_some (conclude_spec (f := .repetitionWin) (w := some st.board.pos.turn) o1 hl rfl) (by rw [ht]; exact (hE _ hr).1) (hE _ hr).2
        (by rw [← ht]; cases st.board.pos.turn <;> rfl)
    · exact right_some (conclude_spec (f := .fourfold) (w := none) o1 hl rfl) (hE _ hr).1 (hE _ hr).2 (.inl rfl)
  · have hov' : over = false := by
      cases over
      · rfl
      · exact absurd (.inl rfl) hl
    have hgt : (termsOf R).draw < st.board.pos.gamePly := by
      have : ¬ st.board.pos.gamePly ≤ (termsOf R).draw := fun h => hl (.inr h)
      omega
    rw [hov'] at o1
    rcases hlim with x3 | x3
    · exact absurd (.inr x3) hl
    · exact right_some (w := none) (conclude_limit o1 hgt) (hE _ x3).1 (hE _ x3).2 (.inr ⟨hgt, rfl⟩)

/-- A legal move. -/
theorem legal_right {Z : Zobrist} {p0 : Position} {P0 : Pos} {R : Rules} {clock : Color → Option Int} {P : Pos} {h : List Pos} {s : Said}
    {ss : List Said} {st st' : State} {mv : Mv} (ha : At Z p0 P0 clock P h st) (hb : ∀ c, clock c = none ∨ R.byoyomi c = 0)
    (hn : h.length + (s :: ss).length < 2147483647) (hl' : (h.length + 1 : Int) ≤ R.limit) (hov : ¬ R.Overrun clock P.turn s)
    (hgu : ¬ R.GivesUp s) (hann : ¬ R.Announces s) (hans : s.answer = .move mv) (hm : P.Legal mv)
    (hboard : st'.board = st.board) (hcounts : st'.counts = st.counts) (hremain : st'.remain = R.charge clock P.turn s)
    (w1 : Distinct Z (P.play mv) (P :: h))
    (w2 : occurrences (P.play mv) (P.play mv :: P :: h) = 4 → P.play mv ≠ P0 ∧ Steady (P.play mv) (P :: h) ∧
      ((h.length + 1 : Int) < R.limit ∨ Repeated (P.play mv) (P :: h) .draw))
    (hrec : ∀ st1, occurrences (P.play mv) (P.play mv :: P :: h) ≠ 4 → At Z p0 P0 (R.charge clock P.turn s) (P.play mv) (P :: h) st1 →
      (∀ c, R.charge clock P.turn s c = none ∨ R.byoyomi c = 0) →
      Right R (R.charge clock P.turn s) (P.play mv) (P :: h) ss ((loop Z (termsOf R) st1 (ss.map replyOf)).bind (conclude (termsOf R)))) :
    Right R clock P h (s :: ss) (((tryMove Z st' (replyOf s)).bind (proceed fun st => loop Z (termsOf R) st (ss.map replyOf))).bind
      (conclude (termsOf R))) := by
  unfold tryMove
  rw [show (replyOf s).bestmove = usiText mv from by unfold replyOf; rw [hans]; rfl]
  obtain ⟨b', c1, -, c3, c4, -, c6⟩ := ha.played.push hm
  rw [hboard, usi_text c4]
  dsimp only
  rw [c4]
  dsimp only
  rw [c1]
  dsimp only
  obtain ⟨q, hq⟩ : ∃ q, q = P.play mv := ⟨_, rfl⟩
  rw [← hq] at w1 w2 c3 hrec
  have hqt : q.turn = P.turn.opp := by rw [hq]; exact play_turn mv
  have ht' : b'.pos.turn = P.turn.opp := by rw [show b'.pos.turn = (absPos b'.pos).turn from rfl, c3.now]; exact hqt
  -- the counter
  obtain ⟨l, l1, l2⟩ := ha.counts
  have hkey : Env.count st'.counts b'.pos.getKey = keyCount Z (q :: l) := by rw [keyCount_cons, c3.key, hcounts, l2]
  have hocc : keyCount Z (q :: l) (specKey Z q) = occurrences q (q :: l) := by
    refine keyCount_occurrences fun r hr e => ?_
    rcases List.mem_cons.mp hr with rfl | hr
    · rfl
    · exact (w1 r (by rw [l1]; exact List.mem_append_left _ hr)).1 e
  have hall : occurrences q (q :: P :: h) = occurrences q (q :: l) + (open Classical in if P0 = q then 1 else 0) := by
    rw [l1, ← List.cons_append, occurrences_snoc]
  have hle : occurrences q (q :: P :: h) ≤ 4 := by
    rw [occurrences_cons, if_pos rfl]
    have := ha.few q
    omega
  have h4 : occurrences q (q :: l) = 4 ↔ occurrences q (q :: P :: h) = 4 := by
    constructor
    · intro h4; omega
    · intro h5
      rw [if_neg (fun e => (w2 h5).1 e.symm)] at hall
      omega
  unfold afterMove
  dsimp only
  rw [hkey, c3.key]
  by_cases hfour : occurrences q (q :: P :: h) = 4
  · rw [if_pos (show keyCount Z (q :: l) (specKey Z q) = 4 from hocc.trans (h4.mpr hfour))]
    obtain ⟨x1, x2, x3⟩ := w2 hfour
    obtain ⟨v, d1, d2⟩ := fourfold_right (R := R) (clock := clock) (s := s) (ss := ss) c3 (by simp only [List.length_cons] at hn ⊢; omega) w1 hfour x2
      (x3.imp (fun h => by rw [c6, ha.ply]; omega) id)
      (fun r hr => ⟨.repeated _ _ _ _ _ mv r hl' hov hgu hans hm hann (by rw [← hq]; exact hfour) (by rw [← hq]; exact hr),
        .repeated _ _ _ _ _ mv r hl' hov hgu hans hm hann (by rw [← hq]; exact hfour) (by rw [← hq]; exact hr)⟩)
      (st := ⟨b', st'.remain, keyCount Z (q :: l)⟩) rfl
    rw [d1]
    exact d2
  · rw [if_neg (show ¬ keyCount Z (q :: l) (specKey Z q) = 4 from fun h => hfour (h4.mp (hocc.symm.trans h)))]
    obtain ⟨over, o1, o2⟩ := c3.over
    rw [o1]
    dsimp only [Out.bind]
    cases over with
    | true =>
      rw [if_pos rfl]
      refine right_some (conclude_spec (f := .stopped) (st := ⟨b', st'.remain, keyCount Z (q :: l)⟩) (w := some P.turn) o1 (.inl rfl) ?_) (.mate _ _ _ _ _ mv hl' hov hgu hans hm hann (by rw [← hq]; exact hfour) ?_)
        (.mate _ _ _ _ _ mv hl' hov hgu hans hm hann (by rw [← hq]; exact hfour) (by rw [← hq]; exact o2.mp rfl)) rfl
      · show some P.turn = some b'.pos.turn.opp
        rw [ht', opp_opp]
      · rw [← hq]; exact o2.mp rfl
    | false =>
      rw [if_neg (by decide)]
      have hlive : ∃ mv', q.Legal mv' := by
        by_contra hx
        have := o2.mpr (fun mv' h => hx ⟨mv', h⟩)
        cases this
      have hat : At Z p0 P0 (R.charge clock P.turn s) q (P :: h) ⟨b', st'.remain, keyCount Z (q :: l)⟩ := by
        refine ⟨c3, hremain, ?_, ⟨q :: l, ?_, rfl⟩, fun r => ?_, hlive⟩
        · show b'.pos.gamePly = _
          rw [c6, ha.ply]; simp
        · rw [List.cons_append, ← l1]
        · rw [occurrences_cons]
          have := ha.few r
          by_cases e : q = r
          · subst e
            rw [if_pos rfl]
            rw [occurrences_cons, if_pos rfl] at hfour
            omega
          · rw [if_neg e]; omega
      have hb' : ∀ c, R.charge clock P.turn s c = none ∨ R.byoyomi c = 0 := by
        intro c
        rcases hb c with h1 | h1
        · left
          unfold Rules.charge
          by_cases e : c = P.turn
          · subst e; simp [h1]
          · simp [e, h1]
        · exact .inr h1
      obtain ⟨x, r1, r2, r3⟩ := hrec _ hfour hat hb'
      refine ⟨x, r1, fun hx r hE => ?_, fun w b hw => ?_⟩
      · cases hE with
        | limit _ _ _ _ hx => omega
        | time _ _ _ _ _ _ hx => exact hov hx
        | resign _ _ _ _ _ _ _ hx => exact hgu hx
        | declare _ _ _ _ _ _ _ _ hx => rw [hans] at hx; cases hx
        | misdeclare _ _ _ _ _ _ _ _ hx => rw [hans] at hx; cases hx
        | illegal _ _ _ _ _ mv1 _ _ _ hx hy => rw [hans] at hx; cases hx; exact hy hm
        | announced _ _ _ _ _ mv1 _ _ _ _ _ hx => exact hann hx
        | repeated _ _ _ _ _ mv1 _ _ _ _ hx _ _ hy => rw [hans] at hx; cases hx; rw [← hq] at hy; exact hfour hy
        | mate _ _ _ _ _ mv1 _ _ _ hx _ _ _ hy =>
          rw [hans] at hx; cases hx
          obtain ⟨mv', hl⟩ := hlive
          rw [← hq] at hy; exact hy mv' hl
        | next _ _ _ _ _ mv1 _ _ _ _ _ hx' _ _ _ _ hy => rw [hans] at hx'; cases hx'; rw [← hq] at hy; exact r2 hx r hy
      · obtain ⟨mv', hl2⟩ := hlive
        obtain ⟨y1, reason, y2, y3⟩ := r3 w b hw
        exact ⟨.next _ _ _ _ _ mv mv' _ hl' hov hgu hans hm hann (by rw [← hq]; exact hfour) (by rw [← hq]; exact hl2) (by rw [← hq]; exact y1),
          reason, .next _ _ _ _ _ mv mv' _ hl' hov hgu hans hm hann (by rw [← hq]; exact hfour) (by rw [← hq]; exact hl2) (by rw [← hq]; exact y2), y3⟩

theorem run_right {Z : Zobrist} {p0 : Position} {P0 : Pos} {R : Rules} : ∀ (ss : List Said) {clock : Color → Option Int} {P : Pos} {h : List Pos}
    {st : State}, At Z p0 P0 clock P h st → (∀ c, clock c = none ∨ R.byoyomi c = 0) → h.length + ss.length < 2147483647 →
    Usual Z R P0 clock P h ss → Right R clock P h ss ((loop Z (termsOf R) st (ss.map replyOf)).bind (conclude (termsOf R)))
  | [], clock, P, h, st, ha, _, _, _ => by
    show Right R clock P h [] (conclude (termsOf R) (if st.board.pos.gamePly > R.limit then some (.stopped, st) else none))
    by_cases hl : st.board.pos.gamePly > R.limit
    · rw [if_pos hl]
      exact right_some (w := none) (conclude_limit ha.alive hl) (.limit _ _ _ _ (by rw [← ha.ply]; exact hl)) (.limit _ _ _ _ (by rw [← ha.ply]; exact hl)) rfl
    · rw [if_neg hl]
      refine ⟨none, rfl, fun _ r hE => ?_, fun w b hw => by cases hw⟩
      cases hE with
      | limit _ _ _ _ h => rw [ha.ply] at hl; exact hl h
  | s :: ss, clock, P, h, st, ha, hb, hn, hu => by
    rw [List.map_cons]
    unfold loop
    by_cases hl : st.board.pos.gamePly > (termsOf R).draw
    · rw [if_pos hl]
      exact right_some (w := none) (conclude_limit ha.alive hl) (.limit _ _ _ _ (by rw [← ha.ply]; exact hl)) (.limit _ _ _ _ (by rw [← ha.ply]; exact hl)) rfl
    rw [if_neg hl]
    have hl' : (h.length + 1 : Int) ≤ R.limit := by
      rw [← ha.ply]
      have : ¬ st.board.pos.gamePly > R.limit := hl
      omega
    obtain ⟨up, st', e, hup, hboard, hcounts, hremain⟩ := charge_spec ha.remain ha.turn (hb P.turn) s
    have halive : st'.board.pos.isGameOver = some false := by rw [hboard]; exact ha.alive
    have hply : st'.board.pos.gamePly ≤ (termsOf R).draw := by rw [hboard, ha.ply]; exact hl'
    have hturn : st'.board.pos.turn = P.turn := by rw [hboard]; exact ha.turn
    unfold round
    rw [show (replyOf s).millis = s.millis from rfl, e]
    dsimp only
    by_cases hov : R.Overrun clock P.turn s
    · rw [if_pos (hup.mpr hov)]
      refine right_some (conclude_spec halive (.inr hply) rfl) ?_ (.time _ _ _ _ _ hl' hov) rfl
      dsimp only
      rw [hturn]
      exact .time _ _ _ _ _ hl' hov
    have hup' : up = false := by
      cases up
      · rfl
      · exact absurd (hup.mp rfl) hov
    rw [if_neg (by rw [hup']; decide)]
    by_cases hbelow : ∃ n x, R.resign = some n ∧ s.score = some x ∧ x ≤ -n
    · rw [if_pos ((belowThreshold_iff R s).mpr hbelow)]
      refine right_some (conclude_spec halive (.inr hply) rfl) ?_ (.resign _ _ _ _ _ hl' hov (.inr hbelow)) rfl
      dsimp only
      rw [hturn]
      exact .resign _ _ _ _ _ hl' hov (.inr hbelow)
    rw [if_neg (fun h => hbelow ((belowThreshold_iff R s).mp h))]
    obtain ⟨u1, u2, u3⟩ := hu hl' hov (fun n x h1 h2 h3 => hbelow ⟨n, x, h1, h2, h3⟩)
    have hgood := ha.played.good
    by_cases hann : R.Announces s
    · rw [if_pos ((announcesMate_iff R s).mpr hann)]
      obtain ⟨mv, a1, a2, a3⟩ := u1 hann
      obtain ⟨b', c1, -, c3, c4, -, c6⟩ := ha.played.push a2
      have hgu : ¬ R.GivesUp s := by
        rintro (h1 | h1)
        · rw [a1] at h1; cases h1
        · exact hbelow h1
      have : pushAnnounced Z st' (replyOf s) = .ok (some .stopped, { st' with board := b' }) := by
        unfold pushAnnounced
        rw [show (replyOf s).bestmove = usiText mv from by unfold replyOf; rw [a1]; rfl, hboard, usi_text c4]
        dsimp only
        rw [c1]
      rw [this]
      obtain ⟨over, o1, o2⟩ := c3.over
      have ht' : b'.pos.turn = P.turn.opp := by rw [show b'.pos.turn = (absPos b'.pos).turn from rfl, c3.now]; exact play_turn mv
      refine right_some (conclude_spec (w := some P.turn) (st := { st' with board := b' }) o1 ?_ ?_) (.announced _ _ _ _ _ mv hl' hov hgu a1 a2 hann)
        (.announced _ _ _ _ _ mv hl' hov hgu a1 a2 hann) rfl
      · rcases a3 with a3 | a3
        · right
          show b'.pos.gamePly ≤ R.limit
          rw [c6, ha.ply]; omega
        · left; exact o2.mpr a3
      · show some P.turn = some b'.pos.turn.opp
        rw [ht', opp_opp]
    rw [if_neg (fun h => hann ((announcesMate_iff R s).mp h))]
    rw [show (replyOf s).bestmove = answerText s.answer from rfl]
    cases hans : s.answer with
    | resign =>
      rw [if_pos (show answerText .resign = "resign".toList from rfl)]
      refine right_some (conclude_spec halive (.inr hply) rfl) ?_ (.resign _ _ _ _ _ hl' hov (.inl hans)) rfl
      dsimp only
      rw [hturn]
      exact .resign _ _ _ _ _ hl' hov (.inl hans)
    | declare =>
      rw [if_neg (by decide), if_pos (show answerText .declare = "win".toList from rfl)]
      have hgu : ¬ R.GivesUp s := by
        rintro (h1 | h1)
        · rw [hans] at h1; cases h1
        · exact hbelow h1
      refine right_some (conclude_spec halive (.inr hply) rfl) ?_ (.declare _ _ _ _ _ hl' hov hgu hans) rfl
      dsimp only
      rw [hturn]
      exact .declare _ _ _ _ _ hl' hov hgu hans (u2 hann hans)
    | move mv =>
      have hgu : ¬ R.GivesUp s := by
        rintro (h1 | h1)
        · rw [hans] at h1; cases h1
        · exact hbelow h1
      obtain ⟨v1, v2⟩ := u3 mv hans
      rw [if_neg (show answerText (.move mv) ≠ _ from usiText_ne_resign mv), if_neg (show answerText (.move mv) ≠ _ from usiText_ne_win mv)]
      by_cases hm : P.Legal mv
      · obtain ⟨w1, w2, w3⟩ := v2 hann hm
        exact legal_right ha hb hn hl' hov hgu hann hans hm hboard hcounts (hremain hup') w1 w2
          (fun st1 hne hat hb' => run_right ss hat hb' (by simp only [List.length_cons] at hn ⊢; omega) (w3 hne))
      · have hnot : st'.board.pos.isLegal (encode st'.board.pos mv) = some false := by
          rw [hboard]
          obtain ⟨x, l, j1, -, -, j2⟩ := C27_is_legal_partial st.board.pos hgood.inv.views hgood.check hgood.regular mv (by rw [ha.played.now]; exact v1)
          cases x
          · exact j1
          · exact absurd (by rw [← ha.played.now]; exact j2.mp rfl) hm
        unfold tryMove
        rw [show (replyOf s).bestmove = usiText mv from by unfold replyOf; rw [hans]; rfl, usi_text_not hnot]
        dsimp only
        rw [isLegal_zero]
        dsimp only [Out.bind]
        refine right_some (conclude_spec (w := some P.turn.opp) halive (.inr hply) ?_) (.illegal _ _ _ _ _ mv hl' hov hgu hans hm)
          (.illegal _ _ _ _ _ mv hl' hov hgu hans hm) rfl
        rw [hturn]

/-- The result of a game is determined. -/
theorem repeated_unique {q : Pos} {h : List Pos} (h4 : occurrences q (q :: h) = 4) {r r' : Result} (h1 : Repeated q h r) (h2 : Repeated q h r') :
    r = r' := by
  obtain ⟨d, hd⟩ := occurrences_first (q := q) (l := q :: h) (by omega)
  cases r with
  | draw =>
    cases r' with
    | draw => rfl
    | wins c => exact absurd (h2 d hd).1 (h1 d hd _)
  | wins c =>
    cases r' with
    | draw => exact absurd (h1 d hd).1 (h2 d hd _)
    | wins c' =>
      have a := h1 d hd
      have b := h2 d hd
      cases c <;> cases c'
      · rfl
      · exact absurd a.1 b.2
      · exact absurd a.1 b.2
      · rfl

theorem ends_unique {R : Rules} {clock : Color → Option Int} {P : Pos} {h : List Pos} {ss : List Said} {r r' : Result}
    (h1 : Ends R clock P h ss r) (h2 : Ends R clock P h ss r') : r = r' := by
  induction h1 with
  | limit _ _ _ _ a =>
    cases h2 with
    | limit => rfl
    | _ => exact absurd a (by omega)
  | time _ _ _ _ _ a b =>
    cases h2 with
    | limit _ _ _ _ a' => exact absurd a (by omega)
    | time => rfl
    | resign => rfl
    | misdeclare => rfl
    | illegal => rfl
    | _ => contradiction
  | resign _ _ _ _ _ a b c =>
    cases h2 with
    | limit _ _ _ _ a' => exact absurd a (by omega)
    | time => rfl
    | resign => rfl
    | misdeclare => rfl
    | illegal => rfl
    | _ => contradiction
  | declare _ _ _ _ _ a b c d e =>
    cases h2 with
    | limit _ _ _ _ a' => exact absurd a (by omega)
    | declare => rfl
    | announced _ _ _ _ _ _ _ _ _ d' => exact nomatch d.symm.trans d'
    | repeated _ _ _ _ _ _ _ _ _ _ d' => exact nomatch d.symm.trans d'
    | mate _ _ _ _ _ _ _ _ _ d' => exact nomatch d.symm.trans d'
    | next _ _ _ _ _ _ _ _ _ _ _ d' => exact nomatch d.symm.trans d'
    | illegal _ _ _ _ _ _ _ _ _ d' => exact nomatch d.symm.trans d'
    | _ => contradiction
  | misdeclare _ _ _ _ _ a b c d e =>
    cases h2 with
    | limit _ _ _ _ a' => exact absurd a (by omega)
    | misdeclare => rfl
    | announced _ _ _ _ _ _ _ _ _ d' => exact nomatch d.symm.trans d'
    | repeated _ _ _ _ _ _ _ _ _ _ d' => exact nomatch d.symm.trans d'
    | mate _ _ _ _ _ _ _ _ _ d' => exact nomatch d.symm.trans d'
    | next _ _ _ _ _ _ _ _ _ _ _ d' => exact nomatch d.symm.trans d'
    | illegal _ _ _ _ _ _ _ _ _ d' => exact nomatch d.symm.trans d'
    | _ => contradiction
  | illegal _ _ _ _ _ mv a b c d e =>
    cases h2 with
    | limit _ _ _ _ a' => exact absurd a (by omega)
    | illegal => rfl
    | declare _ _ _ _ _ _ _ _ d' => exact nomatch d.symm.trans d'
    | misdeclare _ _ _ _ _ _ _ _ d' => exact nomatch d.symm.trans d'
    | announced _ _ _ _ _ _ _ _ _ d' => rw [d] at d'; cases d' <;> contradiction
    | repeated _ _ _ _ _ _ _ _ _ _ d' => rw [d] at d'; cases d' <;> contradiction
    | mate _ _ _ _ _ _ _ _ _ d' => rw [d] at d'; cases d' <;> contradiction
    | next _ _ _ _ _ _ _ _ _ _ _ d' => rw [d] at d'; cases d' <;> contradiction
    | _ => contradiction
  | announced _ _ _ _ _ mv a b c d e f =>
    cases h2 with
    | limit _ _ _ _ a' => exact absurd a (by omega)
    | announced => rfl
    | mate => rfl
    | declare _ _ _ _ _ _ _ _ d' => exact nomatch d.symm.trans d'
    | misdeclare _ _ _ _ _ _ _ _ d' => exact nomatch d.symm.trans d'
    | illegal _ _ _ _ _ _ _ _ _ d' => rw [d] at d'; cases d' <;> contradiction
    | _ => contradiction
  | repeated _ _ _ _ _ mv r a b c d e f g i =>
    cases h2 with
    | limit _ _ _ _ a' => exact absurd a (by omega)
    | declare _ _ _ _ _ _ _ _ d' => exact nomatch d.symm.trans d'
    | misdeclare _ _ _ _ _ _ _ _ d' => exact nomatch d.symm.trans d'
    | illegal _ _ _ _ _ _ _ _ _ d' => rw [d] at d'; cases d' <;> contradiction
    | repeated _ _ _ _ _ _ _ _ _ _ d' _ _ _ i' => rw [d] at d'; cases d'; exact repeated_unique g i i'
    | mate _ _ _ _ _ _ _ _ _ d' => rw [d] at d'; cases d' <;> contradiction
    | next _ _ _ _ _ _ _ _ _ _ _ d' => rw [d] at d'; cases d' <;> contradiction
    | _ => contradiction
  | mate _ _ _ _ _ mv a b c d e f g i =>
    cases h2 with
    | limit _ _ _ _ a' => exact absurd a (by omega)
    | declare _ _ _ _ _ _ _ _ d' => exact nomatch d.symm.trans d'
    | misdeclare _ _ _ _ _ _ _ _ d' => exact nomatch d.symm.trans d'
    | illegal _ _ _ _ _ _ _ _ _ d' => rw [d] at d'; cases d' <;> contradiction
    | repeated _ _ _ _ _ _ _ _ _ _ d' => rw [d] at d'; cases d' <;> contradiction
    | mate => rfl
    | next _ _ _ _ _ _ mv' _ _ _ _ d' _ _ _ i' => rw [d] at d'; cases d'; exact absurd i' (i mv')
    | _ => contradiction
  | next _ _ _ _ _ mv mv' r a b c d e f g i j ih =>
    cases h2 with
    | limit _ _ _ _ a' => exact absurd a (by omega)
    | declare _ _ _ _ _ _ _ _ d' => exact nomatch d.symm.trans d'
    | misdeclare _ _ _ _ _ _ _ _ d' => exact nomatch d.symm.trans d'
    | illegal _ _ _ _ _ _ _ _ _ d' => rw [d] at d'; cases d' <;> contradiction
    | repeated _ _ _ _ _ _ _ _ _ _ d' => rw [d] at d'; cases d' <;> contradiction
    | mate _ _ _ _ _ _ _ _ _ d' _ _ _ i' => rw [d] at d'; cases d'; exact absurd i (i' mv')
    | next _ _ _ _ _ _ _ _ _ _ _ d' _ _ _ _ j' => rw [d] at d'; cases d'; exact ih j'
    | _ => contradiction

/-- **C77** (partial): a game between players whose answers are resignations, declarations and moves, from a position that has been
set up with move number 1 and has a legal move, ends with the winner that the rules give, and goes on as long as they do. (`Usual`
names the answers that are excluded; byoyomi must be 0 for a side whose time is limited.) The result is the only one (second part).

Missing: all that `Usual` excludes; see `C77_fails` and the theorems after it. -/
theorem C77_result_partial (Z : Zobrist) (p : Position) (hp : Inv Z p) (hc : CheckOK p) (hr : (absPos p).Regular) (hf : Fresh p)
    (hply : p.gamePly = 1) (hlive : ∃ mv, (absPos p).Legal mv) (R : Rules) (clock : Color → Option Int)
    (hb : ∀ c, clock c = none ∨ R.byoyomi c = 0) (ss : List Said) (hn : ss.length < 2147483647)
    (hu : Usual Z R (absPos p) clock (absPos p) [] ss) :
    (∃ x, game Z (termsOf R) p clock (ss.map replyOf) = .ok x ∧ (x = none → ∀ r, ¬ Ends R clock (absPos p) [] ss r) ∧
      ∀ w b, x = some (w, b) → Ends R clock (absPos p) [] ss (resultOfWin w.1) ∧
        ∃ reason, EndsBy R clock (absPos p) [] ss reason ∧ reason.Line b.pos.turn (R.limit < b.pos.gamePly) w.2) ∧
    ∀ r r', Ends R clock (absPos p) [] ss r → Ends R clock (absPos p) [] ss r' → r = r' := by
  refine ⟨run_right ss (p0 := p) (P0 := absPos p) ?_ hb (by simpa using hn) hu, fun r r' => ends_unique⟩
  refine ⟨⟨⟨hp, hc, hr⟩, rfl, [], GameLine.fresh True hp hc hr.waiting hf⟩, rfl, ?_, ⟨[], rfl, ?_⟩, fun r => ?_, hlive⟩
  · rw [show (start p clock).board.pos = p from rfl, hply]; rfl
  · funext k; rfl
  · rw [occurrences_cons]
    have : occurrences r [] = 0 := rfl
    split <;> omega

end Verif.Match
