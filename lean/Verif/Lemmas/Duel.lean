import Verif.Model.Duel
import Verif.Spec.Duel
import Verif.Lemmas.MatchCsa
import Verif.Lemmas.WebCsa
import Verif.Props.UsiSession

/-!
# Two engines in a match: lemmas
-/

namespace Verif.Match
open Spec Bitboard Position Usi

variable {σ : Type}

/-- `go` with the lines. -/
theorem goHeard_polite (P : Session.Player σ) (hP : P.Polite) (c : Client σ) (s : σ) (hs : c.proc = some ⟨s, []⟩) {a : GoArgs} (h : (Call.go a).Plain)
    (hp : a.ponder = false) :
    goHeard (program P) c a = .returns ({ c with proc := some ⟨P.next s (.go a.limits), []⟩ }, P.chat s (.go a.limits), P.best s a.limits) := by
  have e : (program P).hear s (goLine a) = (P.next s (.go a.limits), P.chat s (.go a.limits) ++ [Session.bestLine (P.best s a.limits)]) := by
    have := program_hear P s h
    rw [show (Call.go a).line = goLine a from rfl] at this
    rw [this]
    show (_, P.chat s (.go a.limits) ++ (if a.ponder then [] else _)) = _
    rw [hp]; rfl
  unfold goHeard
  rw [hs]
  dsimp only
  rw [e, List.nil_append]
  rw [readTo_at [] (bestOf_line (hP.move _ _) (hP.ponder _ _)) fun x hx => bestOf_other (hP.search _ _ x hx)]

/-- `position` and `go`. -/
theorem ask_polite (P : Session.Player σ) (hP : P.Polite) (c : Client σ) (s : σ) (hs : c.proc = some ⟨s, []⟩) {a : GoArgs} (h : (Call.go a).Plain)
    (hp : a.ponder = false) {mvs : List Mv} :
    ∃ c', ask (program P) c (mvs.map usiText) a = .returns (c', P.chat (P.next s (.position "startpos".toList (mvs.map usiText))) (.go a.limits),
        P.best (P.next s (.position "startpos".toList (mvs.map usiText))) a.limits) ∧
      c'.proc = some ⟨P.next (P.next s (.position "startpos".toList (mvs.map usiText))) (.go a.limits), []⟩ := by
  have hplain : (Call.position (some (mvs.map usiText)) "startpos".toList).Plain := by
    refine ⟨by decide, by decide, ?_⟩
    intro ws hws w hw
    cases hws
    obtain ⟨mv, -, rfl⟩ := List.mem_map.mp hw
    have hs := (usiText_solid mv).1
    exact ⟨fun h => absurd (hs _ h) (by decide), fun h => absurd (hs _ h) (by decide)⟩
  unfold ask
  rw [call_talk P hP c s hs hplain trivial (by intro h; cases h) (by intro h; cases h)]
  dsimp only
  rw [goHeard_polite P hP _ _ rfl h hp]
  exact ⟨_, rfl, rfl⟩

/-- The engine asked is that of the side to move. -/
def InTurn (st : State) : Prop := st.board.pos.turn = if (st.board.pos.gamePly - 1) % 2 = 0 then .black else .white

theorem engineIndex_turn {st : State} (h : InTurn st) : engineIndex st = st.board.pos.turn := h.symm

theorem afterMove_remain {st st' : State} {f : Option Flag} (h : afterMove st = .ok (f, st')) : st'.remain = st.remain := by
  unfold afterMove at h
  dsimp only at h
  split at h
  · split at h
    · cases h
    · cases h; rfl
  · split at h
    · cases h
    · cases h; rfl

theorem after_parity (P : Pos) : ∀ (mvs : List Mv), (P.after mvs).turn = if mvs.length % 2 = 0 then P.turn else P.turn.opp := by
  intro mvs
  induction mvs generalizing P with
  | nil => rfl
  | cons mv mvs ih =>
    show ((P.play mv).after mvs).turn = _
    rw [ih, play_turn, List.length_cons]
    have : P.turn.opp.opp = P.turn := by cases P.turn <;> rfl
    split <;> split <;> first | rfl | omega | exact this

/-- What the players say is in order: information can be read, no move promotes where it cannot. -/
def Orderly : Pos → List Spoken → Prop
  | _, [] => True
  | P, s :: ss => Spoken.Readable s ∧ ∀ mv, s.answer = .move mv → PromotionOK P mv ∧ (P.Legal mv → Orderly (P.play mv) ss)

/-- A round after which the game goes on. -/
theorem round_on {Z : Zobrist} {R : Rules} {st st' : State} (hg : Csa.Good Z st.board.pos) {clock : Color → Option Int} (hc : st.remain = clock)
    (hb : ∀ c, clock c = none ∨ R.byoyomi c = 0) {s : Said} (hmv : ∀ mv, s.answer = .move mv → PromotionOK (absPos st.board.pos) mv)
    (hr : round Z (termsOf R) st (replyOf s) = .ok (none, st')) :
    ∃ mv p', s.answer = .move mv ∧ (absPos st.board.pos).Legal mv ∧ doMove Z st.board.pos (encode st.board.pos mv) = some p' ∧ Csa.Good Z p' ∧
      absPos p' = (absPos st.board.pos).play mv ∧ st'.board.pos = p' ∧ st'.remain = R.charge clock st.board.pos.turn s := by
  obtain ⟨up, st0, e1, -, e2, -, e3⟩ := charge_spec (R := R) hc rfl (hb _) s
  unfold round at hr
  rw [show (replyOf s).millis = s.millis from rfl, e1] at hr
  dsimp only at hr
  split at hr
  · cases hr
  rename_i hup
  replace e3 := e3 (by simpa using hup)
  split at hr
  · cases hr
  split at hr
  · unfold pushAnnounced at hr
    split at hr
    · cases hr
    · split at hr <;> cases hr
  split at hr
  · cases hr
  rename_i hres
  split at hr
  · cases hr
  rename_i hwin
  cases ha : s.answer with
  | resign => exact absurd (by show answerText s.answer = _; rw [ha]; rfl) hres
  | declare => exact absurd (by show answerText s.answer = _; rw [ha]; rfl) hwin
  | move mv =>
    have hbest : (replyOf s).bestmove = usiText mv := by show answerText s.answer = _; rw [ha]; rfl
    obtain ⟨b, -, j1, -, -, j2⟩ := C27_is_legal_partial _ hg.inv.views hg.check hg.regular mv (hmv mv ha)
    unfold tryMove at hr
    rw [e2, hbest] at hr
    cases b with
    | false =>
      rw [usi_text_not j1] at hr
      dsimp only at hr
      rw [isLegal_zero] at hr
      cases hr
    | true =>
      have hm := j2.mp rfl
      obtain ⟨p', d1, d2, d3⟩ := hg.doMove hm
      rw [usi_text j1] at hr
      dsimp only at hr
      rw [j1] at hr
      dsimp only at hr
      unfold Board.push at hr
      rw [d1] at hr
      dsimp only [Option.map_some] at hr
      refine ⟨mv, p', rfl, hm, d1, d2, d3, ?_, ?_⟩
      · rw [afterMove_board hr]
      · rw [afterMove_remain hr]; exact e3

/-- The players, each in its state, answer `ss` one after the other: whose turn it is hears the moves made so far and the clocks. -/
def Plays (R : Rules) (byoyomi : Color → Option Int) (G : Color → Session.Player σ) : (Color → σ) → (Color → Option Int) → Pos → List Mv → List Spoken → Prop
  | _, _, _, _, [] => True
  | S, clock, P, past, s :: ss =>
    (G P.turn).chat ((G P.turn).next (S P.turn) (.position "startpos".toList (past.map usiText))) (.go (limitsOf R byoyomi clock P.turn)) = (turnOf s).lines ∧
    (G P.turn).best ((G P.turn).next (S P.turn) (.position "startpos".toList (past.map usiText))) (limitsOf R byoyomi clock P.turn) =
      ((turnOf s).bestmove, (turnOf s).ponder) ∧
    ∀ mv, s.answer = .move mv → P.Legal mv →
      Plays R byoyomi G (fun c => if c = P.turn then (G P.turn).next ((G P.turn).next (S P.turn) (.position "startpos".toList (past.map usiText)))
          (.go (limitsOf R byoyomi clock P.turn)) else S c) (R.charge clock P.turn s.said) (P.play mv) (past ++ [mv]) ss

/-- A turn judged with the listener is the round with what was said. -/
theorem judge_said {Z : Zobrist} {R : Rules} {byoyomi : Color → Option Int} {st : State} {h : Heard} {s : Spoken} (hs : Spoken.Readable s) {cmd : List Char}
    (hcmd : cmd = goCommand (termsOf R) byoyomi st) :
    judge Z (termsOf R) st (h.after cmd (turnOf s)).info (turnOf s) = round Z (termsOf R) st (replyOf s.said) := by
  subst hcmd
  unfold judge scoreRead
  split
  · rename_i hup
    rw [Out.bind_ok]
    unfold round
    rw [show (replyOf s.said).millis = (turnOf s).millis from rfl]
    obtain ⟨up, st0, e⟩ : ∃ up st0, charge (termsOf R) st (turnOf s).millis = (up, st0) := ⟨_, _, rfl⟩
    rw [e] at hup
    subst hup
    simp only [e, if_true]
  · rw [score_heard hs, Out.bind_ok]; rfl

theorem goArgs_command {R : Rules} {byoyomi : Color → Option Int} {st : State} (h : InTurn st) :
    goLine (goArgs (termsOf R) byoyomi st) = goCommand (termsOf R) byoyomi st := by
  unfold goArgs goCommand
  rw [engineIndex_turn h]

theorem goArgs_limits {R : Rules} {byoyomi clock : Color → Option Int} {st : State} (h : InTurn st) (hc : st.remain = clock) :
    (goArgs (termsOf R) byoyomi st).limits = limitsOf R byoyomi clock st.board.pos.turn := by
  unfold goArgs GoArgs.limits limitsOf
  rw [engineIndex_turn h, hc]; rfl

/-- The loop with the engines is the loop with what they say. -/
theorem duel_loop {Z : Zobrist} {R : Rules} {byoyomi : Color → Option Int} (hplain : ∀ c, byoyomi c = none ∨ (R.inc .black = none ∧ R.inc .white = none))
    {G : Color → Session.Player σ} (hG : ∀ c, (G c).Polite) : ∀ (ss : List Spoken) {S : Color → σ} {clock : Color → Option Int} {tb : Table σ}
    {past : List Mv}, Csa.Good Z tb.game.board.pos → InTurn tb.game → tb.game.remain = clock → (∀ c, clock c = none ∨ R.byoyomi c = 0) →
    tb.usi = past.map usiText → (∀ c, (tb.engines c).proc = some ⟨S c, []⟩) → Orderly (absPos tb.game.board.pos) ss →
    Plays R byoyomi G S clock (absPos tb.game.board.pos) past ss →
    duel Z (termsOf R) byoyomi (fun c => program (G c)) tb (ss.map Spoken.micros) = .returns (loop Z (termsOf R) tb.game (ss.map fun s => replyOf s.said))
  | [], S, clock, tb, past, _, _, _, _, _, _, _, _ => rfl
  | s :: ss, S, clock, tb, past, hg, ht, hc, hb, hu, he, ho, hpl => by
    obtain ⟨ho1, ho2⟩ := ho
    obtain ⟨hp1, hp2, hp3⟩ := hpl
    rw [List.map_cons, List.map_cons, duel, loop]
    by_cases hd : tb.game.board.pos.gamePly > (termsOf R).draw
    · rw [if_pos hd, if_pos hd]
    rw [if_neg hd, if_neg hd]
    have hturn : (absPos tb.game.board.pos).turn = tb.game.board.pos.turn := rfl
    rw [hturn] at hp1 hp2 hp3
    rw [engineIndex_turn ht, hu]
    obtain ⟨c', a1, a2⟩ := ask_polite (G tb.game.board.pos.turn) (hG _) (tb.engines tb.game.board.pos.turn) (S tb.game.board.pos.turn) (he _)
      (a := goArgs (termsOf R) byoyomi tb.game) (hplain _) rfl (mvs := past)
    rw [goArgs_limits ht hc] at a1 a2
    rw [a1, hp1, hp2]
    dsimp only
    have hj := fun h => judge_said (Z := Z) (R := R) (byoyomi := byoyomi) (st := tb.game) (h := h) ho1 (goArgs_command ht)
    rw [show (⟨(turnOf s).lines, (turnOf s).bestmove, (turnOf s).ponder, s.micros⟩ : Turn) = turnOf s from rfl, hj]
    cases hr : round Z (termsOf R) tb.game (replyOf s.said) with
    | error => rfl
    | ub => rfl
    | ok y =>
      obtain ⟨f, st'⟩ := y
      cases f with
      | some f => rfl
      | none =>
        rw [Out.bind_ok]
        show duel Z _ _ _ _ _ = .returns (loop Z _ _ _)
        obtain ⟨mv, p', m1, m2, m3, m4, m5, m6, m7⟩ := round_on hg hc hb (s := s.said) (fun mv h => (ho2 mv h).1) hr
        have hword : (turnOf s).bestmove = usiText mv := by
          show answerText s.answer = _
          rw [show s.answer = .move mv from m1]; rfl
        refine duel_loop hplain hG ss (S := fun c => if c = tb.game.board.pos.turn then (G tb.game.board.pos.turn).next
            ((G tb.game.board.pos.turn).next (S tb.game.board.pos.turn) (.position "startpos".toList (past.map usiText)))
            (.go (limitsOf R byoyomi clock tb.game.board.pos.turn)) else S c)
          (clock := R.charge clock tb.game.board.pos.turn s.said) (past := past ++ [mv]) ?_ ?_ ?_ ?_ ?_ ?_ ?_ ?_
        · show Csa.Good Z st'.board.pos
          rw [m6]; exact m4
        · show InTurn st'
          unfold InTurn at ht ⊢
          rw [m6, Web.doMove_number m3]
          have : p'.turn = tb.game.board.pos.turn.opp := (congrArg Pos.turn m5).trans (play_turn _)
          rw [this, ht]
          split <;> split <;> first | rfl | omega
        · exact m7
        · intro c
          rcases hb c with h | h
          · left
            unfold Rules.charge
            split
            · rename_i e; rw [← e, h]; rfl
            · exact h
          · exact .inr h
        · show tb.usi ++ [(turnOf s).bestmove] = _
          rw [hword, hu, List.map_append]; rfl
        · intro c
          show (if c = engineIndex tb.game then c' else tb.engines c).proc = _
          rw [engineIndex_turn ht]
          split
          · exact a2
          · exact he c
        · show Orderly (absPos st'.board.pos) ss
          rw [m6, m5]; exact (ho2 mv m1).2 m2
        · show Plays R byoyomi G _ _ (absPos st'.board.pos) _ ss
          rw [m6, m5]; exact hp3 mv m1 m2

end Verif.Match
