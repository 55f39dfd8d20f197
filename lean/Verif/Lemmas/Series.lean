import Verif.Model.Series
import Verif.Spec.Series
import Verif.Lemmas.Duel
import Verif.Props.Duel

/-!
# The games of a match: lemmas
-/

namespace Verif.Match
open Spec Bitboard Position Usi

variable {σ : Type}

theorem andThen_returns {α β : Type} (a : α) (f : α → Outcome β) : andThen (.returns a) f = f a := rfl

/-- The game of `seatedDuel` is the game of `duel`. -/
theorem seatedDuel_result {Z : Zobrist} {T : Terms} {byoyomi : Color → Option Int} {G : Color → Program σ} : ∀ (ds : List Nat) (tb : Table σ),
    andThen (seatedDuel Z T byoyomi G tb ds) (fun x => .returns x.2) = duel Z T byoyomi G tb ds
  | [], _ => rfl
  | d :: ds, tb => by
    rw [seatedDuel, duel]
    split
    · rfl
    cases ask (G (engineIndex tb.game)) (tb.engines (engineIndex tb.game)) tb.usi (goArgs T byoyomi tb.game) with
    | raises => rfl
    | never => rfl
    | returns x =>
      obtain ⟨c, lines, word, ponder⟩ := x
      dsimp only
      cases judge Z T tb.game _ _ with
      | error => rfl
      | ub => rfl
      | ok y =>
        obtain ⟨f, st⟩ := y
        cases f with
        | some f => rfl
        | none => exact seatedDuel_result ds _

/-- The engine to move has heard the position and the clocks. -/
def askedStates (R : Rules) (byoyomi : Color → Option Int) (G : Color → Session.Player σ) (S : Color → σ) (clock : Color → Option Int) (P : Pos) (past : List Mv) :
    Color → σ := fun c => if c = P.turn then (G P.turn).next ((G P.turn).next (S P.turn) (.position "startpos".toList (past.map usiText)))
      (.go (limitsOf R byoyomi clock P.turn)) else S c

/-- The moves in an answer. -/
def movesIn : Answer → List Mv
  | .move mv => [mv]
  | _ => []

/-- The engines after some turns. -/
def statesAfter (R : Rules) (byoyomi : Color → Option Int) (G : Color → Session.Player σ) :
    (Color → σ) → (Color → Option Int) → Pos → List Mv → List Spoken → Color → σ
  | S, _, _, _, [] => S
  | S, clock, P, past, s :: ss =>
    statesAfter R byoyomi G (askedStates R byoyomi G S clock P past) (R.charge clock P.turn s.said) (P.answered s.answer) (past ++ movesIn s.answer) ss

/-- All answers but the last are legal moves. -/
def GoesOn : Pos → List Spoken → Prop
  | _, [] => True
  | P, s :: ss => ss = [] ∨ ∃ mv, s.answer = .move mv ∧ P.Legal mv ∧ GoesOn (P.play mv) ss

/-- As `duel_loop`; and when the game is over the engines have been heard out. -/
theorem seated_loop {Z : Zobrist} {R : Rules} {byoyomi : Color → Option Int} (hplain : ∀ c, byoyomi c = none ∨ (R.inc .black = none ∧ R.inc .white = none))
    {G : Color → Session.Player σ} (hG : ∀ c, (G c).Polite) : ∀ (ss : List Spoken) {S : Color → σ} {clock : Color → Option Int} {tb : Table σ}
    {past : List Mv}, Csa.Good Z tb.game.board.pos → InTurn tb.game → tb.game.remain = clock → (∀ c, clock c = none ∨ R.byoyomi c = 0) →
    tb.usi = past.map usiText → (∀ c, (tb.engines c).proc = some ⟨S c, []⟩) → Orderly (absPos tb.game.board.pos) ss →
    Plays R byoyomi G S clock (absPos tb.game.board.pos) past ss →
    ∃ e k, seatedDuel Z (termsOf R) byoyomi (fun c => program (G c)) tb (ss.map Spoken.micros) =
        .returns (e, loop Z (termsOf R) tb.game (ss.map fun s => replyOf s.said)) ∧
      loop Z (termsOf R) tb.game ((ss.take k).map fun s => replyOf s.said) = loop Z (termsOf R) tb.game (ss.map fun s => replyOf s.said) ∧
      (∀ j, j < k → loop Z (termsOf R) tb.game ((ss.take j).map fun s => replyOf s.said) = .ok none) ∧ GoesOn (absPos tb.game.board.pos) (ss.take k) ∧
      ∀ c, (e c).proc = some ⟨statesAfter R byoyomi G S clock (absPos tb.game.board.pos) past (ss.take k) c, []⟩
  | [], S, clock, tb, past, _, _, _, _, _, he, _, _ => ⟨_, 0, rfl, rfl, (fun j hj => absurd hj (by omega)), trivial, he⟩
  | s :: ss, S, clock, tb, past, hg, ht, hc, hb, hu, he, ho, hpl => by
    obtain ⟨ho1, ho2⟩ := ho
    obtain ⟨hp1, hp2, hp3⟩ := hpl
    by_cases hd : tb.game.board.pos.gamePly > (termsOf R).draw
    · refine ⟨tb.engines, 0, ?_, ?_, (fun j hj => absurd hj (by omega)), trivial, he⟩
      · rw [List.map_cons, List.map_cons, seatedDuel, loop, if_pos hd, if_pos hd]
      · rw [List.map_cons, loop, if_pos hd]
        show loop Z (termsOf R) tb.game [] = _
        rw [loop, if_pos hd]
    have hloop : ∀ rs, loop Z (termsOf R) tb.game (replyOf s.said :: rs) = (round Z (termsOf R) tb.game (replyOf s.said)).bind (proceed fun st => loop Z (termsOf R) st rs) := by
      intro rs
      rw [loop, if_neg hd]
    have hnil : loop Z (termsOf R) tb.game [] = .ok none := by
      rw [loop, if_neg hd]
    have hturn : (absPos tb.game.board.pos).turn = tb.game.board.pos.turn := rfl
    rw [hturn] at hp1 hp2 hp3
    obtain ⟨c', a1, a2⟩ := ask_polite (G tb.game.board.pos.turn) (hG _) (tb.engines tb.game.board.pos.turn) (S tb.game.board.pos.turn) (he _)
      (a := goArgs (termsOf R) byoyomi tb.game) (hplain _) rfl (mvs := past)
    rw [goArgs_limits ht hc] at a1 a2
    have hj := fun h => judge_said (Z := Z) (R := R) (byoyomi := byoyomi) (st := tb.game) (h := h) ho1 (goArgs_command ht)
    obtain ⟨h, hstep⟩ : ∃ h, seatedDuel Z (termsOf R) byoyomi (fun c => program (G c)) tb ((s :: ss).map Spoken.micros) =
        seatedNext (tb.next c' h (turnOf s).bestmove tb.game).engines
          (fun st => seatedDuel Z (termsOf R) byoyomi (fun c => program (G c)) (tb.next c' h (turnOf s).bestmove st) (ss.map Spoken.micros))
          (round Z (termsOf R) tb.game (replyOf s.said)) := by
      rw [List.map_cons, seatedDuel, if_neg hd, engineIndex_turn ht, hu, a1, hp1, hp2]
      dsimp only
      rw [show (⟨(turnOf s).lines, (turnOf s).bestmove, (turnOf s).ponder, s.micros⟩ : Turn) = turnOf s from rfl, hj]
      exact ⟨_, rfl⟩
    have hask : ∀ (st : State) c, ((tb.next c' h (turnOf s).bestmove st).engines c).proc =
        some ⟨askedStates R byoyomi G S clock (absPos tb.game.board.pos) past c, []⟩ := by
      intro st c
      show (if c = engineIndex tb.game then c' else tb.engines c).proc = _
      unfold askedStates
      rw [engineIndex_turn ht, hturn]
      split
      · exact a2
      · exact he c
    have hone : ∀ x, x = round Z (termsOf R) tb.game (replyOf s.said) →
        (∀ rs, x.bind (proceed fun st => loop Z (termsOf R) st rs) = x.bind (proceed fun st => loop Z (termsOf R) st [])) →
        loop Z (termsOf R) tb.game (((s :: ss).take 1).map fun s => replyOf s.said) = loop Z (termsOf R) tb.game ((s :: ss).map fun s => replyOf s.said) := by
      intro x hx h
      show loop Z (termsOf R) tb.game (replyOf s.said :: []) = loop Z (termsOf R) tb.game (replyOf s.said :: _)
      rw [hloop, hloop, ← hx, h (ss.map fun s => replyOf s.said)]
    have hzero : ∀ j, j < 1 → loop Z (termsOf R) tb.game (((s :: ss).take j).map fun s => replyOf s.said) = .ok none := by
      intro j hj
      rw [show j = 0 by omega]
      exact hnil
    have hlast : GoesOn (absPos tb.game.board.pos) ((s :: ss).take 1) := .inl rfl
    have hfull : loop Z (termsOf R) tb.game ((s :: ss).map fun s => replyOf s.said) =
        (round Z (termsOf R) tb.game (replyOf s.said)).bind (proceed fun st => loop Z (termsOf R) st (ss.map fun s => replyOf s.said)) := hloop _
    cases hr : round Z (termsOf R) tb.game (replyOf s.said) with
    | error => exact ⟨_, 1, by rw [hstep, hfull, hr]; rfl, hone _ hr.symm fun _ => rfl, hzero, hlast, hask tb.game⟩
    | ub => exact ⟨_, 1, by rw [hstep, hfull, hr]; rfl, hone _ hr.symm fun _ => rfl, hzero, hlast, hask tb.game⟩
    | ok y =>
      obtain ⟨f, st'⟩ := y
      cases f with
      | some f => exact ⟨_, 1, by rw [hstep, hfull, hr]; rfl, hone _ hr.symm fun _ => rfl, hzero, hlast, hask tb.game⟩
      | none =>
        obtain ⟨mv, p', m1, m2, m3, m4, m5, m6, m7⟩ := round_on hg hc hb (s := s.said) (fun mv h => (ho2 mv h).1) hr
        have hans : s.answer = .move mv := m1
        have hword : (turnOf s).bestmove = usiText mv := by
          show answerText s.answer = _
          rw [hans]; rfl
        have hpos : absPos st'.board.pos = (absPos tb.game.board.pos).play mv := by rw [m6, m5]
        have q1 : Csa.Good Z st'.board.pos := by
          rw [m6]; exact m4
        have q2 : InTurn st' := by
          unfold InTurn at ht ⊢
          rw [m6, Web.doMove_number m3]
          have : p'.turn = tb.game.board.pos.turn.opp := (congrArg Pos.turn m5).trans (play_turn _)
          rw [this, ht]
          split <;> split <;> first | rfl | omega
        have q4 : ∀ c, R.charge clock tb.game.board.pos.turn s.said c = none ∨ R.byoyomi c = 0 := by
          intro c
          rcases hb c with h | h
          · left
            unfold Rules.charge
            split
            · rename_i e; rw [← e, h]; rfl
            · exact h
          · exact .inr h
        have q5 : tb.usi ++ [(turnOf s).bestmove] = (past ++ [mv]).map usiText := by
          rw [hword, hu, List.map_append]; rfl
        have q7 : Orderly (absPos st'.board.pos) ss := by
          rw [hpos]; exact (ho2 mv m1).2 m2
        have q8 : Plays R byoyomi G (askedStates R byoyomi G S clock (absPos tb.game.board.pos) past) (R.charge clock tb.game.board.pos.turn s.said)
            (absPos st'.board.pos) (past ++ [mv]) ss := by
          rw [hpos]; exact hp3 mv m1 m2
        obtain ⟨e, k, r1, r2, r3, r4, r5⟩ := seated_loop hplain hG ss (S := askedStates R byoyomi G S clock (absPos tb.game.board.pos) past)
          (clock := R.charge clock tb.game.board.pos.turn s.said) (tb := tb.next c' h (turnOf s).bestmove st') (past := past ++ [mv]) q1 q2 m7 q4 q5 (hask st') q7 q8
        have hgame : (tb.next c' h (turnOf s).bestmove st').game = st' := rfl
        rw [hgame] at r1 r2 r3 r4 r5
        rw [hpos] at r4 r5
        have hon : ∀ rs, loop Z (termsOf R) tb.game (replyOf s.said :: rs) = loop Z (termsOf R) st' rs := by
          intro rs
          rw [hloop, hr]; rfl
        refine ⟨e, k + 1, ?_, ?_, ?_, ?_, ?_⟩
        · rw [hstep, hr, hfull, hr]
          exact r1
        · exact (hon _).trans (r2.trans (hon _).symm)
        · intro j hj
          cases j with
          | zero => exact hnil
          | succ j => exact (hon _).trans (r3 j (by omega))
        · exact .inr ⟨mv, hans, m2, r4⟩
        · intro c
          rw [r5 c]
          show _ = some (Proc.mk (statesAfter R byoyomi G _ _ ((absPos tb.game.board.pos).answered s.answer) (past ++ movesIn s.answer) (ss.take k) c) [])
          rw [hans]
          rfl

/-- A session of calls that are neither `connect` nor `quit`. -/
theorem session_heard (P : Session.Player σ) (hP : P.Polite) : ∀ (calls : List Call) (c : Client σ) (s : σ), c.proc = some ⟨s, []⟩ →
    (∀ x ∈ calls, x.Plain ∧ x.Waits ∧ x ≠ .connect ∧ x ≠ .quit) →
    ∃ c', (c.session (program P) calls).2 = .returns c' ∧ c'.proc = some ⟨P.heard s (calls.map Call.command), []⟩
  | [], c, s, hs, _ => ⟨c, rfl, hs⟩
  | call :: calls, c, s, hs, h => by
    obtain ⟨h1, h2, h3, h4⟩ := h call List.mem_cons_self
    rw [Client.session, call_talk P hP c s hs h1 h2 h3 h4]
    exact session_heard P hP calls _ _ rfl fun x hx => h x (List.mem_cons_of_mem _ hx)

/-- Options that can be told: no name with the word `value`, no line breaks. -/
def Tellable (options : List (List Char × List Char)) : Prop :=
  ∀ o ∈ options, "value".toList ∉ Session.fields o.1 ∧ '\n' ∉ o.1 ∧ '\n' ∉ o.2

/-- An engine that runs, or else one that has just been started. -/
def present (P : Session.Player σ) : Option σ → σ
  | some s => s
  | none => P.next P.start .usi

theorem begin_heard (P : Session.Player σ) (hP : P.Polite) {options : List (List Char × List Char)} (ho : Tellable options) (c : Client σ) (s : Option σ)
    (hs : c.proc = s.map fun s => ⟨s, []⟩) :
    ∃ c', (c.session (program P) (beginCalls options c)).2 = .returns c' ∧
      c'.proc = some ⟨P.heard (present P s) (options.map (fun o => .setoption o.1 o.2) ++ [.isready]), []⟩ := by
  have hcalls : ∀ x ∈ options.map (fun o => Call.setoption o.1 (.text o.2)) ++ [.isready], x.Plain ∧ x.Waits ∧ x ≠ .connect ∧ x ≠ .quit := by
    intro x hx
    rcases List.mem_append.mp hx with hx | hx
    · obtain ⟨o, h, rfl⟩ := List.mem_map.mp hx
      obtain ⟨h1, h2, h3⟩ := ho o h
      exact ⟨⟨h1, (fun b h => by cases h), h2, h3⟩, trivial, (by intro h; cases h), (by intro h; cases h)⟩
    · cases List.mem_singleton.mp hx
      exact ⟨trivial, trivial, (by intro h; cases h), (by intro h; cases h)⟩
  have hcmd : List.map Call.command (options.map (fun o : List Char × List Char => Call.setoption o.1 (.text o.2)) ++ [Call.isready]) =
      options.map (fun o => Session.Command.setoption o.1 o.2) ++ [.isready] := by
    rw [List.map_append, List.map_map]; rfl
  rw [← hcmd]
  cases s with
  | none =>
    have e : beginCalls options c = .connect :: (options.map (fun o => Call.setoption o.1 (.text o.2)) ++ [.isready]) := by
      unfold beginCalls
      rw [hs]; rfl
    rw [e, Client.session, call_connect P hP]
    exact session_heard P hP _ ⟨some ⟨P.next P.start .usi, []⟩, some P.name⟩ (P.next P.start .usi) rfl hcalls
  | some s =>
    have e : beginCalls options c = options.map (fun o => Call.setoption o.1 (.text o.2)) ++ [.isready] := by
      unfold beginCalls
      rw [hs]; rfl
    rw [e]
    exact session_heard P hP _ _ _ hs hcalls

/-- Both engines are told something. -/
theorem tell_both {G : Color → Program σ} {e : Color → Client σ} {calls : Color → List Call} {Q : Color → Client σ → Prop}
    (h : ∀ c, ∃ c', ((e c).session (G c) (calls c)).2 = .returns c' ∧ Q c c') : ∃ e', tell G e calls = .returns e' ∧ ∀ c, Q c (e' c) := by
  obtain ⟨b, b1, b2⟩ := h .black
  obtain ⟨w, w1, w2⟩ := h .white
  unfold tell
  rw [b1, andThen_returns, w1, andThen_returns]
  refine ⟨_, rfl, ?_⟩
  intro c
  cases c
  · exact b2
  · exact w2

end Verif.Match
