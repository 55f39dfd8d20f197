import Verif.Lemmas.Series

/-!
# C108: the games of a match

Before every game each engine is started if it does not run and is told its options, `isready` and `usinewgame`; the game is the one that the two play at a
board; after it they are told `gameover` and, unless they are to be kept, stopped.
-/

namespace Verif.Match
open Spec Bitboard Position Usi

variable {σ τ : Type}

/-- **C108** for one game (partial: as C106; options as in C98). Engines that do not run are started, engines that run go on as they are. Both hear their own
options, `isready` and `usinewgame`, and then play as at a board. After a game that is over they have heard `gameover`. If they are kept, nothing they wrote is
left unread, and they have heard what was to be heard in the turns of the game, up to the one that ended it, and nothing else; otherwise they do not run any
more. -/
theorem C108_sitting_partial (Z : Zobrist) (p : Position) (hp : Inv Z p) (hc : CheckOK p) (hs : absPos p = startPos) (hf : Fresh p) (hply : p.gamePly = 1)
    (limit : Int) (hl : 1 ≤ limit) (mvs : List Mv) (hm : startPos.Line mvs) (R : Rules) (clock byoyomi : Color → Option Int)
    (hb : ∀ c, clock c = none ∨ R.byoyomi c = 0) (hplain : ∀ c, byoyomi c = none ∨ (R.inc .black = none ∧ R.inc .white = none))
    (G : Color → Session.Player σ) (hG : ∀ c, (G c).Polite) (options : Color → List (List Char × List Char)) (hopt : ∀ c, Tellable (options c)) (keep : Bool)
    (engines : Color → Client σ) (S : Color → Option σ) (he : ∀ c, (engines c).proc = (S c).map fun s => ⟨s, []⟩) (ss : List Spoken)
    (ho : Orderly (startPos.after (cut limit mvs)) ss)
    (hpl : Plays R byoyomi G (fun c => (G c).heard (present (G c) (S c)) (beforeGame (options c))) clock (startPos.after (cut limit mvs)) (cut limit mvs) ss)
    (heard : Heard) :
    ∃ e, sitting Z (termsOf R) byoyomi (fun c => program (G c)) options keep p clock limit (mvs.map usiText) engines heard (ss.map Spoken.micros) =
        .returns (e, gameFrom Z (termsOf R) p clock limit (mvs.map usiText) (ss.map fun s => replyOf s.said)) ∧
      ∀ r, gameFrom Z (termsOf R) p clock limit (mvs.map usiText) (ss.map fun s => replyOf s.said) = .ok (some r) →
        (keep = true → ∃ k, gameFrom Z (termsOf R) p clock limit (mvs.map usiText) ((ss.take k).map fun s => replyOf s.said) = .ok (some r) ∧
          (∀ j, j < k → gameFrom Z (termsOf R) p clock limit (mvs.map usiText) ((ss.take j).map fun s => replyOf s.said) = .ok none) ∧
          GoesOn (startPos.after (cut limit mvs)) (ss.take k) ∧
          ∀ c, (e c).proc = some ⟨(G c).next (statesAfter R byoyomi G (fun c => (G c).heard (present (G c) (S c)) (beforeGame (options c))) clock
            (startPos.after (cut limit mvs)) (cut limit mvs) (ss.take k) c) (.gameover []), []⟩) ∧
        (keep = false → ∀ c, (e c).proc = none) := by
  have hr : (absPos p).Regular := by rw [hs]; exact startPos_regular
  obtain ⟨st, ms, h', i1, i2, i3, -, -⟩ := opening_begun (limit := limit) mvs (begun_start hp hc hr hf hply clock) (by rw [hs]; exact hm) (by simpa using hl)
  simp only [List.length_nil, Nat.cast_zero, Int.sub_zero] at i1 i2 i3
  rw [hs] at i2 i3
  have hnow : absPos st.board.pos = startPos.after (cut limit mvs) := i3.played.now
  have hgood : Csa.Good Z st.board.pos := i3.played.good
  have hlen : h'.length = (cut limit mvs).length := by
    have := congrArg List.length i2
    rw [record_size] at this
    simp only [List.length_nil, List.length_cons] at this
    omega
  have hturn : InTurn st := by
    unfold InTurn
    have : st.board.pos.turn = (startPos.after (cut limit mvs)).turn := congrArg Pos.turn hnow
    rw [this, after_parity, i3.ply, hlen, show startPos.turn = .black from rfl]
    split <;> split <;> first | rfl | omega
  obtain ⟨e1, a1, a2⟩ := tell_both (G := fun c => program (G c)) (e := engines) (calls := fun c => beginCalls (options c) (engines c))
    (Q := fun c c' => c'.proc = some ⟨(G c).heard (present (G c) (S c)) ((options c).map (fun o => .setoption o.1 o.2) ++ [.isready]), []⟩)
    fun c => begin_heard (G c) (hG c) (hopt c) (engines c) (S c) (he c)
  obtain ⟨e2, b1, b2⟩ := tell_both (G := fun c => program (G c)) (e := e1) (calls := fun _ => [.usinewgame])
    (Q := fun c c' => c'.proc = some ⟨(G c).heard (present (G c) (S c)) (beforeGame (options c)), []⟩) fun c => by
      obtain ⟨c', h1, h2⟩ := session_heard (G c) (hG c) [.usinewgame] (e1 c) _ (a2 c) (by
        intro x hx
        cases List.mem_singleton.mp hx
        exact ⟨trivial, trivial, (by intro h; cases h), (by intro h; cases h)⟩)
      refine ⟨c', h1, ?_⟩
      rw [h2]
      unfold Session.Player.heard beforeGame
      rw [← List.foldl_append, List.append_assoc]
      rfl
  obtain ⟨e3, k, d1, d3, d4, d5, d2⟩ := seated_loop hplain hG ss (S := fun c => (G c).heard (present (G c) (S c)) (beforeGame (options c))) (clock := clock)
    (tb := ⟨st, (cut limit mvs).map usiText, e2, heard⟩) (past := cut limit mvs) hgood hturn i3.remain hb rfl b2 (by rw [hnow]; exact ho) (by rw [hnow]; exact hpl)
  have hgame : ∀ rs, gameFrom Z (termsOf R) p clock limit (mvs.map usiText) rs = (loop Z (termsOf R) st rs).bind (conclude (termsOf R)) := by
    intro rs
    unfold gameFrom
    rw [i1]; rfl
  simp only [hgame]
  change loop Z (termsOf R) st _ = loop Z (termsOf R) st _ at d3
  change ∀ j, j < k → loop Z (termsOf R) st _ = .ok none at d4
  change GoesOn (absPos st.board.pos) _ at d5
  change ∀ c, (e3 c).proc = some ⟨statesAfter R byoyomi G _ clock (absPos st.board.pos) _ _ c, []⟩ at d2
  rw [hnow] at d2 d5
  unfold sitting
  rw [a1, andThen_returns, i1]
  dsimp only
  rw [b1, andThen_returns, d1, andThen_returns]
  dsimp only
  obtain ⟨x, hx⟩ : ∃ x, x = loop Z (termsOf R) st (ss.map fun s => replyOf s.said) := ⟨_, rfl⟩
  rw [← hx] at d3 ⊢
  cases x with
  | error => exact ⟨_, rfl, fun r h => by cases h⟩
  | ub => exact ⟨_, rfl, fun r h => by cases h⟩
  | ok y =>
    cases y with
    | none => exact ⟨_, rfl, fun r h => by cases h⟩
    | some y =>
      obtain ⟨S3, hS3⟩ : ∃ S3, S3 = statesAfter R byoyomi G (fun c => (G c).heard (present (G c) (S c)) (beforeGame (options c))) clock
        (startPos.after (cut limit mvs)) (cut limit mvs) (ss.take k) := ⟨_, rfl⟩
      rw [← hS3] at d2
      obtain ⟨e4, f1, f2⟩ := tell_both (G := fun c => program (G c)) (e := e3) (calls := fun _ => [.gameover none])
        (Q := fun c c' => c'.proc = some ⟨(G c).next (S3 c) (.gameover []), []⟩) fun c =>
          session_heard (G c) (hG c) [.gameover none] (e3 c) _ (d2 c) (by
            intro x hx
            cases List.mem_singleton.mp hx
            exact ⟨(fun t h => by cases h), trivial, (by intro h; cases h), (by intro h; cases h)⟩)
      unfold farewell
      dsimp only
      rw [f1, andThen_returns]
      cases keep with
      | true =>
        refine ⟨_, rfl, fun r hr => ⟨fun _ => ⟨k, by rw [d3]; exact hr, (fun j hj => by rw [d4 j hj]; rfl), d5, ?_⟩, (fun h => by cases h)⟩⟩
        rw [← hS3]
        exact f2
      | false =>
        obtain ⟨e5, g1, g2⟩ := tell_both (G := fun c => program (G c)) (e := e4) (calls := fun _ => [.quit]) (Q := fun _ c' => c'.proc = none) fun c => by
          refine ⟨{ e4 c with proc := none }, ?_, rfl⟩
          rw [Client.session]
          have : (e4 c).call (program (G c)) .quit = .returns ({ e4 c with proc := none }, .none) := by
            show (match (e4 c).proc with | none => Outcome.raises | some p => talk (program (G c)) (e4 c) p .quit) = _
            rw [f2 c]; rfl
          rw [this]; rfl
        rw [if_neg (by intro h; cases h), g1]
        exact ⟨_, rfl, fun r _ => ⟨(fun h => by cases h), fun _ => g2⟩⟩

/-! ### Several games -/

/-- The results of some games, up to the first that is not over. -/
def gather {α : Type} : List (Out (Option α)) → Out (List (Option α))
  | [] => .ok []
  | .error :: _ => .error
  | .ub :: _ => .ub
  | .ok none :: _ => .ok [none]
  | .ok (some r) :: xs => (gather xs).bind fun l => .ok (some r :: l)

theorem seriesNext_gather {α : Type} (x : Out (Option α)) (xs : List (Out (Option α))) : seriesNext (.returns (gather xs)) x = .returns (gather (x :: xs)) := by
  rcases x with (_ | r) | _ | _ <;> rfl

theorem seriesNext_over {α : Type} {k : Usi.Outcome (Out (List (Option α)))} {x : Out (Option α)} (xs : List (Out (Option α)))
    (h : ∀ r, x = .ok (some r) → k = .returns (gather xs)) : seriesNext k x = .returns (gather (x :: xs)) := by
  rcases x with (_ | r) | _ | _
  · rfl
  · rw [h r rfl]; rfl
  · rfl
  · rfl

def settingOfKit (k : Kit) : Setting := ⟨k.options, k.byoyomi, k.time, k.inc⟩

theorem settingOf_kit (noSwap : Bool) (n : Nat) (K : Kit × Kit) (c : Color) :
    settingOf noSwap n (settingOfKit K.1, settingOfKit K.2) c = settingOfKit (whoHas (!noSwap) n K c) := by
  unfold settingOf sideSettings whoHas firstIsBlack
  rcases Nat.mod_two_eq_zero_or_one n with h | h <;> rw [h] <;> cases noSwap <;> cases c <;> rfl

theorem seat_who {α : Type} (noSwap : Bool) (n : Nat) (x : α × α) (c : Color) : seat (firstIsBlack noSwap n) x c = whoHas (!noSwap) n x c := by
  unfold seat whoHas firstIsBlack
  rcases Nat.mod_two_eq_zero_or_one n with h | h <;> rw [h] <;> cases noSwap <;> cases c <;> rfl

theorem unseat_all {α : Type} {Q : α → Prop} (first : Bool) {f : Color → α} (h : ∀ c, Q (f c)) : Q (unseat first f).1 ∧ Q (unseat first f).2 := by
  cases first
  · exact ⟨h _, h _⟩
  · exact ⟨h _, h _⟩

theorem who_all {α : Type} {Q : α → Prop} (ex : Bool) (n : Nat) {x : α × α} (h1 : Q x.1) (h2 : Q x.2) (c : Color) : Q (whoHas ex n x c) := by
  unfold whoHas
  split <;> cases c <;> assumption

/-- Game `n` by the rules, with the answers `rs`. -/
def gameNo (Z : Zobrist) (R : Rules) (ex : Bool) (K : Kit × Kit) (p : Position) (limit : Int) (opening : Nat → List (List Char)) (n : Nat) (rs : List Reply) :
    Out (Option ((Option Color × String) × Board)) :=
  gameFrom Z (termsOf (R.inGame ex n K)) p (fun c => (whoHas ex n K c).time) limit (opening n) rs

/-- A match that can be played as the rules say: no byoyomi together with increments, none together with a clock, options that can be told. -/
structure Playable (K : Kit × Kit) : Prop where
  clock : (K.1.time = none ∨ K.1.byoyomi.getD 0 = 0) ∧ (K.2.time = none ∨ K.2.byoyomi.getD 0 = 0)
  plain : (K.1.byoyomi = none ∧ K.2.byoyomi = none) ∨ (K.1.inc = none ∧ K.2.inc = none)
  options : Tellable K.1.options ∧ Tellable K.2.options

/-- One game of `series`. -/
theorem series_game (Z : Zobrist) (p : Position) (hp : Inv Z p) (hc : CheckOK p) (hs : absPos p = startPos) (hf : Fresh p) (hply : p.gamePly = 1)
    (limit : Int) (hl : 1 ≤ limit) (mvs : Nat → List Mv) (hm : ∀ n, startPos.Line (mvs n)) (R : Rules) (noSwap keep : Bool) (K : Kit × Kit) (hK : Playable K)
    (G : Session.Player σ × Session.Player σ) (hG : G.1.Polite ∧ G.2.Polite) (heard : Nat → Heard) (n : Nat) (e : Client σ × Client σ) (S : Option σ × Option σ)
    (he : e.1.proc = (S.1.map fun s => ⟨s, []⟩) ∧ e.2.proc = (S.2.map fun s => ⟨s, []⟩)) (ss : List Spoken)
    (ho : Orderly (startPos.after (cut limit (mvs n))) ss)
    (hpl : Plays (R.inGame (!noSwap) n K) (fun c => (whoHas (!noSwap) n K c).byoyomi) (whoHas (!noSwap) n G)
      (fun c => (whoHas (!noSwap) n G c).heard (present (whoHas (!noSwap) n G c) (whoHas (!noSwap) n S c)) (beforeGame (whoHas (!noSwap) n K c).options))
      (fun c => (whoHas (!noSwap) n K c).time) (startPos.after (cut limit (mvs n))) (cut limit (mvs n)) ss) (games : List (List Nat)) :
    ∃ e' : Color → Client σ, series Z (termsOf R) noSwap keep (program G.1, program G.2) (settingOfKit K.1, settingOfKit K.2) p limit
        (fun n => (mvs n).map usiText) heard n e (ss.map Spoken.micros :: games) =
      seriesNext (series Z (termsOf R) noSwap keep (program G.1, program G.2) (settingOfKit K.1, settingOfKit K.2) p limit
        (fun n => (mvs n).map usiText) heard (n + 1) (unseat (firstIsBlack noSwap n) e') games)
        (gameNo Z R (!noSwap) K p limit (fun n => (mvs n).map usiText) n (ss.map fun s => replyOf s.said)) ∧
      ∀ r, gameNo Z R (!noSwap) K p limit (fun n => (mvs n).map usiText) n (ss.map fun s => replyOf s.said) = .ok (some r) →
        (keep = true → ∃ k, gameNo Z R (!noSwap) K p limit (fun n => (mvs n).map usiText) n ((ss.take k).map fun s => replyOf s.said) = .ok (some r) ∧
          (∀ j, j < k → gameNo Z R (!noSwap) K p limit (fun n => (mvs n).map usiText) n ((ss.take j).map fun s => replyOf s.said) = .ok none) ∧
          GoesOn (startPos.after (cut limit (mvs n))) (ss.take k) ∧
          ∀ c, (e' c).proc = some ⟨(whoHas (!noSwap) n G c).next (statesAfter (R.inGame (!noSwap) n K) (fun c => (whoHas (!noSwap) n K c).byoyomi)
            (whoHas (!noSwap) n G) (fun c => (whoHas (!noSwap) n G c).heard (present (whoHas (!noSwap) n G c) (whoHas (!noSwap) n S c))
              (beforeGame (whoHas (!noSwap) n K c).options)) (fun c => (whoHas (!noSwap) n K c).time) (startPos.after (cut limit (mvs n))) (cut limit (mvs n))
            (ss.take k) c) (.gameover []), []⟩) ∧
        (keep = false → ∀ c, (e' c).proc = none) := by
  have hprog : seat (firstIsBlack noSwap n) (program G.1, program G.2) = fun c => program (whoHas (!noSwap) n G c) := by
    funext c
    rw [seat_who]
    unfold whoHas
    split <;> cases c <;> rfl
  obtain ⟨e', h1, h2⟩ := C108_sitting_partial Z p hp hc hs hf hply limit hl (mvs n) (hm n) (R.inGame (!noSwap) n K) (fun c => (whoHas (!noSwap) n K c).time)
    (fun c => (whoHas (!noSwap) n K c).byoyomi)
    (who_all (Q := fun k : Kit => k.time = none ∨ k.byoyomi.getD 0 = 0) _ n hK.clock.1 hK.clock.2)
    (by
      rcases hK.plain with h | h
      · exact fun c => .inl (who_all (Q := fun k : Kit => k.byoyomi = none) _ n h.1 h.2 c)
      · exact fun _ => .inr ⟨who_all (Q := fun k : Kit => k.inc = none) _ n h.1 h.2 _, who_all (Q := fun k : Kit => k.inc = none) _ n h.1 h.2 _⟩)
    (whoHas (!noSwap) n G) (who_all (Q := fun P : Session.Player σ => P.Polite) _ n hG.1 hG.2) (fun c => (whoHas (!noSwap) n K c).options)
    (who_all (Q := fun k : Kit => Tellable k.options) _ n hK.options.1 hK.options.2) keep (seat (firstIsBlack noSwap n) e) (whoHas (!noSwap) n S)
    (by
      intro c
      rw [seat_who]
      unfold whoHas
      split <;> cases c <;> first | exact he.1 | exact he.2)
    ss ho hpl (heard n)
  refine ⟨e', ?_, h2⟩
  rw [series]
  simp only [settingOf_kit]
  rw [hprog]
  show andThen (sitting Z (termsOf (R.inGame (!noSwap) n K)) (fun c => (whoHas (!noSwap) n K c).byoyomi) _ (fun c => (whoHas (!noSwap) n K c).options) keep p
    (fun c => (whoHas (!noSwap) n K c).time) limit _ _ _ _) _ = _
  rw [h1]
  rfl

theorem series_new (Z : Zobrist) (p : Position) (hp : Inv Z p) (hc : CheckOK p) (hs : absPos p = startPos) (hf : Fresh p) (hply : p.gamePly = 1)
    (limit : Int) (hl : 1 ≤ limit) (mvs : Nat → List Mv) (hm : ∀ n, startPos.Line (mvs n)) (R : Rules) (noSwap : Bool) (K : Kit × Kit) (hK : Playable K)
    (G : Session.Player σ × Session.Player σ) (hG : G.1.Polite ∧ G.2.Polite) (heard : Nat → Heard) :
    ∀ (games : List (List Spoken)) (n : Nat) (e : Client σ × Client σ), e.1.proc = none ∧ e.2.proc = none →
    (∀ i ss, games[i]? = some ss → Orderly (startPos.after (cut limit (mvs (n + i)))) ss ∧
      Plays (R.inGame (!noSwap) (n + i) K) (fun c => (whoHas (!noSwap) (n + i) K c).byoyomi) (whoHas (!noSwap) (n + i) G)
        (fun c => (whoHas (!noSwap) (n + i) G c).newcomer (whoHas (!noSwap) (n + i) K c).options)
        (fun c => (whoHas (!noSwap) (n + i) K c).time) (startPos.after (cut limit (mvs (n + i)))) (cut limit (mvs (n + i))) ss) →
    series Z (termsOf R) noSwap false (program G.1, program G.2) (settingOfKit K.1, settingOfKit K.2) p limit (fun n => (mvs n).map usiText) heard n e
      (games.map fun ss => ss.map Spoken.micros) =
      .returns (gather (games.mapIdx fun i ss => gameNo Z R (!noSwap) K p limit (fun n => (mvs n).map usiText) (n + i) (ss.map fun s => replyOf s.said)))
  | [], n, e, _, _ => rfl
  | ss :: games, n, e, he, h => by
    obtain ⟨h1, h2⟩ := h 0 ss rfl
    obtain ⟨e', a1, a2⟩ := series_game Z p hp hc hs hf hply limit hl mvs hm R noSwap false K hK G hG heard n e (none, none) he ss h1
      (by
        have : ∀ c, whoHas (!noSwap) n ((none, none) : Option σ × Option σ) c = none := who_all (Q := fun x : Option σ => x = none) _ n rfl rfl
        simp only [this]
        exact h2)
      (games.map fun ss => ss.map Spoken.micros)
    rw [List.map_cons, a1, List.mapIdx_cons]
    refine seriesNext_over _ fun r hr => ?_
    rw [series_new Z p hp hc hs hf hply limit hl mvs hm R noSwap K hK G hG heard games (n + 1) _ (unseat_all (Q := fun c : Client σ => c.proc = none) _ ((a2 r hr).2 rfl))]
    · simp only [Nat.add_assoc, Nat.add_comm 1]
    · intro i ss hi
      have := h (i + 1) ss (by simpa using hi)
      rwa [show n + (i + 1) = n + 1 + i by omega] at this

/-- **C108** (partial: as C106 and C98; the processes are not kept). In a match of programs that follow the protocol, the colours change after every game
unless they are not to, each entrant has the same options and the same time with either colour, and every game is played by two newcomers: engines that have just
been started and have heard nothing but their own options, `isready` and `usinewgame`. The results of the match are the results of these games. -/
theorem C108_match_partial (Z : Zobrist) (p : Position) (hp : Inv Z p) (hc : CheckOK p) (hs : absPos p = startPos) (hf : Fresh p) (hply : p.gamePly = 1)
    (limit : Int) (hl : 1 ≤ limit) (mvs : Nat → List Mv) (hm : ∀ n, startPos.Line (mvs n)) (R : Rules) (noSwap : Bool) (K : Kit × Kit) (hK : Playable K)
    (G : Session.Player σ × Session.Player σ) (hG : G.1.Polite ∧ G.2.Polite) (heard : Nat → Heard) (e : Client σ × Client σ) (he : e.1.proc = none ∧ e.2.proc = none)
    (games : List (List Spoken))
    (h : ∀ n ss, games[n]? = some ss → Orderly (startPos.after (cut limit (mvs n))) ss ∧
      Plays (R.inGame (!noSwap) n K) (fun c => (whoHas (!noSwap) n K c).byoyomi) (whoHas (!noSwap) n G)
        (fun c => (whoHas (!noSwap) n G c).newcomer (whoHas (!noSwap) n K c).options)
        (fun c => (whoHas (!noSwap) n K c).time) (startPos.after (cut limit (mvs n))) (cut limit (mvs n)) ss) :
    series Z (termsOf R) noSwap false (program G.1, program G.2) (settingOfKit K.1, settingOfKit K.2) p limit (fun n => (mvs n).map usiText) heard 0 e
      (games.map fun ss => ss.map Spoken.micros) =
      .returns (gather (games.mapIdx fun n ss => gameNo Z R (!noSwap) K p limit (fun n => (mvs n).map usiText) n (ss.map fun s => replyOf s.said))) := by
  have := series_new Z p hp hc hs hf hply limit hl mvs hm R noSwap K hK G hG heard games 0 e he (by simpa using h)
  simpa using this

/-! ### Engines made with cshogi -/

theorem engineOf_before (Z : Zobrist) (A : Thinker τ) (name : List Char) (m : τ) (s : Option Pos × τ) (options : List (List Char × List Char)) :
    (engineOf Z A name m).heard s (beforeGame options) = s := by
  unfold Session.Player.heard beforeGame
  rw [List.foldl_append]
  have : ∀ (o : List (List Char × List Char)), List.foldl (engineOf Z A name m).next s (o.map fun o => .setoption o.1 o.2) = s := by
    intro o
    induction o with
    | nil => rfl
    | cons x o ih => exact ih
  rw [this]
  rfl

/-- What the two say in game `n` at a board, with these minds at its beginning. -/
def boardGame (R : Rules) (ex : Bool) (K : Kit × Kit) (A : Thinker τ × Thinker τ) (limit : Int) (mvs : Nat → List Mv) (M : τ × τ) (n : Nat) (ds : List Nat) :
    List Spoken :=
  overBoard (R.inGame ex n K) (fun c => (whoHas ex n K c).byoyomi) (whoHas ex n A) (whoHas ex n M) (fun c => (whoHas ex n K c).time)
    (startPos.after (cut limit (mvs n))) ds

theorem overBoard_take {R : Rules} {byoyomi : Color → Option Int} {A : Color → Thinker τ} : ∀ (k : Nat) (ds : List Nat) {m : Color → τ}
    {clock : Color → Option Int} {P : Pos}, (overBoard R byoyomi A m clock P ds).take k = overBoard R byoyomi A m clock P (ds.take k)
  | 0, _, _, _, _ => rfl
  | _ + 1, [], _, _, _ => rfl
  | k + 1, d :: ds, m, clock, P => by
    rw [overBoard, List.take_succ_cons, overBoard_take k ds, List.take_succ_cons, overBoard]

/-- The minds of the engines after some turns. -/
theorem states_minds {Z : Zobrist} {R : Rules} {byoyomi : Color → Option Int} {A : Color → Thinker τ} {names : Color → List Char} {m0 : Color → τ} :
    ∀ (ds : List Nat) {S : Color → Option Pos × τ} {m : Color → τ} {clock : Color → Option Int} {P : Pos} {past : List Mv}, startPos.Line past →
    P = startPos.after past → (∀ c, (S c).2 = m c) → GoesOn P (overBoard R byoyomi A m clock P ds) →
    ∀ c, (statesAfter R byoyomi (fun c => engineOf Z (A c) (names c) (m0 c)) S clock P past (overBoard R byoyomi A m clock P ds) c).2 =
      mindsAfter R byoyomi A m clock P ds c
  | [], _, _, _, _, _, _, _, hS, _ => hS
  | d :: ds, S, m, clock, P, past, hl, hP, hS, hg => by
    have hpos := engineOf_position (Z := Z) (A := A P.turn) (name := names P.turn) (m0 := m0 P.turn) hl (S P.turn)
    rw [← hP, hS] at hpos
    have hasked : ∀ c, (askedStates R byoyomi (fun c => engineOf Z (A c) (names c) (m0 c)) S clock P past c).2 =
        if c = P.turn then (A P.turn).after (m P.turn) P (limitsOf R byoyomi clock P.turn) else m c := by
      intro c
      unfold askedStates
      by_cases e : c = P.turn
      · rw [if_pos e, if_pos e, hpos]; rfl
      · rw [if_neg e, if_neg e]; exact hS c
    rw [overBoard] at hg ⊢
    rw [mindsAfter]
    rw [statesAfter]
    rcases hg with hg | ⟨mv, ha, hm, hg⟩
    · cases ds with
      | nil => exact hasked
      | cons d' ds => rw [overBoard] at hg; cases hg
    · have hans : P.answered ((A P.turn).speak (m P.turn) P (limitsOf R byoyomi clock P.turn) d).answer = P.play mv := by rw [ha]; rfl
      rw [hans] at hg ⊢
      rw [ha]
      refine states_minds ds ?_ ?_ hasked hg
      · exact line_append.mpr ⟨hl, by rw [← hP]; exact ⟨hm, trivial⟩⟩
      · show _ = startPos.after (past ++ [mv])
        rw [after_append, ← hP]; rfl

/-- Game `n`, begun with the minds `M`, is decided by its turn number `k` and not before; the minds are `M'` then. -/
def GameTakes (Z : Zobrist) (R : Rules) (ex : Bool) (K : Kit × Kit) (p : Position) (limit : Int) (mvs : Nat → List Mv) (A : Thinker τ × Thinker τ) (M : τ × τ)
    (n : Nat) (ds : List Nat) (k : Nat) (M' : τ × τ) : Prop :=
  (∃ r, gameNo Z R ex K p limit (fun n => (mvs n).map usiText) n ((boardGame R ex K A limit mvs M n (ds.take k)).map fun s => replyOf s.said) = .ok (some r)) ∧
  (∀ j, j < k → gameNo Z R ex K p limit (fun n => (mvs n).map usiText) n ((boardGame R ex K A limit mvs M n (ds.take j)).map fun s => replyOf s.said) = .ok none) ∧
  ∀ c, whoHas ex n M' c = mindsAfter (R.inGame ex n K) (fun c => (whoHas ex n K c).byoyomi) (whoHas ex n A) (whoHas ex n M) (fun c => (whoHas ex n K c).time)
    (startPos.after (cut limit (mvs n))) (ds.take k) c

/-- Game `n` is over. -/
def IsOver (Z : Zobrist) (R : Rules) (ex : Bool) (K : Kit × Kit) (p : Position) (limit : Int) (mvs : Nat → List Mv) (A : Thinker τ × Thinker τ) (M : τ × τ)
    (n : Nat) (ds : List Nat) : Prop :=
  ∃ r, gameNo Z R ex K p limit (fun n => (mvs n).map usiText) n ((boardGame R ex K A limit mvs M n ds).map fun s => replyOf s.said) = .ok (some r)

theorem who_unseat {α : Type} (noSwap : Bool) (n : Nat) (f : Color → α) (c : Color) : whoHas (!noSwap) n (unseat (firstIsBlack noSwap n) f) c = f c := by
  unfold unseat whoHas firstIsBlack
  rcases Nat.mod_two_eq_zero_or_one n with h | h <;> rw [h] <;> cases noSwap <;> cases c <;> rfl

theorem series_minds (Z : Zobrist) (p : Position) (hp : Inv Z p) (hc : CheckOK p) (hs : absPos p = startPos) (hf : Fresh p) (hply : p.gamePly = 1)
    (limit : Int) (hl : 1 ≤ limit) (mvs : Nat → List Mv) (hm : ∀ n, startPos.Line (mvs n)) (R : Rules) (noSwap keep : Bool) (K : Kit × Kit) (hK : Playable K)
    (A : Thinker τ × Thinker τ) (hA : Thinker.Discreet A.1 ∧ Thinker.Discreet A.2) (names : List Char × List Char)
    (hn : (∀ x ∈ names.1, x.toNat < 128) ∧ ∀ x ∈ names.2, x.toNat < 128) (m0 : τ × τ) (heard : Nat → Heard) (W : τ × τ → Prop) (hW : W m0)
    (hWk : keep = true → ∀ M, W M) :
    ∀ (games : List (List Nat)) (n : Nat) (e : Client (Option Pos × τ) × Client (Option Pos × τ)) (S : Option (Option Pos × τ) × Option (Option Pos × τ)) (M : τ × τ),
    W M → e.1.proc = (S.1.map fun s => ⟨s, []⟩) ∧ e.2.proc = (S.2.map fun s => ⟨s, []⟩) →
    (present (engineOf Z A.1 names.1 m0.1) S.1).2 = M.1 ∧ (present (engineOf Z A.2 names.2 m0.2) S.2).2 = M.2 →
    (keep = true → games = [] → S.1 ≠ none ∧ S.2 ≠ none) →
    (∀ i ds, games[i]? = some ds → ∀ M, W M → Orderly (startPos.after (cut limit (mvs (n + i)))) (boardGame R (!noSwap) K A limit mvs M (n + i) ds)) →
    ∃ Ms : Nat → τ × τ, Ms 0 = M ∧ (keep = false → ∀ k, Ms (k + 1) = m0) ∧
      (keep = true → ∀ i, (∀ j, j ≤ i → ∃ ds, games[j]? = some ds ∧ IsOver Z R (!noSwap) K p limit mvs A (Ms j) (n + j) ds) →
        ∃ ds k, games[i]? = some ds ∧ GameTakes Z R (!noSwap) K p limit mvs A (Ms i) (n + i) ds k (Ms (i + 1))) ∧
      series Z (termsOf R) noSwap keep (program (engineOf Z A.1 names.1 m0.1), program (engineOf Z A.2 names.2 m0.2)) (settingOfKit K.1, settingOfKit K.2) p limit
        (fun n => (mvs n).map usiText) heard n e games =
        .returns (gather (games.mapIdx fun i ds => gameNo Z R (!noSwap) K p limit (fun n => (mvs n).map usiText) (n + i)
          ((boardGame R (!noSwap) K A limit mvs (Ms i) (n + i) ds).map fun s => replyOf s.said)))
  | [], n, e, S, M, _, he, _, hr, _ => by
    refine ⟨fun k => if k = 0 then M else m0, rfl, fun _ k => rfl, ?_, ?_⟩
    · intro _ i h
      obtain ⟨ds, h, -⟩ := h 0 (Nat.zero_le _)
      cases h
    rw [series]
    cases keep with
    | false => rfl
    | true =>
      obtain ⟨r1, r2⟩ := hr rfl rfl
      rw [if_pos rfl]
      have hrun : ∀ c, ∃ q, (seat (firstIsBlack noSwap (n - 1)) e c).proc = some q := by
        intro c
        rw [seat_who]
        refine who_all (Q := fun x : Client (Option Pos × τ) => ∃ q, x.proc = some q) _ _ ?_ ?_ c
        · rw [he.1]
          rcases h : S.1 with _ | s
          · exact absurd h r1
          · exact ⟨_, rfl⟩
        · rw [he.2]
          rcases h : S.2 with _ | s
          · exact absurd h r2
          · exact ⟨_, rfl⟩
      obtain ⟨e', h1, -⟩ := tell_both (G := seat (firstIsBlack noSwap (n - 1)) (program (engineOf Z A.1 names.1 m0.1), program (engineOf Z A.2 names.2 m0.2)))
        (e := seat (firstIsBlack noSwap (n - 1)) e) (calls := fun _ => [.quit]) (Q := fun _ _ => True) fun c => by
          obtain ⟨q, hq⟩ := hrun c
          refine ⟨{ seat (firstIsBlack noSwap (n - 1)) e c with proc := none }, ?_, trivial⟩
          rw [Client.session]
          have : ∀ (x : Client (Option Pos × τ)) (g : Program (Option Pos × τ)), x.proc = some q → x.call g .quit = .returns ({ x with proc := none }, .none) := by
            intro x g hx
            unfold Client.call
            dsimp only
            rw [hx]; rfl
          rw [this _ _ hq]; rfl
      rw [h1]; rfl
  | ds :: games, n, e, S, M, hM, he, hS, _, ho => by
    have hbefore : ∀ c, ((whoHas (!noSwap) n (engineOf Z A.1 names.1 m0.1, engineOf Z A.2 names.2 m0.2) c).heard
        (present (whoHas (!noSwap) n (engineOf Z A.1 names.1 m0.1, engineOf Z A.2 names.2 m0.2) c) (whoHas (!noSwap) n S c))
        (beforeGame (whoHas (!noSwap) n K c).options)).2 = whoHas (!noSwap) n M c := by
      intro c
      unfold whoHas
      split <;> cases c <;> dsimp only <;> rw [engineOf_before] <;> first | exact hS.1 | exact hS.2
    have hplayer : whoHas (!noSwap) n (engineOf Z A.1 names.1 m0.1, engineOf Z A.2 names.2 m0.2) =
        fun c => engineOf Z (whoHas (!noSwap) n A c) (whoHas (!noSwap) n names c) (whoHas (!noSwap) n m0 c) := by
      funext c
      unfold whoHas
      split <;> cases c <;> rfl
    have ho0 : Orderly (startPos.after (cut limit (mvs n))) (boardGame R (!noSwap) K A limit mvs M n ds) := ho 0 ds rfl M hM
    have hpl : Plays (R.inGame (!noSwap) n K) (fun c => (whoHas (!noSwap) n K c).byoyomi)
        (whoHas (!noSwap) n (engineOf Z A.1 names.1 m0.1, engineOf Z A.2 names.2 m0.2))
        (fun c => (whoHas (!noSwap) n (engineOf Z A.1 names.1 m0.1, engineOf Z A.2 names.2 m0.2) c).heard
          (present (whoHas (!noSwap) n (engineOf Z A.1 names.1 m0.1, engineOf Z A.2 names.2 m0.2) c) (whoHas (!noSwap) n S c))
          (beforeGame (whoHas (!noSwap) n K c).options))
        (fun c => (whoHas (!noSwap) n K c).time) (startPos.after (cut limit (mvs n))) (cut limit (mvs n)) (boardGame R (!noSwap) K A limit mvs M n ds) := by
      obtain ⟨S', hS'⟩ : ∃ S' : Color → Option Pos × τ, S' = fun c => (whoHas (!noSwap) n (engineOf Z A.1 names.1 m0.1, engineOf Z A.2 names.2 m0.2) c).heard
          (present (whoHas (!noSwap) n (engineOf Z A.1 names.1 m0.1, engineOf Z A.2 names.2 m0.2) c) (whoHas (!noSwap) n S c))
          (beforeGame (whoHas (!noSwap) n K c).options) := ⟨_, rfl⟩
      rw [← hS', hplayer]
      exact engines_play ds (line_take _ _ (hm n)) rfl fun c => by rw [hS']; exact hbefore c
    obtain ⟨e', a1, a2⟩ := series_game Z p hp hc hs hf hply limit hl mvs hm R noSwap keep K hK (engineOf Z A.1 names.1 m0.1, engineOf Z A.2 names.2 m0.2)
      ⟨engineOf_polite Z hA.1 hn.1 m0.1, engineOf_polite Z hA.2 hn.2 m0.2⟩ heard n e S he _ ho0 hpl games
    rw [show (boardGame R (!noSwap) K A limit mvs M n ds).map Spoken.micros = ds from overBoard_micros ds] at a1
    rw [a1]
    by_cases hover : ∃ r, gameNo Z R (!noSwap) K p limit (fun n => (mvs n).map usiText) n
        ((boardGame R (!noSwap) K A limit mvs M n ds).map fun s => replyOf s.said) = .ok (some r)
    · obtain ⟨r, hr⟩ := hover
      obtain ⟨k1, k2⟩ := a2 r hr
      obtain ⟨S1, M1, b1, b2, b3, b4, b5, b6⟩ : ∃ (S1 : Option (Option Pos × τ) × Option (Option Pos × τ)) (M1 : τ × τ), W M1 ∧
          ((unseat (firstIsBlack noSwap n) e').1.proc = (S1.1.map fun s => ⟨s, []⟩) ∧ (unseat (firstIsBlack noSwap n) e').2.proc = (S1.2.map fun s => ⟨s, []⟩)) ∧
          ((present (engineOf Z A.1 names.1 m0.1) S1.1).2 = M1.1 ∧ (present (engineOf Z A.2 names.2 m0.2) S1.2).2 = M1.2) ∧
          (keep = true → S1.1 ≠ none ∧ S1.2 ≠ none) ∧ (keep = false → M1 = m0) ∧
          (keep = true → ∃ k, GameTakes Z R (!noSwap) K p limit mvs A M n ds k M1) := by
        cases keep with
        | false =>
          exact ⟨(none, none), m0, hW, unseat_all (Q := fun c : Client (Option Pos × τ) => c.proc = none) _ (k2 rfl), ⟨rfl, rfl⟩, (fun h => by cases h),
            (fun _ => rfl), fun h => by cases h⟩
        | true =>
          obtain ⟨k, l1, l2, l3, l4⟩ := k1 rfl
          have htake : ∀ j, (boardGame R (!noSwap) K A limit mvs M n ds).take j = boardGame R (!noSwap) K A limit mvs M n (ds.take j) := fun j => overBoard_take j ds
          simp only [htake] at l1 l2 l3 l4
          obtain ⟨S0, hS0⟩ : ∃ S0 : Color → Option Pos × τ, S0 = fun c => (whoHas (!noSwap) n (engineOf Z A.1 names.1 m0.1, engineOf Z A.2 names.2 m0.2) c).heard
            (present (whoHas (!noSwap) n (engineOf Z A.1 names.1 m0.1, engineOf Z A.2 names.2 m0.2) c) (whoHas (!noSwap) n S c))
            (beforeGame (whoHas (!noSwap) n K c).options) := ⟨_, rfl⟩
          rw [← hS0, hplayer] at l4
          have hmind := states_minds (Z := Z) (R := R.inGame (!noSwap) n K) (byoyomi := fun c => (whoHas (!noSwap) n K c).byoyomi) (A := whoHas (!noSwap) n A)
            (names := whoHas (!noSwap) n names) (m0 := whoHas (!noSwap) n m0) (ds.take k) (S := S0) (m := whoHas (!noSwap) n M)
            (clock := fun c => (whoHas (!noSwap) n K c).time) (line_take _ _ (hm n)) rfl (fun c => by rw [hS0]; exact hbefore c) l3
          obtain ⟨T, hT⟩ : ∃ T : Color → Option Pos × τ, T = statesAfter (R.inGame (!noSwap) n K) (fun c => (whoHas (!noSwap) n K c).byoyomi)
            (fun c => engineOf Z (whoHas (!noSwap) n A c) (whoHas (!noSwap) n names c) (whoHas (!noSwap) n m0 c)) S0 (fun c => (whoHas (!noSwap) n K c).time)
            (startPos.after (cut limit (mvs n))) (cut limit (mvs n)) (boardGame R (!noSwap) K A limit mvs M n (ds.take k)) := ⟨_, rfl⟩
          have hmind' : ∀ c, (T c).2 = mindsAfter (R.inGame (!noSwap) n K) (fun c => (whoHas (!noSwap) n K c).byoyomi) (whoHas (!noSwap) n A)
            (whoHas (!noSwap) n M) (fun c => (whoHas (!noSwap) n K c).time) (startPos.after (cut limit (mvs n))) (ds.take k) c := by
            rw [hT]; exact hmind
          have hproc : ∀ c, (e' c).proc = some ⟨T c, []⟩ := by
            intro c
            rw [l4 c, hT]; rfl
          refine ⟨unseat (firstIsBlack noSwap n) fun c => some (T c), unseat (firstIsBlack noSwap n) fun c => (T c).2, hWk rfl _, ?_, ?_, ?_, (fun h => by cases h), ?_⟩
          · cases firstIsBlack noSwap n
            · exact ⟨hproc _, hproc _⟩
            · exact ⟨hproc _, hproc _⟩
          · cases firstIsBlack noSwap n
            · exact ⟨rfl, rfl⟩
            · exact ⟨rfl, rfl⟩
          · intro _
            cases firstIsBlack noSwap n
            · exact ⟨(by intro h; cases h), (by intro h; cases h)⟩
            · exact ⟨(by intro h; cases h), (by intro h; cases h)⟩
          · intro _
            exact ⟨k, ⟨r, l1⟩, l2, fun c => by rw [who_unseat]; exact hmind' c⟩
      obtain ⟨Ms, c1, c2, c4, c3⟩ := series_minds Z p hp hc hs hf hply limit hl mvs hm R noSwap keep K hK A hA names hn m0 heard W hW hWk games (n + 1)
        (unseat (firstIsBlack noSwap n) e') S1 M1 b1 b2 b3 (fun h _ => b4 h) (by
          intro i ds hi M hM
          have := ho (i + 1) ds (by simpa using hi) M hM
          rwa [show n + (i + 1) = n + 1 + i by omega] at this)
      refine ⟨fun k => match k with | 0 => M | k + 1 => Ms k, rfl, ?_, ?_, ?_⟩
      · intro h k
        cases k with
        | zero => exact c1.trans (b5 h)
        | succ k => exact c2 h k
      · intro h i hall
        cases i with
        | zero =>
          obtain ⟨k, hk⟩ := b6 h
          refine ⟨ds, k, rfl, ?_⟩
          show GameTakes Z R (!noSwap) K p limit mvs A M n ds k (Ms 0)
          rw [c1]; exact hk
        | succ i =>
          obtain ⟨ds', k, h1, h2⟩ := c4 h i (by
            intro j hj
            obtain ⟨ds', h1, h2⟩ := hall (j + 1) (by omega)
            refine ⟨ds', by simpa using h1, ?_⟩
            rw [show n + 1 + j = n + (j + 1) by omega]
            exact h2)
          refine ⟨ds', k, by simpa using h1, ?_⟩
          rw [show n + (i + 1) = n + 1 + i by omega]
          exact h2
      · rw [c3, List.mapIdx_cons]
        refine (seriesNext_gather _ _).trans ?_
        simp only [Nat.add_assoc, Nat.add_comm 1, Nat.add_zero]
    · refine ⟨fun k => if k = 0 then M else m0, rfl, fun _ k => rfl, ?_, ?_⟩
      · intro _ i h
        obtain ⟨ds', h1, h2⟩ := h 0 (Nat.zero_le _)
        cases h1
        exact absurd h2 hover
      rw [List.mapIdx_cons]
      exact seriesNext_over _ fun r hr => absurd ⟨r, hr⟩ hover

/-- **C108** (partial, as `C108_match_partial`), for engines made with cshogi: every game is the one that the two newly started engines play at a board. Nothing
is left of the games before. -/
theorem C108_minds_partial (Z : Zobrist) (p : Position) (hp : Inv Z p) (hc : CheckOK p) (hs : absPos p = startPos) (hf : Fresh p) (hply : p.gamePly = 1)
    (limit : Int) (hl : 1 ≤ limit) (mvs : Nat → List Mv) (hm : ∀ n, startPos.Line (mvs n)) (R : Rules) (noSwap : Bool) (K : Kit × Kit) (hK : Playable K)
    (A : Thinker τ × Thinker τ) (hA : Thinker.Discreet A.1 ∧ Thinker.Discreet A.2) (names : List Char × List Char)
    (hn : (∀ x ∈ names.1, x.toNat < 128) ∧ ∀ x ∈ names.2, x.toNat < 128) (m0 : τ × τ) (heard : Nat → Heard)
    (e : Client (Option Pos × τ) × Client (Option Pos × τ)) (he : e.1.proc = none ∧ e.2.proc = none) (games : List (List Nat))
    (ho : ∀ n ds, games[n]? = some ds → Orderly (startPos.after (cut limit (mvs n))) (boardGame R (!noSwap) K A limit mvs m0 n ds)) :
    series Z (termsOf R) noSwap false (program (engineOf Z A.1 names.1 m0.1), program (engineOf Z A.2 names.2 m0.2)) (settingOfKit K.1, settingOfKit K.2) p limit
      (fun n => (mvs n).map usiText) heard 0 e games =
      .returns (gather (games.mapIdx fun n ds => gameNo Z R (!noSwap) K p limit (fun n => (mvs n).map usiText) n
        ((boardGame R (!noSwap) K A limit mvs m0 n ds).map fun s => replyOf s.said))) := by
  obtain ⟨Ms, h1, h2, -, h3⟩ := series_minds Z p hp hc hs hf hply limit hl mvs hm R noSwap false K hK A hA names hn m0 heard (fun M => M = m0) rfl
    (fun h => by cases h) games 0 e (none, none) m0 rfl he ⟨rfl, rfl⟩ (fun h => by cases h) (by
      intro i ds hi M hM
      subst hM
      simpa using ho i ds hi)
  have hMs : ∀ k, Ms k = m0 := by
    intro k
    cases k with
    | zero => exact h1
    | succ k => exact h2 rfl k
  rw [h3]
  simp only [hMs, Nat.zero_add]

/-- **C108** with processes that are kept (partial, as `C108_match_partial`): the first game is the one of the newly started engines, and every further game is
the one that the two play at a board with the minds that they had at the end of the game before, each with the other colour if the colours change. -/
theorem C108_kept_partial (Z : Zobrist) (p : Position) (hp : Inv Z p) (hc : CheckOK p) (hs : absPos p = startPos) (hf : Fresh p) (hply : p.gamePly = 1)
    (limit : Int) (hl : 1 ≤ limit) (mvs : Nat → List Mv) (hm : ∀ n, startPos.Line (mvs n)) (R : Rules) (noSwap : Bool) (K : Kit × Kit) (hK : Playable K)
    (A : Thinker τ × Thinker τ) (hA : Thinker.Discreet A.1 ∧ Thinker.Discreet A.2) (names : List Char × List Char)
    (hn : (∀ x ∈ names.1, x.toNat < 128) ∧ ∀ x ∈ names.2, x.toNat < 128) (m0 : τ × τ) (heard : Nat → Heard)
    (e : Client (Option Pos × τ) × Client (Option Pos × τ)) (he : e.1.proc = none ∧ e.2.proc = none) (games : List (List Nat)) (hne : games ≠ [])
    (ho : ∀ n ds, games[n]? = some ds → ∀ M, Orderly (startPos.after (cut limit (mvs n))) (boardGame R (!noSwap) K A limit mvs M n ds)) :
    ∃ M : Nat → τ × τ, M 0 = m0 ∧
      (∀ i, (∀ j, j ≤ i → ∃ ds, games[j]? = some ds ∧ IsOver Z R (!noSwap) K p limit mvs A (M j) j ds) →
        ∃ ds k, games[i]? = some ds ∧ GameTakes Z R (!noSwap) K p limit mvs A (M i) i ds k (M (i + 1))) ∧
      series Z (termsOf R) noSwap true (program (engineOf Z A.1 names.1 m0.1), program (engineOf Z A.2 names.2 m0.2)) (settingOfKit K.1, settingOfKit K.2) p limit
        (fun n => (mvs n).map usiText) heard 0 e games =
        .returns (gather (games.mapIdx fun n ds => gameNo Z R (!noSwap) K p limit (fun n => (mvs n).map usiText) n
          ((boardGame R (!noSwap) K A limit mvs (M n) n ds).map fun s => replyOf s.said))) := by
  obtain ⟨Ms, h1, -, h2, h3⟩ := series_minds Z p hp hc hs hf hply limit hl mvs hm R noSwap true K hK A hA names hn m0 heard (fun _ => True) trivial
    (fun _ _ => trivial) games 0 e (none, none) m0 trivial he ⟨rfl, rfl⟩ (fun _ h => absurd h hne) (by
      intro i ds hi M _
      simpa using ho i ds hi M)
  refine ⟨Ms, h1, by simpa using h2 rfl, ?_⟩
  rw [h3]
  simp only [Nat.zero_add]

/-! ### What the engines are not told -/

/-- **C108** fails for the end of a game: whatever the result, the engines hear `gameover` without a word about it. -/
theorem C108_fails_result (win : Option Color) (c : Color) :
    Session.readCommand (Call.gameover none).line = some (.gameover []) ∧ Session.readCommand (Call.gameover none).line ≠ some (.gameover (resultWord win c)) := by
  have h : Session.readCommand (Call.gameover none).line = some (.gameover []) := by decide
  refine ⟨h, ?_⟩
  rw [h]
  intro h'
  have hw : resultWord win c = [] := by
    injection h' with h'
    injection h' with h'
    exact h'.symm
  unfold resultWord at hw
  split at hw
  · cases hw
  · split at hw <;> cases hw

/-! ### The theorems can be applied -/

/-- Ten seconds, and an option. -/
def tenKit : Kit := ⟨[("Threads".toList, "4".toList)], none, some 10000, none⟩

theorem tenKit_playable : Playable (tenKit, tenKit) where
  clock := ⟨.inr rfl, .inr rfl⟩
  plain := .inl ⟨rfl, rfl⟩
  options := by
    have : Tellable tenKit.options := by
      intro o ho
      cases List.mem_singleton.mp ho
      decide
    exact ⟨this, this⟩

theorem scripted_board (n : Nat) : boardGame (upTo 256) false (tenKit, tenKit) (scripted, scripted) 256 (fun _ => []) (scripts .black, scripts .white) n
    [1500000, 2000000, 300, 4000] = scriptedGame := rfl

/-- C108_minds_partial (and with it C108_match_partial and C108_sitting_partial): two games without an exchange of the colours, each played from the beginning of
the scripts, and their results. -/
example : ∃ b1 b2, series mixKeys (termsOf (upTo 256)) true false (program (engineOf mixKeys scripted "A".toList (scripts .black)),
    program (engineOf mixKeys scripted "B".toList (scripts .white))) (settingOfKit tenKit, settingOfKit tenKit) startGame 256 (fun _ => ([] : List Mv).map usiText)
    (fun _ => ⟨[], []⟩) 0 (⟨none, none⟩, ⟨none, none⟩) [[1500000, 2000000, 300, 4000], [1500000, 2000000, 300, 4000]] =
      .returns (.ok [some ((some .black, "%TORYO"), b1), some ((some .black, "%TORYO"), b2)]) := by
  have hm := C108_minds_partial mixKeys startGame startGame_good.inv startGame_good.check startGame_spec.2 startGame_fresh.1 startGame_fresh.2 256 (by decide)
    (fun _ => []) (fun _ => trivial) (upTo 256) true (tenKit, tenKit) tenKit_playable (scripted, scripted) ⟨scripted_discreet, scripted_discreet⟩
    ("A".toList, "B".toList) ⟨by decide, by decide⟩ (scripts .black, scripts .white) (fun _ => ⟨[], []⟩) (⟨none, none⟩, ⟨none, none⟩) ⟨rfl, rfl⟩
    [[1500000, 2000000, 300, 4000], [1500000, 2000000, 300, 4000]] (by
      intro n ds hds
      have : ds = [1500000, 2000000, 300, 4000] := by
        match n, hds with
        | 0, h => cases h; rfl
        | 1, h => cases h; rfl
        | n + 2, h => cases h
      subst this
      show Orderly startPos (boardGame (upTo 256) false (tenKit, tenKit) (scripted, scripted) 256 (fun _ => []) (scripts .black, scripts .white) n _)
      rw [scripted_board]
      exact scripted_orderly)
  have hgame : ∀ n, ∃ b, gameNo mixKeys (upTo 256) false (tenKit, tenKit) startGame 256 (fun _ => ([] : List Mv).map usiText) n
      (scriptedGame.map fun s => replyOf s.said) = .ok (some ((some .black, "%TORYO"), b)) := by
    intro n
    have h : (gameFrom mixKeys (termsOf (upTo 256)) startGame tenSeconds 256 (([] : List Mv).map usiText)
        (scriptedGame.map fun s => replyOf s.said)).bind (fun x => .ok (x.map (·.1))) = .ok (some (some .black, "%TORYO")) := by decide +kernel
    have e1 : termsOf ((upTo 256).inGame false n (tenKit, tenKit)) = termsOf (upTo 256) := by
      have : ((upTo 256).inGame false n (tenKit, tenKit)).inc = (upTo 256).inc := by
        funext c
        cases c <;> rfl
      unfold termsOf
      rw [this]; rfl
    have e2 : (fun c => (whoHas false n (tenKit, tenKit) c).time) = tenSeconds := by
      funext c
      cases c <;> rfl
    unfold gameNo
    rw [e1, e2]
    cases e : gameFrom mixKeys (termsOf (upTo 256)) startGame tenSeconds 256 (([] : List Mv).map usiText) (scriptedGame.map fun s => replyOf s.said) with
    | error => rw [e] at h; cases h
    | ub => rw [e] at h; cases h
    | ok x =>
      rw [e] at h
      cases x with
      | none => cases h
      | some y =>
        obtain ⟨w, b⟩ := y
        rw [Out.bind_ok] at h
        have hw : w = (some .black, "%TORYO") := by
          have : some w = some (some Color.black, "%TORYO") := by injection h
          exact Option.some.inj this
        rw [hw]
        exact ⟨b, rfl⟩
  obtain ⟨b1, g1⟩ := hgame 0
  obtain ⟨b2, g2⟩ := hgame 1
  refine ⟨b1, b2, hm.trans ?_⟩
  show Outcome.returns (gather [gameNo mixKeys (upTo 256) false (tenKit, tenKit) startGame 256 (fun _ => ([] : List Mv).map usiText) 0 _,
    gameNo mixKeys (upTo 256) false (tenKit, tenKit) startGame 256 (fun _ => ([] : List Mv).map usiText) 1 _]) = _
  rw [show (!true) = false from rfl, scripted_board, scripted_board, g1, g2]
  rfl

/-- A player who resigns at once and counts the games. -/
def quitter : Thinker Nat := ⟨fun _ _ _ => none, fun _ _ _ => .resign, fun _ _ _ => none, fun m _ _ => m + 1⟩

/-- C108_kept_partial: three games with exchange of the colours, without a time limit. -/
example : ∃ M : Nat → Nat × Nat, M 0 = (0, 0) ∧
    (∀ i, (∀ j, j ≤ i → ∃ ds, [[5], [6], [7]][j]? = some ds ∧ IsOver mixKeys (upTo 256) true (tenKit, tenKit) startGame 256 (fun _ => []) (quitter, quitter) (M j) j ds) →
      ∃ ds k, [[5], [6], [7]][i]? = some ds ∧ GameTakes mixKeys (upTo 256) true (tenKit, tenKit) startGame 256 (fun _ => []) (quitter, quitter) (M i) i ds k (M (i + 1))) := by
  obtain ⟨M, h1, h2, -⟩ := C108_kept_partial mixKeys startGame startGame_good.inv startGame_good.check startGame_spec.2 startGame_fresh.1 startGame_fresh.2 256
    (by decide) (fun _ => []) (fun _ => trivial) (upTo 256) false (tenKit, tenKit) tenKit_playable (quitter, quitter)
    ⟨(by intro m P l t ht; cases ht), (by intro m P l t ht; cases ht)⟩ ("A".toList, "B".toList) ⟨by decide, by decide⟩ (0, 0) (fun _ => ⟨[], []⟩)
    (⟨none, none⟩, ⟨none, none⟩) ⟨rfl, rfl⟩ [[5], [6], [7]] (by intro h; cases h) (by
      intro n ds hds M
      have hq : ∀ c, whoHas true n (quitter, quitter) c = quitter := who_all (Q := fun x => x = quitter) _ _ rfl rfl
      have hone : ∃ d, ds = [d] := by
        match n, hds with
        | 0, h => cases h; exact ⟨_, rfl⟩
        | 1, h => cases h; exact ⟨_, rfl⟩
        | 2, h => cases h; exact ⟨_, rfl⟩
        | n + 3, h => cases h
      obtain ⟨d, rfl⟩ := hone
      show Orderly startPos (boardGame (upTo 256) true (tenKit, tenKit) (quitter, quitter) 256 (fun _ => []) M n [d])
      unfold boardGame
      rw [funext hq]
      exact ⟨(by intro t ht; cases ht), (by intro mv hmv; cases hmv)⟩)
  exact ⟨M, h1, h2⟩

end Verif.Match
