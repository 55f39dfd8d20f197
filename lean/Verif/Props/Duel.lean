import Verif.Lemmas.Duel
import Verif.Props.MatchCsa

/-!
# C106: two engines in a match play each other

The match runner asks the engine whose turn it is, tells it the position on the board and both clocks, and plays its answer: the game is the one that the
two would play at a board.
-/

namespace Verif.Match
open Spec Bitboard Position Usi

variable {σ τ : Type}

/-- **C106** (partial: no pondering, and no byoyomi together with increments), for programs that follow the protocol: if they answer `ss`, each after it
has heard the moves of the whole game and the clocks, then the game between them is the game of these answers. The engines have been started and have been
brought into any states `S`. -/
theorem C106_duel_partial (Z : Zobrist) (p : Position) (hp : Inv Z p) (hc : CheckOK p) (hs : absPos p = startPos) (hf : Fresh p) (hply : p.gamePly = 1)
    (limit : Int) (hl : 1 ≤ limit) (mvs : List Mv) (hm : startPos.Line mvs) (R : Rules) (clock byoyomi : Color → Option Int)
    (hb : ∀ c, clock c = none ∨ R.byoyomi c = 0) (hplain : ∀ c, byoyomi c = none ∨ (R.inc .black = none ∧ R.inc .white = none))
    (G : Color → Session.Player σ) (hG : ∀ c, (G c).Polite) (engines : Color → Client σ) (S : Color → σ) (he : ∀ c, (engines c).proc = some ⟨S c, []⟩)
    (ss : List Spoken) (ho : Orderly (startPos.after (cut limit mvs)) ss)
    (hpl : Plays R byoyomi G S clock (startPos.after (cut limit mvs)) (cut limit mvs) ss) (heard : Heard) :
    duelFrom Z (termsOf R) byoyomi (fun c => program (G c)) p clock limit (mvs.map usiText) engines heard (ss.map Spoken.micros) =
      .returns (gameFrom Z (termsOf R) p clock limit (mvs.map usiText) (ss.map fun s => replyOf s.said)) := by
  have hr : (absPos p).Regular := by rw [hs]; exact startPos_regular
  obtain ⟨st, ms, h', i1, i2, i3, -, -⟩ := opening_begun (limit := limit) mvs (begun_start hp hc hr hf hply clock) (by rw [hs]; exact hm) (by simpa using hl)
  simp only [List.length_nil, Nat.cast_zero, Int.sub_zero] at i1 i2 i3
  rw [hs] at i2 i3
  have hnow : absPos st.board.pos = startPos.after (cut limit mvs) := i3.played.now
  have hgood : Csa.Good Z st.board.pos := i3.played.good
  have hlen : h'.length = (cut limit mvs).length := by
    have := congrArg List.length i2
    rw [record_size] at this
    simp only [List.length_nil, List.length_cons] at this
    omega
  have hturn : InTurn st := by
    unfold InTurn
    have : st.board.pos.turn = (startPos.after (cut limit mvs)).turn := congrArg Pos.turn hnow
    rw [this, after_parity, i3.ply, hlen, show startPos.turn = .black from rfl]
    split <;> split <;> first | rfl | omega
  unfold duelFrom gameFrom
  rw [i1, Out.bind_ok]
  dsimp only
  rw [duel_loop hplain hG ss (S := S) (clock := clock) (past := cut limit mvs) hgood hturn i3.remain hb rfl he]
  · rfl
  · rw [hnow]; exact ho
  · rw [hnow]; exact hpl

/-! ### Engines made with cshogi -/

/-- An engine made with cshogi: it hands what stands behind `position` to `Board.set_position`, looks at the board, and thinks when it hears `go`. -/
def engineOf (Z : Zobrist) (A : Thinker τ) (name : List Char) (m : τ) : Session.Player (Option Pos × τ) where
  start := (none, m)
  name := name
  options := []
  next s c := match c with
    | .position start moves => match Board.setPosition Z ((positionLine (some moves) start).drop 9) with
      | .ok b => (some (absPos b.pos), s.2)
      | _ => s
    | .go l => match s.1 with
      | some P => (some P, A.after s.2 P l)
      | none => s
    | _ => s
  chat s c := match c with
    | .go l => match s.1 with
      | some P => (turnOf (A.speak s.2 P l 0)).lines
      | none => []
    | _ => []
  best s l := match s.1 with
    | some P => ((turnOf (A.speak s.2 P l 0)).bestmove, (turnOf (A.speak s.2 P l 0)).ponder)
    | none => ("resign".toList, none)
  mates _ _ := "notimplemented".toList

/-- The player does not write `bestmove` before the answer. -/
def Thinker.Discreet (A : Thinker τ) : Prop := ∀ m P l t, A.told m P l = some t → ∀ x ∈ t.earlier, x.take 8 ≠ "bestmove".toList

theorem usiText_blank (mv : Mv) : ' ' ∉ usiText mv := fun h => absurd ((usiText_solid mv).1 _ h) (by decide)

theorem engineOf_polite (Z : Zobrist) {A : Thinker τ} (hA : Thinker.Discreet A) {name : List Char} (hn : ∀ c ∈ name, c.toNat < 128) (m : τ) :
    (engineOf Z A name m).Polite where
  name := hn
  options l h := by cases h
  ready s l h := by cases h
  search s c l h := by
    obtain ⟨o, m'⟩ := s
    cases c with
    | go lim =>
      cases o with
      | none => cases h
      | some P =>
        have h' : l ∈ (turnOf (A.speak m' P lim 0)).lines := h
        unfold turnOf Thinker.speak at h'
        dsimp only at h'
        cases ht : A.told m' P lim with
        | none => rw [ht] at h'; cases h'
        | some t =>
          rw [ht] at h'
          rcases List.mem_append.mp h' with h' | h'
          · exact hA _ _ _ t ht l h'
          · rw [List.mem_singleton] at h'
            subst h'
            intro hx
            have : (toldText t).head? = some 'i' := rfl
            cases hl : toldText t with
            | nil => rw [hl] at this; cases this
            | cons c cs =>
              rw [hl] at this hx
              cases this
              have := congrArg List.head? hx
              rw [List.take_succ_cons] at this
              exact absurd this (by simp)
    | _ => cases h
  mate s c l h := by cases h
  move s l := by
    obtain ⟨o, m'⟩ := s
    cases o with
    | none => show ' ' ∉ "resign".toList; decide
    | some P =>
      show ' ' ∉ answerText (A.answer m' P l)
      cases A.answer m' P l with
      | resign => decide
      | declare => decide
      | move mv => exact usiText_blank mv
  ponder s l := by
    obtain ⟨o, m'⟩ := s
    intro y hy
    cases o with
    | none => cases hy
    | some P =>
      have hy' : y ∈ (A.ponder m' P l).map usiText := hy
      obtain ⟨mv, -, rfl⟩ := Option.map_eq_some_iff.mp hy'
      exact usiText_blank mv

/-- Such an engine sees the board of the match. -/
theorem engineOf_position {Z : Zobrist} {A : Thinker τ} {name : List Char} {m0 : τ} {past : List Mv} (h : startPos.Line past) (s : Option Pos × τ) :
    (engineOf Z A name m0).next s (.position "startpos".toList (past.map usiText)) = (some (startPos.after past), s.2) := by
  obtain ⟨p0, -, h2, -, h4, h5⟩ := C81_startpos Z
  obtain ⟨rest, b, e1, e2, e3⟩ : ∃ rest b, positionLine (some (past.map usiText)) "startpos".toList = "position ".toList ++ rest ∧
      Board.setPosition Z rest = .ok b ∧ absPos b.pos = startPos.after past := by
    obtain ⟨rest, ms, b, g1, g2, -, -, -, g6⟩ := h5 _ h
    exact ⟨rest, b, g1, g2, g6⟩
  show (match Board.setPosition Z ((positionLine (some (past.map usiText)) "startpos".toList).drop 9) with
      | .ok b => (some (absPos b.pos), s.2)
      | _ => s) = _
  rw [e1, show ("position ".toList ++ rest).drop 9 = rest from rfl, e2]
  dsimp only
  rw [e3]

theorem engines_play {Z : Zobrist} {R : Rules} {byoyomi : Color → Option Int} {A : Color → Thinker τ} {names : Color → List Char} {m0 : Color → τ} :
    ∀ (ds : List Nat) {S : Color → Option Pos × τ} {m : Color → τ} {clock : Color → Option Int} {P : Pos} {past : List Mv}, startPos.Line past →
    P = startPos.after past → (∀ c, (S c).2 = m c) →
    Plays R byoyomi (fun c => engineOf Z (A c) (names c) (m0 c)) S clock P past (overBoard R byoyomi A m clock P ds)
  | [], _, _, _, _, _, _, _, _ => trivial
  | d :: ds, S, m, clock, P, past, hl, hP, hS => by
    rw [overBoard]
    obtain ⟨l, hlim⟩ : ∃ l, l = limitsOf R byoyomi clock P.turn := ⟨_, rfl⟩
    have hpos := engineOf_position (Z := Z) (A := A P.turn) (name := names P.turn) (m0 := m0 P.turn) hl (S P.turn)
    rw [← hP, hS] at hpos
    refine ⟨?_, ?_, ?_⟩
    · rw [hpos]; rfl
    · rw [hpos]; rfl
    · intro mv ha hm
      rw [hpos]
      have hans : P.answered ((A P.turn).speak (m P.turn) P (limitsOf R byoyomi clock P.turn) d).answer = P.play mv := by rw [ha]; rfl
      rw [hans]
      refine engines_play ds ?_ ?_ ?_
      · exact line_append.mpr ⟨hl, by rw [← hP]; exact ⟨hm, trivial⟩⟩
      · rw [after_append, ← hP]; rfl
      · intro c
        by_cases e : c = P.turn
        · rw [if_pos e, if_pos e]; rfl
        · rw [if_neg e, if_neg e]; exact hS c

theorem overBoard_micros {R : Rules} {byoyomi : Color → Option Int} {A : Color → Thinker τ} : ∀ (ds : List Nat) {m : Color → τ} {clock : Color → Option Int}
    {P : Pos}, (overBoard R byoyomi A m clock P ds).map Spoken.micros = ds
  | [], _, _, _ => rfl
  | d :: ds, m, clock, P => by
    rw [overBoard]
    rw [List.map_cons, overBoard_micros ds]; rfl

/-- **C106** (partial, as above), for engines made with cshogi: the game of two such engines in a match is the game that their minds play at a board, each
seeing the position and the clocks. -/
theorem C106_minds_partial (Z : Zobrist) (p : Position) (hp : Inv Z p) (hc : CheckOK p) (hs : absPos p = startPos) (hf : Fresh p) (hply : p.gamePly = 1)
    (limit : Int) (hl : 1 ≤ limit) (mvs : List Mv) (hm : startPos.Line mvs) (R : Rules) (clock byoyomi : Color → Option Int)
    (hb : ∀ c, clock c = none ∨ R.byoyomi c = 0) (hplain : ∀ c, byoyomi c = none ∨ (R.inc .black = none ∧ R.inc .white = none))
    (A : Color → Thinker τ) (hA : ∀ c, Thinker.Discreet (A c)) (names : Color → List Char) (hn : ∀ c, ∀ x ∈ names c, x.toNat < 128) (m0 m : Color → τ)
    (engines : Color → Client (Option Pos × τ)) (he : ∀ c, ∃ s, (engines c).proc = some ⟨(s, m c), []⟩) (ds : List Nat)
    (ho : Orderly (startPos.after (cut limit mvs)) (overBoard R byoyomi A m clock (startPos.after (cut limit mvs)) ds)) (heard : Heard) :
    duelFrom Z (termsOf R) byoyomi (fun c => program (engineOf Z (A c) (names c) (m0 c))) p clock limit (mvs.map usiText) engines heard ds =
      .returns (gameFrom Z (termsOf R) p clock limit (mvs.map usiText)
        ((overBoard R byoyomi A m clock (startPos.after (cut limit mvs)) ds).map fun s => replyOf s.said)) := by
  choose s hs' using he
  have h := C106_duel_partial Z p hp hc hs hf hply limit hl mvs hm R clock byoyomi hb hplain (fun c => engineOf Z (A c) (names c) (m0 c))
    (fun c => engineOf_polite Z (hA c) (hn c) (m0 c)) engines (fun c => (s c, m c)) hs' _ ho (engines_play ds (line_take _ _ hm) rfl fun _ => rfl) heard
  rwa [overBoard_micros] at h

/-- **C106** (partial, as C77): the game of two engines made with cshogi ends as the rules say for the game that their minds play at the board, opening and
all. -/
theorem C106_rules_partial (Z : Zobrist) (p : Position) (hp : Inv Z p) (hc : CheckOK p) (hs : absPos p = startPos) (hf : Fresh p) (hply : p.gamePly = 1)
    (limit : Int) (hl : 1 ≤ limit) (mvs : List Mv) (hm : startPos.Line mvs) (P : Pos) (h : List Pos) (hrec : startPos.record [] (cut limit mvs) = P :: h)
    (hfew : ∀ r, occurrences r (P :: h) ≤ 3) (hlive : ∃ mv, P.Legal mv) (R : Rules) (clock byoyomi : Color → Option Int)
    (hb : ∀ c, clock c = none ∨ R.byoyomi c = 0) (hplain : ∀ c, byoyomi c = none ∨ (R.inc .black = none ∧ R.inc .white = none))
    (A : Color → Thinker τ) (hA : ∀ c, Thinker.Discreet (A c)) (names : Color → List Char) (hn : ∀ c, ∀ x ∈ names c, x.toNat < 128) (m0 m : Color → τ)
    (engines : Color → Client (Option Pos × τ)) (he : ∀ c, ∃ s, (engines c).proc = some ⟨(s, m c), []⟩) (ds : List Nat)
    (hlen : h.length + ds.length < 2147483647) (ho : Orderly P (overBoard R byoyomi A m clock P ds))
    (hu : Usual Z R startPos clock P h ((overBoard R byoyomi A m clock P ds).map Spoken.said)) (heard : Heard) :
    ∃ x, duelFrom Z (termsOf R) byoyomi (fun c => program (engineOf Z (A c) (names c) (m0 c))) p clock limit (mvs.map usiText) engines heard ds = .returns (.ok x) ∧
      (x = none → ∀ r, ¬ Ends R clock P h ((overBoard R byoyomi A m clock P ds).map Spoken.said) r) ∧
      ∀ w b, x = some (w, b) → Ends R clock P h ((overBoard R byoyomi A m clock P ds).map Spoken.said) (resultOfWin w.1) ∧
        ∃ reason, EndsBy R clock P h ((overBoard R byoyomi A m clock P ds).map Spoken.said) reason ∧ reason.Line b.pos.turn (R.limit < b.pos.gamePly) w.2 := by
  have hP : P = startPos.after (cut limit mvs) := by
    obtain ⟨t, ht⟩ := record_head startPos [] (cut limit mvs)
    rw [hrec] at ht
    exact (List.cons.inj ht).1
  subst hP
  have h1 := C106_minds_partial Z p hp hc hs hf hply limit hl mvs hm R clock byoyomi hb hplain A hA names hn m0 m engines he ds ho heard
  obtain ⟨⟨x, h2, h3, h4⟩, -⟩ := C100_result_partial Z p hp hc (by rw [hs]; exact startPos_regular) hf hply limit hl mvs (by rw [hs]; exact hm) _ h
    (by rw [hs]; exact hrec) hfew hlive R clock hb ((overBoard R byoyomi A m clock (startPos.after (cut limit mvs)) ds).map Spoken.said)
    (by rw [List.length_map, ← List.length_map (f := Spoken.micros), overBoard_micros]; exact hlen) (by rw [hs]; exact hu)
  rw [List.map_map] at h2
  exact ⟨x, by rw [h1]; exact congrArg _ h2, h3, h4⟩

/-! ### Where they do not -/

/-- **C106** fails with byoyomi and increments: whoever has a byoyomi is not told the increments, neither their own nor those of the other side. -/
theorem C106_fails_increment (R : Rules) (byoyomi : Color → Option Int) (st : State) (h : InTurn st) (n : Int) (hn : byoyomi st.board.pos.turn = some n) :
    Session.readCommand (goLine (goArgs (termsOf R) byoyomi st)) =
      some (.go { limitsOf R byoyomi st.remain st.board.pos.turn with binc := none, winc := none }) := by
  have ha : (goArgs (termsOf R) byoyomi st).byoyomi = some n := by
    show byoyomi (engineIndex st) = _
    rw [engineIndex_turn h, hn]
  rw [C82_fails_increment _ n ha none none, read_go _ (.inr ⟨rfl, rfl⟩)]
  rw [← goArgs_limits h rfl]
  rfl

/-- **C106** fails if the engine does not answer, or has ended: the match waits for ever, however little time is left on the clock. -/
theorem C106_fails_silent (Z : Zobrist) (T : Terms) (byoyomi : Color → Option Int) (G : Color → Program σ) (tb : Table σ) (d : Nat) (ds : List Nat)
    (hl : tb.game.board.pos.gamePly ≤ T.draw) (pr : Proc σ) (hp : (tb.engines (engineIndex tb.game)).proc = some pr)
    (h1 : ∀ l ∈ pr.unread, l.take 8 ≠ "bestmove".toList) (h2 : ∀ s x, ∀ l ∈ ((G (engineIndex tb.game)).hear s x).2, l.take 8 ≠ "bestmove".toList) :
    duel Z T byoyomi G tb (d :: ds) = .never := by
  have hask : ∀ usi a, ask (G (engineIndex tb.game)) (tb.engines (engineIndex tb.game)) usi a = .never := by
    intro usi a
    unfold ask Client.call
    dsimp only
    rw [hp]
    dsimp only [talk]
    unfold goHeard
    dsimp only
    rw [readTo_never]
    intro x hx
    refine bestOf_other ?_
    rcases List.mem_append.mp hx with hx | hx
    · rcases List.mem_append.mp hx with hx | hx
      · exact h1 x hx
      · exact h2 _ _ x hx
    · exact h2 _ _ x hx
  rw [duel, if_neg (by omega), hask]

/-- The same for a whole game, after any opening that can be played. -/
theorem C106_fails_silent_game (Z : Zobrist) (T : Terms) (byoyomi : Color → Option Int) (G : Color → Program σ) (p : Position) (clock : Color → Option Int)
    (limit : Int) (opening : List (List Char)) (engines : Color → Client σ) (heard : Heard) (d : Nat) (ds : List Nat) {x} (hx : playOpening Z limit (start p clock) opening = .ok x)
    (hl : x.1.board.pos.gamePly ≤ T.draw) (pr : Proc σ) (hp : (engines (engineIndex x.1)).proc = some pr)
    (h1 : ∀ l ∈ pr.unread, l.take 8 ≠ "bestmove".toList) (h2 : ∀ s y, ∀ l ∈ ((G (engineIndex x.1)).hear s y).2, l.take 8 ≠ "bestmove".toList) :
    duelFrom Z T byoyomi G p clock limit opening engines heard (d :: ds) = .never := by
  unfold duelFrom
  rw [hx]
  dsimp only
  rw [C106_fails_silent Z T byoyomi G ⟨x.1, x.2.2, engines, heard⟩ d ds hl pr hp h1 h2]
  rfl

/-- **C106** fails if the engine has written one `bestmove` too many: it is taken for the answer to the next question, whatever that is. -/
theorem C106_fails_stale (G : Program σ) (c : Client σ) (s : σ) (old : List (List Char)) (hp : c.proc = some ⟨s, old⟩) {before rest : List (List Char)}
    {x : List Char × Option (List Char)} (h : readTo bestOf old = some (before, x, rest)) (usi : List (List Char)) (a : GoArgs) :
    ∃ c', ask G c usi a = .returns (c', before, x) := by
  have happ : ∀ {l : List (List Char)} {b r : List (List Char)} {y : List Char × Option (List Char)}, readTo bestOf l = some (b, y, r) →
      ∀ l', readTo bestOf (l ++ l') = some (b, y, r ++ l') := by
    intro l
    induction l with
    | nil => intro b r y h; cases h
    | cons w l ih =>
      intro b r y h l'
      rw [readTo] at h
      rw [List.cons_append, readTo]
      cases hw : bestOf w with
      | some z =>
        rw [hw] at h
        cases h; rfl
      | none =>
        rw [hw] at h
        dsimp only at h ⊢
        cases e : readTo bestOf l with
        | none => rw [e] at h; cases h
        | some v =>
          obtain ⟨b', y', r'⟩ := v
          rw [e] at h
          cases h
          rw [ih e l']; rfl
  unfold ask Client.call
  dsimp only
  rw [hp]
  dsimp only [talk]
  unfold goHeard
  dsimp only
  rw [List.append_assoc, happ h]
  exact ⟨_, rfl⟩

/-! ### The theorems can be applied -/

/-- A player who says what was written down beforehand, and then resigns. -/
def scripted : Thinker (List Answer) := ⟨fun _ _ _ => none, fun m _ _ => m.headD .resign, fun _ _ _ => none, fun m _ _ => m.tail⟩

def scripts : Color → List Answer
  | .black => [.move (.move 60 59 false), .move (.move 15 14 false)]
  | .white => [.move (.move 20 21 false)]

/-- Ten seconds each. -/
def tenSeconds : Color → Option Int := fun _ => some 10000

/-- 7g7f, 3c3d, 2g2f, and White resigns. -/
def scriptedGame : List Spoken :=
  [⟨none, .move (.move 60 59 false), none, 1500000⟩, ⟨none, .move (.move 20 21 false), none, 2000000⟩, ⟨none, .move (.move 15 14 false), none, 300⟩,
    ⟨none, .resign, none, 4000⟩]

theorem scripted_game : overBoard (upTo 256) noClock (fun _ => scripted) scripts tenSeconds startPos [1500000, 2000000, 300, 4000] = scriptedGame := rfl

theorem scripted_orderly : Orderly startPos scriptedGame := by
  have hline : startPos.Line [.move 60 59 false, .move 20 21 false, .move 15 14 false] := start_line (by decide +kernel)
  obtain ⟨h1, h2, h3, -⟩ := hline
  refine ⟨(by intro t ht; cases ht), fun mv hmv => ?_⟩
  cases hmv
  refine ⟨Legal.promotionOK h1, fun _ => ⟨(by intro t ht; cases ht), fun mv hmv => ?_⟩⟩
  cases hmv
  refine ⟨Legal.promotionOK h2, fun _ => ⟨(by intro t ht; cases ht), fun mv hmv => ?_⟩⟩
  cases hmv
  exact ⟨Legal.promotionOK h3, fun _ => ⟨(by intro t ht; cases ht), fun mv hmv => by cases hmv⟩⟩

theorem scripted_discreet : Thinker.Discreet scripted := by
  intro m P l t ht
  cases ht

/-- C106_minds_partial (and with it C106_duel_partial): two programs, started anew, and the end of their game. -/
example : ∃ b, duelFrom mixKeys (termsOf (upTo 256)) noClock (fun c => program (engineOf mixKeys scripted "A".toList (scripts c))) startGame tenSeconds 256
    (([] : List Mv).map usiText) (fun c => ⟨some ⟨(none, scripts c), []⟩, none⟩) ⟨[], []⟩ [1500000, 2000000, 300, 4000] =
      .returns (.ok (some ((some .black, "%TORYO"), b))) := by
  have hm := C106_minds_partial mixKeys startGame startGame_good.inv startGame_good.check startGame_spec.2 startGame_fresh.1 startGame_fresh.2 256 (by decide)
    [] trivial (upTo 256) tenSeconds noClock (fun _ => .inr rfl) (fun _ => .inl rfl) (fun _ => scripted) (fun _ => scripted_discreet) (fun _ => "A".toList)
    (fun _ => by decide) scripts scripts (fun c => ⟨some ⟨(none, scripts c), []⟩, none⟩) (fun c => ⟨none, rfl⟩) [1500000, 2000000, 300, 4000]
    (show Orderly startPos (overBoard (upTo 256) noClock (fun _ => scripted) scripts tenSeconds startPos _) by rw [scripted_game]; exact scripted_orderly) ⟨[], []⟩
  rw [hm]
  have h : (gameFrom mixKeys (termsOf (upTo 256)) startGame tenSeconds 256 (([] : List Mv).map usiText)
      (scriptedGame.map fun s => replyOf s.said)).bind (fun x => .ok (x.map (·.1))) = .ok (some (some .black, "%TORYO")) := by decide +kernel
  show ∃ b, Outcome.returns (gameFrom mixKeys (termsOf (upTo 256)) startGame tenSeconds 256 (([] : List Mv).map usiText)
      ((overBoard (upTo 256) noClock (fun _ => scripted) scripts tenSeconds startPos [1500000, 2000000, 300, 4000]).map fun s => replyOf s.said)) = _
  rw [scripted_game]
  cases e : gameFrom mixKeys (termsOf (upTo 256)) startGame tenSeconds 256 (([] : List Mv).map usiText) (scriptedGame.map fun s => replyOf s.said) with
  | error => rw [e] at h; cases h
  | ub => rw [e] at h; cases h
  | ok x =>
    rw [e] at h
    cases x with
    | none => cases h
    | some y =>
      obtain ⟨w, b⟩ := y
      rw [Out.bind_ok] at h
      have hw : w = (some .black, "%TORYO") := by
        have : some w = some (some Color.black, "%TORYO") := by injection h
        exact Option.some.inj this
      rw [hw]
      exact ⟨b, rfl⟩

/-- C106_rules_partial: two players who resign at once. -/
example : ∃ x, duelFrom mixKeys (termsOf (upTo 256)) noClock (fun _ => program (engineOf mixKeys scripted "A".toList [])) startGame tenSeconds 256
    (([] : List Mv).map usiText) (fun _ => ⟨some ⟨(none, []), []⟩, none⟩) ⟨[], []⟩ [4000] = .returns (.ok x) ∧
    ∀ w b, x = some (w, b) → Ends (upTo 256) tenSeconds startPos [] [⟨.resign, none, 4⟩] (resultOfWin w.1) := by
  have hline : startPos.Line [.move 60 59 false] := start_line (by decide +kernel)
  obtain ⟨x, h1, -, h2⟩ := C106_rules_partial mixKeys startGame startGame_good.inv startGame_good.check startGame_spec.2 startGame_fresh.1 startGame_fresh.2 256
    (by decide) [] trivial startPos [] rfl (fun r => by rw [occurrences_sameB]; exact le_trans List.countP_le_length (by simp)) ⟨_, hline.1⟩ (upTo 256) tenSeconds
    noClock (fun _ => .inr rfl) (fun _ => .inl rfl) (fun _ => scripted) (fun _ => scripted_discreet) (fun _ => "A".toList) (fun _ => by decide) (fun _ => [])
    (fun _ => []) (fun _ => ⟨some ⟨(none, []), []⟩, none⟩) (fun c => ⟨none, rfl⟩) [4000] (by decide)
    ⟨(by intro t ht; cases ht), (by intro mv hmv; cases hmv)⟩
    (by
      intro _ _ _
      exact ⟨fun ha => absurd ha.1 (by decide), fun _ hd => (by cases hd), fun mv hm => (by cases hm)⟩) ⟨[], []⟩
  exact ⟨x, h1, fun w b hx => (h2 w b hx).1⟩

/-- C106_fails_increment: after `reset`, with a byoyomi. -/
example : InTurn (start startGame tenSeconds) := by unfold InTurn; decide +kernel

/-- C106_fails_silent: a program that never writes. -/
example : duel mixKeys (termsOf (upTo 256)) noClock (fun _ => (⟨(), fun _ _ => ((), [])⟩ : Program Unit)) ⟨start startGame tenSeconds, [], fun _ => ⟨some ⟨(), []⟩, none⟩,
    ⟨[], []⟩⟩ [99000000, 0] = .never :=
  C106_fails_silent _ _ _ _ _ _ _ (by decide +kernel) ⟨(), []⟩ rfl (by intro l hl; cases hl) (by intro s x l hl; cases hl)

/-- C106_fails_silent_game: the same program in a game without an opening. -/
example : duelFrom mixKeys (termsOf (upTo 256)) noClock (fun _ => (⟨(), fun _ _ => ((), [])⟩ : Program Unit)) startGame tenSeconds 256 []
    (fun _ => ⟨some ⟨(), []⟩, none⟩) ⟨[], []⟩ [99000000, 0] = .never :=
  C106_fails_silent_game _ _ _ _ _ _ _ _ _ _ _ _ (x := (start startGame tenSeconds, [], [])) rfl (by decide +kernel) ⟨(), []⟩ rfl (by intro l hl; cases hl)
    (by intro s x l hl; cases hl)

/-- C106_fails_stale. -/
example : readTo bestOf ["bestmove 7g7f".toList] = some ([], ("7g7f".toList, none), []) := by decide

end Verif.Match
