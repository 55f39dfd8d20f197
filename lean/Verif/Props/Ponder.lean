import Verif.Lemmas.Ponder
import Verif.Props.Duel

/-!
# C107: two engines that ponder

With `--ponder` an engine searches in the opponent's time the position that it expects. If the opponent's move is the expected one it is told so, and its
answer is about the position on the board; if not, it is stopped, its answer is dropped, and it is asked anew.
-/

namespace Verif.Match
open Spec Bitboard Position Usi

variable {σ τ : Type}

/-- **C107** (partial: no byoyomi together with increments), for programs that follow the protocol: if they answer `ss`, each after it has been told that its
guess was right, or has been stopped and then has heard the moves of the whole game and the clocks, then the game between them is the game of these
answers. No engine is asked while a thread waits for it, no future is asked for twice, and two workers are enough. -/
theorem C107_duel_partial (Z : Zobrist) (p : Position) (hp : Inv Z p) (hc : CheckOK p) (hs : absPos p = startPos) (hf : Fresh p) (hply : p.gamePly = 1)
    (limit : Int) (hl : 1 ≤ limit) (mvs : List Mv) (hm : startPos.Line mvs) (R : Rules) (clock byoyomi : Color → Option Int)
    (hb : ∀ c, clock c = none ∨ R.byoyomi c = 0) (hplain : ∀ c, byoyomi c = none ∨ (R.inc .black = none ∧ R.inc .white = none))
    (G : Color → Ponderer σ) (hG : ∀ c, (G c).Polite) (engines : Color → Client σ) (S : Color → σ) (he : ∀ c, (engines c).proc = some ⟨S c, []⟩)
    (ss : List (Said × Option (List Char))) (ho : PonderOrderly (startPos.after (cut limit mvs)) ss)
    (hpl : PonderPlays R byoyomi G S (fun _ => none) clock (startPos.after (cut limit mvs)) (cut limit mvs) none ss) :
    ponderFrom Z (termsOf R) byoyomi (fun c => ponderProgram (G c)) p clock limit (mvs.map usiText) engines (ss.map fun x => (x.1.millis, x.1.score)) =
      .returns (gameFrom Z (termsOf R) p clock limit (mvs.map usiText) (ss.map fun x => replyOf x.1)) := by
  have hr : (absPos p).Regular := by rw [hs]; exact startPos_regular
  obtain ⟨st, ms, h', i1, i2, i3, -, -⟩ := opening_begun (limit := limit) mvs (begun_start hp hc hr hf hply clock) (by rw [hs]; exact hm) (by simpa using hl)
  simp only [List.length_nil, Nat.cast_zero, Int.sub_zero] at i1 i2 i3
  rw [hs] at i2 i3
  have hnow : absPos st.board.pos = startPos.after (cut limit mvs) := i3.played.now
  have hgood : Csa.Good Z st.board.pos := i3.played.good
  have hlen : h'.length = (cut limit mvs).length := by
    have := congrArg List.length i2
    rw [record_size] at this
    simp only [List.length_nil, List.length_cons] at this
    omega
  have hturn : InTurn st := by
    unfold InTurn
    have : st.board.pos.turn = (startPos.after (cut limit mvs)).turn := congrArg Pos.turn hnow
    rw [this, after_parity, i3.ply, hlen, show startPos.turn = .black from rfl]
    split <;> split <;> first | rfl | omega
  unfold ponderFrom gameFrom
  rw [i1, Out.bind_ok]
  dsimp only
  obtain ⟨tb', e⟩ := ponder_loop hplain hG ss (S := S) (guess := fun _ => none) (clock := clock) (past := cut limit mvs) (last := none)
    (tb := ⟨st, (cut limit mvs).map usiText, engines, none, none, none, none, none, []⟩) hgood hturn i3.remain hb rfl
    (tended_start _ _ _ _ (fun c => ⟨[], he c, fun l hl => by cases hl⟩) _) (by rw [hnow]; exact ho) (by rw [hnow]; exact hpl)
  rw [e]
  rfl

/-! ### Engines made with cshogi -/

/-- The answer as it is written. -/
def muserWords (x : Answer × Option Mv) : List Char × Option (List Char) := (answerText x.1, x.2.map usiText)

/-- An engine made with cshogi that ponders: it hands what stands behind `position` to `Board.set_position` and looks at the board. -/
def muserOf (Z : Zobrist) (A : Muser τ) (m : τ) : Ponderer (Option Pos × τ) where
  start := (none, m)
  name := []
  options := []
  next s c := match c with
    | .position start moves => match Board.setPosition Z ((positionLine (some moves) start).drop 9) with
      | .ok b => (some (absPos b.pos), s.2)
      | _ => s
    | .go l => match s.1 with
      | some P => (some P, if l.ponder then A.muse s.2 P l else A.after s.2 P l)
      | none => s
    | .ponderhit => match s.1 with
      | some P => (some P, A.afterRipe s.2 P)
      | none => s
    | .stop => (s.1, A.vain s.2)
    | _ => s
  chat _ _ := []
  best s l := match s.1 with
    | some P => muserWords (A.answer s.2 P l)
    | none => ("resign".toList, none)
  mates _ _ := "notimplemented".toList
  found s _ := match s.1 with
    | some P => muserWords (A.ripe s.2 P)
    | none => ("resign".toList, none)

theorem resign_word : IsWord "resign".toList := ⟨by decide, by decide, by decide⟩

theorem muserWords_words (x : Answer × Option Mv) : IsWord (muserWords x).1 ∧ ∀ y ∈ (muserWords x).2, IsWord y := by
  obtain ⟨a, o⟩ := x
  constructor
  · cases a with
    | resign => exact resign_word
    | declare => show IsWord "win".toList; exact ⟨by decide, by decide, by decide⟩
    | move mv => exact usiText_word mv
  · intro y hy
    have hy' : o.map usiText = some y := hy
    obtain ⟨mv, -, rfl⟩ := Option.map_eq_some_iff.mp hy'
    exact usiText_word mv

theorem muserOf_polite (Z : Zobrist) (A : Muser τ) (m : τ) : (muserOf Z A m).Polite where
  search s c l h := by cases h
  best s l := by
    obtain ⟨o, m'⟩ := s
    cases o with
    | none => exact ⟨resign_word, fun y hy => by cases hy⟩
    | some P => exact muserWords_words _
  found s c := by
    obtain ⟨o, m'⟩ := s
    cases o with
    | none => exact ⟨resign_word, fun y hy => by cases hy⟩
    | some P => exact muserWords_words _

/-- Such an engine sees the board of the match. -/
theorem muserOf_position {Z : Zobrist} {A : Muser τ} {m0 : τ} {past : List Mv} (h : startPos.Line past) (s : Option Pos × τ) :
    (muserOf Z A m0).next s (.position "startpos".toList (past.map usiText)) = (some (startPos.after past), s.2) := by
  obtain ⟨p0, -, h2, -, h4, h5⟩ := C81_startpos Z
  obtain ⟨rest, b, e1, e2, e3⟩ : ∃ rest b, positionLine (some (past.map usiText)) "startpos".toList = "position ".toList ++ rest ∧
      Board.setPosition Z rest = .ok b ∧ absPos b.pos = startPos.after past := by
    obtain ⟨rest, ms, b, g1, g2, -, -, -, g6⟩ := h5 _ h
    exact ⟨rest, b, g1, g2, g6⟩
  show (match Board.setPosition Z ((positionLine (some (past.map usiText)) "startpos".toList).drop 9) with
      | .ok b => (some (absPos b.pos), s.2)
      | _ => s) = _
  rw [e1, show ("position ".toList ++ rest).drop 9 = rest from rfl, e2]
  dsimp only
  rw [e3]

theorem square_text : ∀ a b : Fin 81, Char.ofNat (49 + a.val / 9) = Char.ofNat (49 + b.val / 9) → Char.ofNat (97 + a.val % 9) = Char.ofNat (97 + b.val % 9) → a = b := by
  decide +kernel

/-- The text of a move tells the move. -/
theorem usiText_inj {a b : Mv} (h : usiText a = usiText b) : a = b := by
  have hstar : ∀ a : Fin 81, Char.ofNat (97 + a.val % 9) ≠ '*' := by decide +kernel
  cases a with
  | move f t pro =>
    cases b with
    | move f' t' pro' =>
      unfold usiText at h
      simp only [List.cons_append, List.nil_append, List.cons.injEq] at h
      obtain ⟨h1, h2, h3, h4, h5⟩ := h
      obtain rfl := square_text f f' h1 h2
      obtain rfl := square_text t t' h3 h4
      cases pro <;> cases pro' <;> first | rfl | (simp at h5)
    | drop hp t' =>
      unfold usiText at h
      simp only [List.cons_append, List.nil_append, List.cons.injEq] at h
      exact absurd h.2.1 (hstar f)
  | drop hp t =>
    cases b with
    | move f' t' pro' =>
      unfold usiText at h
      simp only [List.cons_append, List.nil_append, List.cons.injEq] at h
      exact absurd h.2.1.symm (hstar f')
    | drop hp' t' =>
      unfold usiText at h
      simp only [List.cons.injEq, and_true] at h
      obtain ⟨h1, -, h3, h4⟩ := h
      obtain rfl := square_text t t' h3 h4
      cases hp <;> cases hp' <;> first | rfl | (simp at h1)

/-- Every guess is a legal move. -/
def FairGuesses : Pos → List (Said × Option Mv) → Prop
  | _, [] => True
  | P, (s, w) :: ss => ∀ mv, s.answer = .move mv → P.Legal mv → (∀ q, w = some q → (P.play mv).Legal q) ∧ FairGuesses (P.play mv) ss

/-- What is written of a game. -/
def writtenGuess (x : Said × Option Mv) : Said × Option (List Char) := (x.1, x.2.map usiText)

theorem muser_turn {Z : Zobrist} {A : Muser τ} {m0 : τ} {past : List Mv} (hl : startPos.Line past) {s : Option Pos × τ} {guess last : Option Mv} {l : Session.Limits}
    (hp : l.ponder = false) (hs : ∀ q, guess = some q → last = some q → s.1 = some (startPos.after past)) :
    (muserOf Z A m0).turn s (guess.map usiText) (last.map usiText) (past.map usiText) l =
      ((some (startPos.after past), (A.turn s.2 guess last (startPos.after past) l).1), muserWords (A.turn s.2 guess last (startPos.after past) l).2) := by
  have fresh : ∀ s' : Option Pos × τ, (muserOf Z A m0).thinks (past.map usiText) l (s', none) =
      ((some (startPos.after past), A.after s'.2 (startPos.after past) l), muserWords (A.answer s'.2 (startPos.after past) l)) := by
    intro s'
    unfold Ponderer.thinks
    dsimp only
    rw [muserOf_position hl]
    show ((_, if l.ponder then _ else _), _) = _
    rw [hp]; rfl
  unfold Ponderer.turn Ponderer.wakes Muser.turn
  cases guess with
  | none =>
    rw [Option.map_none, if_pos rfl, if_pos rfl, fresh]
  | some q =>
    rw [if_neg (show ¬ (some q).map usiText = none from fun h => by cases h), if_neg (show ¬ some q = none from fun h => by cases h)]
    by_cases e : last = some q
    · rw [if_pos e, if_pos (show last.map usiText = (some q).map usiText by rw [e])]
      have hpos := hs q rfl e
      obtain ⟨o, m⟩ := s
      cases hpos
      rfl
    · have e' : ¬ last.map usiText = (some q).map usiText := by
        intro h
        cases last with
        | none => cases h
        | some q' =>
          rw [Option.map_some, Option.map_some] at h
          injection h with h
          exact e (by rw [usiText_inj h])
      rw [if_neg e, if_neg e', fresh]; rfl

theorem musers_play {Z : Zobrist} {R : Rules} {byoyomi : Color → Option Int} {A : Color → Muser τ} {m0 : Color → τ} :
    ∀ (ds : List (Int × Option Int)) {S : Color → Option Pos × τ} {m : Color → τ} {guess : Color → Option Mv} {clock : Color → Option Int} {P : Pos} {past : List Mv}
      {last : Option Mv}, startPos.Line past → P = startPos.after past → (∀ c, (S c).2 = m c) → (∀ q, guess P.turn = some q → last = some q → (S P.turn).1 = some P) →
    (∀ q, guess P.turn.opp = some q → (S P.turn.opp).1 = some (P.play q)) → FairGuesses P (ponderBoard R byoyomi A m guess clock P last ds) →
    PonderPlays R byoyomi (fun c => muserOf Z (A c) (m0 c)) S (fun c => (guess c).map usiText) clock P past (last.map usiText)
      ((ponderBoard R byoyomi A m guess clock P last ds).map writtenGuess)
  | [], _, _, _, _, _, _, _, _, _, _, _, _, _ => trivial
  | d :: ds, S, m, guess, clock, P, past, last, hl, hP, hS, hown, hother, hfair => by
    rw [ponderBoard] at hfair ⊢
    obtain ⟨x, hx⟩ : ∃ x, x = (A P.turn).turn (m P.turn) (guess P.turn) last P (limitsOf R byoyomi clock P.turn) := ⟨_, rfl⟩
    simp only [← hx] at hfair ⊢
    have ht := muser_turn (Z := Z) (A := A P.turn) (m0 := m0 P.turn) hl (s := S P.turn) (guess := guess P.turn) (last := last)
      (l := limitsOf R byoyomi clock P.turn) rfl (by rw [← hP]; exact hown)
    rw [← hP, hS, ← hx] at ht
    rw [List.map_cons]
    refine ⟨by rw [ht]; rfl, ?_⟩
    intro mv ha hm
    have ha' : x.2.1 = .move mv := ha
    obtain ⟨hf1, hf2⟩ := hfair mv ha hm
    have hline : startPos.Line (past ++ [mv]) := line_append.mpr ⟨hl, by rw [← hP]; exact ⟨hm, trivial⟩⟩
    have hafter : startPos.after (past ++ [mv]) = P.play mv := by rw [after_append, ← hP]; rfl
    have hans : P.answered x.2.1 = P.play mv := by rw [ha']; rfl
    have hopp : P.turn.opp.opp = P.turn := by cases P.turn <;> rfl
    rw [hans, show x.2.1.played = some mv by rw [ha']; rfl, ht]
    rw [hans, show x.2.1.played = some mv by rw [ha']; rfl] at hf2
    obtain ⟨l', hl'⟩ : ∃ l', l' = limitsOf R byoyomi (R.charge clock P.turn ⟨x.2.1, d.2, d.1⟩) P.turn := ⟨_, rfl⟩
    -- what the engine becomes that has moved
    have hmuse : ∀ w, x.2.2 = w → (muserOf Z (A P.turn) (m0 P.turn)).muses (some P, x.1) (past.map usiText ++ [usiText mv]) l' (w.map usiText) =
        ((match w with | none => some P | some q => some ((P.play mv).play q)), (A P.turn).muses x.1 (P.play mv) l' w) := by
      intro w hw
      cases w with
      | none => rfl
      | some q =>
        have hq := hf1 q hw
        have hline' : startPos.Line (past ++ [mv] ++ [q]) := line_append.mpr ⟨hline, by rw [hafter]; exact ⟨hq, trivial⟩⟩
        show (muserOf Z (A P.turn) (m0 P.turn)).next ((muserOf Z (A P.turn) (m0 P.turn)).next (some P, x.1) (.position "startpos".toList
          (past.map usiText ++ [usiText mv] ++ [usiText q]))) _ = _
        rw [show past.map usiText ++ [usiText mv] ++ [usiText q] = (past ++ [mv] ++ [q]).map usiText by simp, muserOf_position hline', after_append, hafter]
        rfl
    rw [← hl'] at hf2 ⊢
    refine (cast ?_ (musers_play (Z := Z) (m0 := m0) ds (S := handOver P.turn ((muserOf Z (A P.turn) (m0 P.turn)).muses (some P, x.1)
      (past.map usiText ++ [usiText mv]) l' (x.2.2.map usiText)) S) hline hafter.symm ?_ ?_ ?_ hf2))
    · congr 1
      funext c
      unfold handOver
      split
      · rfl
      · rfl
    · intro c
      unfold handOver
      by_cases e : c = P.turn
      · rw [if_pos e, if_pos e, hmuse _ rfl]
      · rw [if_neg e, if_neg e]; exact hS c
    · intro q hq1 hq2
      rw [play_turn] at hq1 ⊢
      rw [if_neg (opp_ne _)] at hq1
      unfold handOver
      rw [if_neg (opp_ne _), hother q hq1]
      cases hq2
      rfl
    · intro q hq
      rw [play_turn, hopp] at hq ⊢
      rw [if_pos rfl] at hq
      unfold handOver
      rw [if_pos rfl, hmuse _ rfl, hq]

theorem ponderBoard_given {R : Rules} {byoyomi : Color → Option Int} {A : Color → Muser τ} : ∀ (ds : List (Int × Option Int)) {m : Color → τ}
    {guess : Color → Option Mv} {clock : Color → Option Int} {P : Pos} {last : Option Mv},
    (ponderBoard R byoyomi A m guess clock P last ds).map (fun x => (x.1.millis, x.1.score)) = ds
  | [], _, _, _, _, _ => rfl
  | d :: ds, m, guess, clock, P, last => by
    rw [ponderBoard]
    rw [List.map_cons, ponderBoard_given ds]

theorem orderly_written : ∀ {ss : List (Said × Option Mv)} {P : Pos}, PonderOrderly P ss → PonderOrderly P (ss.map writtenGuess)
  | [], _, _ => trivial
  | (s, w) :: ss, P, h => fun mv ha => ⟨(h mv ha).1, fun hm => orderly_written ((h mv ha).2 hm)⟩

/-- **C107** (partial, as above), for engines made with cshogi whose guesses are legal moves: the game of two such engines in a match is the game that their
minds play at a board. Whoever has guessed the opponent's move answers what came of musing about it, and the position mused about is the position on the
board; whoever has not is asked about the position on the board. -/
theorem C107_minds_partial (Z : Zobrist) (p : Position) (hp : Inv Z p) (hc : CheckOK p) (hs : absPos p = startPos) (hf : Fresh p) (hply : p.gamePly = 1)
    (limit : Int) (hl : 1 ≤ limit) (mvs : List Mv) (hm : startPos.Line mvs) (R : Rules) (clock byoyomi : Color → Option Int)
    (hb : ∀ c, clock c = none ∨ R.byoyomi c = 0) (hplain : ∀ c, byoyomi c = none ∨ (R.inc .black = none ∧ R.inc .white = none))
    (A : Color → Muser τ) (m0 m : Color → τ) (engines : Color → Client (Option Pos × τ)) (he : ∀ c, ∃ s, (engines c).proc = some ⟨(s, m c), []⟩)
    (ds : List (Int × Option Int)) (ss : List (Said × Option Mv))
    (hss : ponderBoard R byoyomi A m (fun _ => none) clock (startPos.after (cut limit mvs)) none ds = ss)
    (ho : PonderOrderly (startPos.after (cut limit mvs)) ss) (hfair : FairGuesses (startPos.after (cut limit mvs)) ss) :
    ponderFrom Z (termsOf R) byoyomi (fun c => ponderProgram (muserOf Z (A c) (m0 c))) p clock limit (mvs.map usiText) engines ds =
      .returns (gameFrom Z (termsOf R) p clock limit (mvs.map usiText) (ss.map fun x => replyOf x.1)) := by
  subst hss
  choose s hs' using he
  have h := C107_duel_partial Z p hp hc hs hf hply limit hl mvs hm R clock byoyomi hb hplain (fun c => muserOf Z (A c) (m0 c))
    (fun c => muserOf_polite Z (A c) (m0 c)) engines (fun c => (s c, m c)) hs' _ (orderly_written ho)
    (musers_play (m := m) (guess := fun _ => none) (S := fun c => (s c, m c)) (last := none) (past := cut limit mvs) ds (line_take _ _ hm) rfl (fun _ => rfl)
      (fun q h => by cases h) (fun q h => by cases h) hfair)
  rw [List.map_map, List.map_map] at h
  rw [show ((fun x : Said × Option (List Char) => (x.1.millis, x.1.score)) ∘ writtenGuess) = fun x => (x.1.millis, x.1.score) from rfl, ponderBoard_given] at h
  exact h

/-- **C107** (partial, as C77): the game of two engines that ponder ends as the rules say for the game that their minds play at the board. -/
theorem C107_rules_partial (Z : Zobrist) (p : Position) (hp : Inv Z p) (hc : CheckOK p) (hs : absPos p = startPos) (hf : Fresh p) (hply : p.gamePly = 1)
    (limit : Int) (hl : 1 ≤ limit) (mvs : List Mv) (hm : startPos.Line mvs) (P : Pos) (h : List Pos) (hrec : startPos.record [] (cut limit mvs) = P :: h)
    (hfew : ∀ r, occurrences r (P :: h) ≤ 3) (hlive : ∃ mv, P.Legal mv) (R : Rules) (clock byoyomi : Color → Option Int)
    (hb : ∀ c, clock c = none ∨ R.byoyomi c = 0) (hplain : ∀ c, byoyomi c = none ∨ (R.inc .black = none ∧ R.inc .white = none))
    (A : Color → Muser τ) (m0 m : Color → τ) (engines : Color → Client (Option Pos × τ)) (he : ∀ c, ∃ s, (engines c).proc = some ⟨(s, m c), []⟩)
    (ds : List (Int × Option Int)) (hlen : h.length + ds.length < 2147483647) (ss : List (Said × Option Mv))
    (hss : ponderBoard R byoyomi A m (fun _ => none) clock P none ds = ss) (ho : PonderOrderly P ss) (hfair : FairGuesses P ss)
    (hu : Usual Z R startPos clock P h (ss.map Prod.fst)) :
    ∃ x, ponderFrom Z (termsOf R) byoyomi (fun c => ponderProgram (muserOf Z (A c) (m0 c))) p clock limit (mvs.map usiText) engines ds = .returns (.ok x) ∧
      (x = none → ∀ r, ¬ Ends R clock P h (ss.map Prod.fst) r) ∧
      ∀ w b, x = some (w, b) → Ends R clock P h (ss.map Prod.fst) (resultOfWin w.1) ∧
        ∃ reason, EndsBy R clock P h (ss.map Prod.fst) reason ∧ reason.Line b.pos.turn (R.limit < b.pos.gamePly) w.2 := by
  have hP : P = startPos.after (cut limit mvs) := by
    obtain ⟨t, ht⟩ := record_head startPos [] (cut limit mvs)
    rw [hrec] at ht
    exact (List.cons.inj ht).1
  subst hP
  have h1 := C107_minds_partial Z p hp hc hs hf hply limit hl mvs hm R clock byoyomi hb hplain A m0 m engines he ds ss hss ho hfair
  have hsize : ss.length = ds.length := by
    rw [← hss]
    conv_rhs => rw [← ponderBoard_given (R := R) (byoyomi := byoyomi) (A := A) ds (m := m) (guess := fun _ => none) (clock := clock)
      (P := startPos.after (cut limit mvs)) (last := none)]
    rw [List.length_map]
  obtain ⟨⟨x, h2, h3, h4⟩, -⟩ := C100_result_partial Z p hp hc (by rw [hs]; exact startPos_regular) hf hply limit hl mvs (by rw [hs]; exact hm) _ h
    (by rw [hs]; exact hrec) hfew hlive R clock hb (ss.map Prod.fst) (by rw [List.length_map, hsize]; exact hlen) (by rw [hs]; exact hu)
  rw [List.map_map] at h2
  exact ⟨x, by rw [h1]; exact congrArg _ h2, h3, h4⟩

/-! ### Where they do not -/

/-- **C107** fails at the end of the game: if the last answer came with a guess, and the time had not run out, the engine has been told to ponder on it and is
never told to stop; the thread still waits for its answer. With `--keep_process` the next game begins with `isready` to this engine, and it depends on
chance whether the thread or the game reads `readyok`. -/
theorem C107_fails_left (Z : Zobrist) (R : Rules) (byoyomi : Color → Option Int) (hplain : ∀ c, byoyomi c = none ∨ (R.inc .black = none ∧ R.inc .white = none))
    (G : Color → Ponderer σ) (hG : ∀ c, (G c).Polite) (S : Color → σ) (guess : Color → Option (List Char)) (clock : Color → Option Int) (tb : PonderTable σ)
    (last : Option (List Char)) (ht : InTurn tb.game) (hc : tb.game.remain = clock) (hb : ∀ c, clock c = none ∨ R.byoyomi c = 0)
    (hu : ∀ w ∈ tb.usi, IsWord w) (htd : Tended tb tb.game.board.pos.turn S guess last) (s : Said) (w : List Char)
    (ha : ((G tb.game.board.pos.turn).turn (S tb.game.board.pos.turn) (guess tb.game.board.pos.turn) last tb.usi
      (limitsOf R byoyomi clock tb.game.board.pos.turn)).2 = (answerText s.answer, some w))
    (f : Flag) (st' : State) (hr : round Z (termsOf R) tb.game (replyOf s) = .ok (some f, st')) (hf : f ≠ .timeup) :
    ∃ tb', ponderRound Z (termsOf R) byoyomi (fun c => ponderProgram (G c)) tb (s.millis, s.score) = .returns (tb', .ok (some f, st')) ∧
      tb'.busy tb.game.board.pos.turn = true ∧ ∃ s1, Waiting (tb'.engines tb.game.board.pos.turn) ((G tb.game.board.pos.turn).next ((G tb.game.board.pos.turn).next s1
        (.position "startpos".toList (tb.usi ++ [answerText s.answer] ++ [w])))
        (.go { limitsOf R byoyomi (R.charge clock tb.game.board.pos.turn s) tb.game.board.pos.turn with ponder := true })) := by
  obtain ⟨x, hx⟩ : ∃ x, x = (G tb.game.board.pos.turn).turn (S tb.game.board.pos.turn) (guess tb.game.board.pos.turn) last tb.usi
    (limitsOf R byoyomi clock tb.game.board.pos.turn) := ⟨_, rfl⟩
  rw [← hx] at ha
  obtain ⟨tb', r1, -, -, -, r5⟩ := ponderRound_on (Z := Z) hplain hG ht hc hb hu htd hx s (by rw [ha])
  have hopp : tb.game.board.pos.turn.opp.opp = tb.game.board.pos.turn := by cases tb.game.board.pos.turn <;> rfl
  have htd' := r5 (round_time hc hb hr (by intro h; injection h with h; exact hf h))
  rw [hr] at r1
  refine ⟨tb', r1, ?_, x.1, ?_⟩
  · obtain ⟨i, -, hi⟩ := htd'.otherThread (by rw [hopp]; unfold handOver; rw [if_pos rfl, ha]; intro h; cases h)
    rw [hopp] at hi
    unfold PonderTable.busy
    rw [List.any_eq_true]
    exact ⟨_, List.mem_of_getElem? hi, by simp⟩
  · have := htd'.engines tb.game.board.pos.turn
    unfold handOver at this
    rw [if_pos rfl, ha] at this
    exact this

theorem result_silent {tb : PonderTable σ} {f : Option Nat} {i : Nat} (hf : f = some i) {t : Color} (hi : tb.threads[i]? = some (t, none)) {s : σ}
    {U : List (List Char)} (hp : (tb.engines t).proc = some ⟨s, U⟩) (hr : readTo bestOf U = none) : tb.result f = .never := by
  subst hf
  unfold PonderTable.result
  dsimp only
  rw [hi]
  dsimp only
  unfold PonderTable.collect
  rw [hp]
  dsimp only
  rw [hr]

theorem go_silent {G : Color → Program σ} {tb : PonderTable σ} {t : Color} {a : GoArgs} {s : σ} {U : List (List Char)}
    (hp : (tb.engines t).proc = some ⟨s, U⟩) (hr : readTo bestOf (U ++ ((G t).hear s (goLine a)).2) = none) : tb.go G t a = .never := by
  unfold PonderTable.go
  split
  · rfl
  have hc : (tb.engines t).call (G t) (.go a) = .never := by
    unfold Client.call
    dsimp only
    rw [hp]
    dsimp only [talk]
    rw [show (Call.go a).line = goLine a from rfl, hr]
    rfl
  rw [hc]

theorem reply_silent {T : Terms} {byoyomi : Color → Option Int} {G : Color → Program σ} {tb : PonderTable σ} {t : Color} (ht : engineIndex tb.game = t) {pr : Proc σ}
    (hp : (tb.engines t).proc = some pr) (hr : ∀ x s y, readTo bestOf (pr.unread ++ ((G t).hear pr.eng x).2 ++ ((G t).hear s y).2) = none) :
    reply T byoyomi G tb none = .never := by
  obtain ⟨c', h1, h2⟩ : ∃ c', (tb.engines t).call (G t) (.position (some tb.usi) "startpos".toList) = .returns (c', .none) ∧
      c'.proc = some ⟨((G t).hear pr.eng (positionLine (some tb.usi) "startpos".toList)).1,
        pr.unread ++ ((G t).hear pr.eng (positionLine (some tb.usi) "startpos".toList)).2⟩ := by
    unfold Client.call
    dsimp only
    rw [hp]
    exact ⟨_, rfl, rfl⟩
  unfold reply PonderTable.send
  dsimp only
  rw [ht, h1]
  dsimp only [andThen]
  rw [show (tb.setEngine t c').game = tb.game from rfl, ht]
  refine go_silent (by show (if t = t then c' else _).proc = _; rw [if_pos rfl]; exact h2) (hr _ _ _)

/-- **C107** fails, as C106, if an engine never writes `bestmove`: whether it has to answer a question, or `ponderhit`, or `stop`, the match waits for ever. -/
theorem C107_fails_silent (Z : Zobrist) (T : Terms) (byoyomi : Color → Option Int) (G : Color → Program σ) (tb : PonderTable σ) (d : Int × Option Int)
    (ds : List (Int × Option Int)) (hl : tb.game.board.pos.gamePly ≤ T.draw) (pr : Proc σ) (hp : (tb.engines (engineIndex tb.game)).proc = some pr)
    (h1 : ∀ l ∈ pr.unread, l.take 8 ≠ "bestmove".toList) (h2 : ∀ s x, ∀ l ∈ ((G (engineIndex tb.game)).hear s x).2, l.take 8 ≠ "bestmove".toList)
    (hg : truthy tb.prePonder = true → ∃ i, tb.preFeature = some i ∧ tb.threads[i]? = some (engineIndex tb.game, none)) :
    ponderDuel Z T byoyomi G tb (d :: ds) = .never := by
  obtain ⟨t, ht⟩ : ∃ t, engineIndex tb.game = t := ⟨_, rfl⟩
  rw [ht] at hp h2 hg
  have hout : ∀ s x U, (∀ l ∈ U, l.take 8 ≠ "bestmove".toList) → readTo bestOf (U ++ ((G t).hear s x).2) = none := by
    intro s x U hU
    refine readTo_never fun l hl => bestOf_other ?_
    rcases List.mem_append.mp hl with hl | hl
    · exact hU l hl
    · exact h2 _ _ l hl
  rw [ponderDuel, if_neg (by omega)]
  have hround : ponderRound Z T byoyomi G tb d = .never := by
    unfold ponderRound settle
    rw [ht]
    by_cases hw : truthy tb.prePonder = true
    · rw [if_pos hw]
      obtain ⟨i, i1, i2⟩ := hg hw
      have key : ∀ call, call = Call.ponderhit ∨ call = Call.stop → ∃ tb1 : PonderTable σ,
          ({ tb with prePonder := tb.ponder } : PonderTable σ).send G t call = .returns tb1 ∧ tb1.result tb1.preFeature = .never := by
        intro call hcall
        have hc : (tb.engines t).call (G t) call = .returns ({ tb.engines t with proc := some ⟨((G t).hear pr.eng call.line).1, pr.unread ++ ((G t).hear pr.eng call.line).2⟩ }, .none) := by
          unfold Client.call
          rcases hcall with rfl | rfl
          · dsimp only; rw [hp]; rfl
          · dsimp only; rw [hp]; rfl
        refine ⟨({ tb with prePonder := tb.ponder } : PonderTable σ).setEngine t
          { tb.engines t with proc := some ⟨((G t).hear pr.eng call.line).1, pr.unread ++ ((G t).hear pr.eng call.line).2⟩ }, ?_, ?_⟩
        · unfold PonderTable.send
          rw [show ({ tb with prePonder := tb.ponder } : PonderTable σ).engines t = tb.engines t from rfl, hc]
          rfl
        · refine result_silent (t := t) i1 i2 (s := ((G t).hear pr.eng call.line).1) ?_ (hout pr.eng call.line _ h1)
          show (if t = t then _ else _ : Client σ).proc = _
          rw [if_pos rfl]
      split
      · obtain ⟨tb1, k1, k2⟩ := key .ponderhit (.inl rfl)
        rw [k1]
        dsimp only [andThen]
        rw [k2]
      · obtain ⟨tb1, k1, k2⟩ := key .stop (.inr rfl)
        rw [k1]
        dsimp only [andThen]
        rw [k2]
    · rw [if_neg hw]
      have hrep := reply_silent (T := T) (byoyomi := byoyomi) (G := G) (tb := { tb with prePonder := tb.ponder, preFeature := tb.feature }) ht hp fun x s y =>
        hout s y _ fun l hl => by
          rcases List.mem_append.mp hl with hl | hl
          · exact h1 l hl
          · exact h2 _ _ l hl
      unfold andThen
      dsimp only
      rw [hrep]
  rw [hround]
  rfl

/-! ### The theorems can be applied -/

/-- A player who says what was written down beforehand, and then resigns; having guessed right, it says the second of the two. -/
def scriptedMuser : Muser (List ((Answer × Option Mv) × (Answer × Option Mv))) where
  answer m _ _ := (m.headD ((.resign, none), (.resign, none))).1
  after m _ _ := m.tail
  muse m _ _ := m
  ripe m _ := (m.headD ((.resign, none), (.resign, none))).2
  afterRipe m _ := m.tail
  vain m := m

/-- Black guesses 8c8d, which White does not play; White guesses 2g2f, which Black plays. -/
def muserScripts : Color → List ((Answer × Option Mv) × (Answer × Option Mv))
  | .black => [((.move (.move 60 59 false), some (.move 65 66 false)), (.resign, none)), ((.move (.move 15 14 false), none), (.resign, none))]
  | .white => [((.move (.move 20 21 false), some (.move 15 14 false)), (.resign, none)), ((.resign, none), (.move (.move 65 66 false), none))]

/-- 7g7f, 3c3d, 2g2f, 8c8d, and Black resigns. -/
def muserGame : List (Said × Option Mv) :=
  [(⟨.move (.move 60 59 false), none, 1500⟩, some (.move 65 66 false)), (⟨.move (.move 20 21 false), none, 2000⟩, some (.move 15 14 false)),
    (⟨.move (.move 15 14 false), none, 300⟩, none), (⟨.move (.move 65 66 false), none, 4⟩, none), (⟨.resign, none, 5⟩, none)]

theorem muser_game : ponderBoard (upTo 256) noClock (fun _ => scriptedMuser) muserScripts (fun _ => none) tenSeconds startPos none
    [(1500, none), (2000, none), (300, none), (4, none), (5, none)] = muserGame := rfl

theorem muser_orderly : PonderOrderly startPos muserGame ∧ FairGuesses startPos muserGame := by
  have hline : startPos.Line [.move 60 59 false, .move 20 21 false, .move 15 14 false, .move 65 66 false] := start_line (by decide +kernel)
  have hguess : startPos.Line [.move 60 59 false, .move 65 66 false] := start_line (by decide +kernel)
  obtain ⟨h1, h2, h3, h4, -⟩ := hline
  constructor
  · intro mv hmv
    cases hmv
    refine ⟨Legal.promotionOK h1, fun _ => fun mv hmv => ?_⟩
    cases hmv
    refine ⟨Legal.promotionOK h2, fun _ => fun mv hmv => ?_⟩
    cases hmv
    refine ⟨Legal.promotionOK h3, fun _ => fun mv hmv => ?_⟩
    cases hmv
    exact ⟨Legal.promotionOK h4, fun _ => fun mv hmv => by cases hmv⟩
  · intro mv hmv _
    cases hmv
    refine ⟨fun q hq => ?_, fun mv hmv _ => ?_⟩
    · cases hq; exact hguess.2.1
    cases hmv
    refine ⟨fun q hq => ?_, fun mv hmv _ => ?_⟩
    · cases hq; exact h3
    cases hmv
    refine ⟨fun q hq => (by cases hq), fun mv hmv _ => ?_⟩
    cases hmv
    exact ⟨fun q hq => (by cases hq), fun mv hmv _ => by cases hmv⟩

/-- C107_minds_partial (and with it C107_duel_partial): two programs, and the end of their game. -/
example : ∃ b, ponderFrom mixKeys (termsOf (upTo 256)) noClock (fun c => ponderProgram (muserOf mixKeys scriptedMuser (muserScripts c))) startGame tenSeconds 256
    (([] : List Mv).map usiText) (fun c => ⟨some ⟨(none, muserScripts c), []⟩, none⟩) [(1500, none), (2000, none), (300, none), (4, none), (5, none)] =
      .returns (.ok (some ((some .white, "%TORYO"), b))) := by
  rw [C107_minds_partial mixKeys startGame startGame_good.inv startGame_good.check startGame_spec.2 startGame_fresh.1 startGame_fresh.2 256 (by decide)
    [] trivial (upTo 256) tenSeconds noClock (fun _ => .inr rfl) (fun _ => .inl rfl) (fun _ => scriptedMuser) muserScripts muserScripts
    (fun c => ⟨some ⟨(none, muserScripts c), []⟩, none⟩) (fun c => ⟨none, rfl⟩) _ muserGame muser_game muser_orderly.1 muser_orderly.2]
  have h : (gameFrom mixKeys (termsOf (upTo 256)) startGame tenSeconds 256 (([] : List Mv).map usiText)
      (muserGame.map fun x => replyOf x.1)).bind (fun x => .ok (x.map (·.1))) = .ok (some (some .white, "%TORYO")) := by decide +kernel
  cases e : gameFrom mixKeys (termsOf (upTo 256)) startGame tenSeconds 256 (([] : List Mv).map usiText) (muserGame.map fun x => replyOf x.1) with
  | error => rw [e] at h; cases h
  | ub => rw [e] at h; cases h
  | ok x =>
    rw [e] at h
    cases x with
    | none => cases h
    | some y =>
      obtain ⟨w, b⟩ := y
      rw [Out.bind_ok] at h
      have hw : w = (some .white, "%TORYO") := by
        have : some w = some (some Color.white, "%TORYO") := by injection h
        exact Option.some.inj this
      rw [hw]
      exact ⟨b, rfl⟩

/-- C107_rules_partial: two players who resign at once. -/
example : ∃ x, ponderFrom mixKeys (termsOf (upTo 256)) noClock (fun _ => ponderProgram (muserOf mixKeys scriptedMuser [])) startGame tenSeconds 256
    (([] : List Mv).map usiText) (fun _ => ⟨some ⟨(none, []), []⟩, none⟩) [(4, none)] = .returns (.ok x) ∧
    ∀ w b, x = some (w, b) → Ends (upTo 256) tenSeconds startPos [] [⟨.resign, none, 4⟩] (resultOfWin w.1) := by
  have hline : startPos.Line [.move 60 59 false] := start_line (by decide +kernel)
  obtain ⟨x, h1, -, h2⟩ := C107_rules_partial mixKeys startGame startGame_good.inv startGame_good.check startGame_spec.2 startGame_fresh.1 startGame_fresh.2 256
    (by decide) [] trivial startPos [] rfl (fun r => by rw [occurrences_sameB]; exact le_trans List.countP_le_length (by simp)) ⟨_, hline.1⟩ (upTo 256) tenSeconds
    noClock (fun _ => .inr rfl) (fun _ => .inl rfl) (fun _ => scriptedMuser) (fun _ => []) (fun _ => []) (fun _ => ⟨some ⟨(none, []), []⟩, none⟩)
    (fun c => ⟨none, rfl⟩) [(4, none)] (by decide) [(⟨.resign, none, 4⟩, none)] rfl (by intro mv hmv; cases hmv) (by intro mv hmv; cases hmv)
    (by
      intro _ _ _
      exact ⟨fun ha => absurd ha.1 (by decide), fun _ hd => (by cases hd), fun mv hm => (by cases hm)⟩)
  exact ⟨x, h1, fun w b hx => (h2 w b hx).1⟩

/-- An engine that resigns and wants to ponder on 3c3d. -/
def oddEngine : Ponderer Unit where
  start := ()
  name := []
  options := []
  next _ _ := ()
  chat _ _ := []
  best _ _ := ("resign".toList, some "3c3d".toList)
  mates _ _ := []
  found _ _ := ("resign".toList, some "3c3d".toList)

theorem oddEngine_polite : oddEngine.Polite where
  search s c l h := by cases h
  best s l := ⟨resign_word, fun y hy => by cases hy; exact ⟨by decide, by decide, by decide⟩⟩
  found s c := ⟨resign_word, fun y hy => by cases hy; exact ⟨by decide, by decide, by decide⟩⟩

/-- C107_fails_silent: a program that never writes, at the beginning of a game. -/
example : ponderDuel mixKeys (termsOf (upTo 256)) noClock (fun _ => (⟨(), fun _ _ => ((), [])⟩ : Program Unit)) ⟨start startGame tenSeconds, [], fun _ => ⟨some ⟨(), []⟩, none⟩,
    none, none, none, none, none, []⟩ [(99000, none)] = .never :=
  C107_fails_silent _ _ _ _ _ _ _ (by decide +kernel) ⟨(), []⟩ rfl (by intro l hl; cases hl) (by intro s x l hl; cases hl) (by intro h; cases h)

/-- C107_fails_left: it resigns at once. -/
example : ∃ tb' st', ponderRound mixKeys (termsOf (upTo 256)) noClock (fun _ => ponderProgram oddEngine)
    ⟨start startGame tenSeconds, [], fun _ => ⟨some ⟨(), []⟩, none⟩, none, none, none, none, none, []⟩ (4, none) = .returns (tb', .ok (some .stopped, st')) ∧
    tb'.busy (start startGame tenSeconds).board.pos.turn = true := by
  have hr : round mixKeys (termsOf (upTo 256)) (start startGame tenSeconds) (replyOf ⟨.resign, none, 4⟩) =
      .ok (some .stopped, (charge (termsOf (upTo 256)) (start startGame tenSeconds) 4).2) := rfl
  obtain ⟨tb', h1, h2, -⟩ := C107_fails_left mixKeys (upTo 256) noClock (fun _ => .inl rfl) (fun _ => oddEngine) (fun _ => oddEngine_polite) (fun _ => ())
    (fun _ => none) tenSeconds ⟨start startGame tenSeconds, [], fun _ => ⟨some ⟨(), []⟩, none⟩, none, none, none, none, none, []⟩ none
    (by unfold InTurn; decide +kernel) rfl (fun _ => .inr rfl) (fun w hw => by cases hw)
    (tended_start _ _ _ _ (fun c => ⟨[], rfl, fun l hl => by cases hl⟩) _) ⟨.resign, none, 4⟩ "3c3d".toList rfl .stopped _ hr (by intro h; cases h)
  exact ⟨tb', _, h1, h2⟩

end Verif.Match
