import Verif.Lemmas.Replay

/-!
# C95: CSA records on the web page

A program that writes a game as a CSA record can show it on the web page: the moves, the times, the evaluations, the variations and the end.
-/

namespace Verif.Web
open Spec Bitboard Position Csa

variable (Z : Zobrist) (stof : List Char → Option Rat)

/-- The seven endings that the page knows. -/
def knownEnds : List String := ["%TORYO", "%CHUDAN", "%SENNICHITE", "%TIME_UP", "%ILLEGAL_MOVE", "%JISHOGI", "%KACHI"]

/-- What the first record of a file becomes. -/
theorem replayFile_first {g : NotedGame} {gs : List NotedGame} (hg : ∀ x ∈ g :: gs, x.Fine Z) :
    ∃ text s, writeFile Z [] ((g :: gs).map NotedGame.game) = .ok text ∧ replayFile Z stof text = replay Z s ∧ g.Read Z s := by
  obtain ⟨text, ss, h1, h2, h3⟩ := C86_file_partial Z stof (List.cons_ne_nil g gs) hg
  cases h3 with
  | @cons _ s _ ss' h3 h4 =>
    refine ⟨text, s, h1, ?_, h3⟩
    unfold replayFile
    rw [h2]
    rfl

/-- The page with its last line. -/
def withEnd (es : List Entry) : Option (List Char) → Out (List Entry)
  | none => .error
  | some t => .ok (es ++ [⟨es.length + 1, indexSymbol es.length :: t, 0, 0#32, none, []⟩])

/-- The loop over the moves of a record that has been read. -/
theorem replay_read {g : NotedGame} {s : Csa.State} (hs : g.Read Z s) {who : Color → Color}
    (hw : who = id ∧ (g.first Z).turn = .black ∨ who = Color.opp ∧ (g.first Z).turn = .white) (hg : g.Fine Z)
    (hi : Informs false (absPos (g.first Z)) g.moves) : ∃ es Q, Shown who (absPos (g.first Z)) none 1 g.moves es Q ∧
      indexSymbol g.moves.length = Spec.Web.sign (who Q.turn) ∧
      replay Z s = if es = [] then .error else withEnd es (endWord g.ending.toList) := by
  obtain ⟨q, q1, q2, -, q3⟩ := hs.first
  have hturn : q.turn = (g.first Z).turn := congrArg Pos.turn q2
  have hs0 : indexSymbol 0 = Spec.Web.sign (who q.turn) := by
    rw [hturn]
    rcases hw with ⟨rfl, h⟩ | ⟨rfl, h⟩ <;> rw [h] <;> rfl
  obtain ⟨es, Q, l1, l2, l3⟩ := replayLoop_ok (Z := Z) (hw.imp And.left And.left) g.moves q3 ⟨hg.inv, hg.check, hg.regular⟩ q2 (lastIs_none q) hs0
    hg.legal (by rw [q2]; exact hi)
  have hc : s.pyComments = .ok (g.moves.map fun x => x.2.2.stored) := by
    rw [Csa.State.pyComments, hs.comments]
    refine decodeAll_ok _ fun c hc => ?_
    obtain ⟨x, hx, rfl⟩ := List.mem_map.mp hc
    exact hi.ascii x hx
  refine ⟨es, Q, q2 ▸ l2, by rw [← l3]; congr 1; omega, ?_⟩
  unfold replay
  rw [q1, Out.bind, hc, Out.bind, replayRows, hs.moves, hs.times, rows_zip]
  have l1' : replayLoop Z q 0 0#32 (g.moves.map fun x => (x.1, ((x.2.1.getD 0 : Nat) : Int), x.2.2.stored)) = .ok es := l1
  rw [l1', Out.bind, hs.ending]
  cases endWord g.ending.toList <;> rfl

/-- **C95.** A file whose first game was begun by Black, has a move, whose comments are evaluations with legal variations, and that ended in a
known way other than a declaration: every move is shown with its number, side, text and time and what was noted, and the last line tells
which side was to move and how the game ended. -/
theorem C95_replay_partial {g : NotedGame} {gs : List NotedGame} (hg : ∀ x ∈ g :: gs, x.Fine Z) (hb : (g.first Z).turn = .black)
    (hne : g.moves ≠ []) (hi : Informs false (absPos (g.first Z)) g.moves) (he : g.ending ∈ knownEnds) (hk : g.ending ≠ "%KACHI") :
    ∃ text es e Q, writeFile Z [] ((g :: gs).map NotedGame.game) = .ok text ∧ replayFile Z stof text = .ok (es ++ [e]) ∧
      Shown id (absPos (g.first Z)) none 1 g.moves es Q ∧ e.number = ((g.moves.length + 1 : Nat) : Int) ∧
      Spec.Web.readEnd e.text = some (Q.turn, g.ending) ∧ e.secs = 0 ∧ e.eval = none ∧ e.pv = [] ∧ e.move = 0#32 := by
  obtain ⟨text, s, h1, h2, h3⟩ := replayFile_first Z stof hg
  obtain ⟨es, Q, r1, r2, r3⟩ := replay_read Z h3 (.inl ⟨rfl, hb⟩) (hg g List.mem_cons_self) hi
  have hl := r1.length
  have hes : es ≠ [] := by
    rintro rfl
    exact hne (List.eq_nil_of_length_eq_zero hl.symm)
  rw [if_neg hes] at r3
  have hend : ∃ t, endWord g.ending.toList = some t ∧ ∀ c : Color, Spec.Web.readEnd (Spec.Web.sign c :: t) = some (c, g.ending) := by
    simp only [knownEnds, List.mem_cons, List.not_mem_nil, or_false] at he
    rcases he with h | h | h | h | h | h | h
    · rw [h]; exact ⟨_, rfl, fun c => by cases c <;> decide⟩
    · rw [h]; exact ⟨_, rfl, fun c => by cases c <;> decide⟩
    · rw [h]; exact ⟨_, rfl, fun c => by cases c <;> decide⟩
    · rw [h]; exact ⟨_, rfl, fun c => by cases c <;> decide⟩
    · rw [h]; exact ⟨_, rfl, fun c => by cases c <;> decide⟩
    · rw [h]; exact ⟨_, rfl, fun c => by cases c <;> decide⟩
    · exact absurd h hk
  obtain ⟨t, t1, t2⟩ := hend
  rw [t1] at r3
  refine ⟨text, es, _, Q, h1, h2.trans r3, r1, by rw [hl]; exact (Int.natCast_succ _).symm, ?_, rfl, rfl, rfl, rfl⟩
  show Spec.Web.readEnd (indexSymbol es.length :: t) = _
  rw [hl, r2]
  exact t2 Q.turn

/-- **C95 fails** for games begun by White: every move is shown with the sign of the other side. -/
theorem C95_fails_white {g : NotedGame} {gs : List NotedGame} (hg : ∀ x ∈ g :: gs, x.Fine Z) (hb : (g.first Z).turn = .white)
    (hne : g.moves ≠ []) (hi : Informs false (absPos (g.first Z)) g.moves) (he : g.ending ∈ knownEnds) :
    ∃ text es e Q, writeFile Z [] ((g :: gs).map NotedGame.game) = .ok text ∧ replayFile Z stof text = .ok (es ++ [e]) ∧
      Shown Color.opp (absPos (g.first Z)) none 1 g.moves es Q ∧ e.text.head? = some (Spec.Web.sign Q.turn.opp) := by
  obtain ⟨text, s, h1, h2, h3⟩ := replayFile_first Z stof hg
  obtain ⟨es, Q, r1, r2, r3⟩ := replay_read Z h3 (.inr ⟨rfl, hb⟩) (hg g List.mem_cons_self) hi
  have hl := r1.length
  have hes : es ≠ [] := by
    rintro rfl
    exact hne (List.eq_nil_of_length_eq_zero hl.symm)
  rw [if_neg hes] at r3
  have hend : ∃ t, endWord g.ending.toList = some t := by
    simp only [knownEnds, List.mem_cons, List.not_mem_nil, or_false] at he
    rcases he with h | h | h | h | h | h | h <;> rw [h] <;> exact ⟨_, rfl⟩
  obtain ⟨t, t1⟩ := hend
  rw [t1] at r3
  refine ⟨text, es, _, Q, h1, h2.trans r3, r1, ?_⟩
  show some (indexSymbol es.length) = _
  rw [hl, r2]

/-- **C95 fails** for a win by declaration: the last line is not one of the known texts (input for entering the camp). -/
theorem C95_fails_kachi {g : NotedGame} {gs : List NotedGame} (hg : ∀ x ∈ g :: gs, x.Fine Z) (hb : (g.first Z).turn = .black)
    (hne : g.moves ≠ []) (hi : Informs false (absPos (g.first Z)) g.moves) (he : g.ending = "%KACHI") :
    ∃ text es e Q, writeFile Z [] ((g :: gs).map NotedGame.game) = .ok text ∧ replayFile Z stof text = .ok (es ++ [e]) ∧
      Shown id (absPos (g.first Z)) none 1 g.moves es Q ∧ e.text = Spec.Web.sign Q.turn :: "入力宣言".toList ∧ Spec.Web.readEnd e.text = none := by
  obtain ⟨text, s, h1, h2, h3⟩ := replayFile_first Z stof hg
  obtain ⟨es, Q, r1, r2, r3⟩ := replay_read Z h3 (.inl ⟨rfl, hb⟩) (hg g List.mem_cons_self) hi
  have hl := r1.length
  have hes : es ≠ [] := by
    rintro rfl
    exact hne (List.eq_nil_of_length_eq_zero hl.symm)
  have ht : endWord g.ending.toList = some "入力宣言".toList := by rw [he]; rfl
  rw [if_neg hes, ht] at r3
  have e1 : indexSymbol es.length = Spec.Web.sign Q.turn := by rw [hl, r2]; rfl
  refine ⟨text, es, _, Q, h1, h2.trans r3, r1, congrArg (· :: _) e1, ?_⟩
  show Spec.Web.readEnd (indexSymbol es.length :: "入力宣言".toList) = none
  rw [e1]
  cases Q.turn <;> decide

/-- **C95 fails** for every other ending: nothing is shown. The match runner itself writes two of them, for perpetual checks. -/
theorem C95_fails_end {g : NotedGame} {gs : List NotedGame} (hg : ∀ x ∈ g :: gs, x.Fine Z) (hi : Informs false (absPos (g.first Z)) g.moves)
    (he : g.ending ∉ knownEnds) :
    ∃ text, writeFile Z [] ((g :: gs).map NotedGame.game) = .ok text ∧ replayFile Z stof text = .error := by
  obtain ⟨text, s, h1, h2, h3⟩ := replayFile_first Z stof hg
  have hw : ∃ who : Color → Color, who = id ∧ (g.first Z).turn = .black ∨ who = Color.opp ∧ (g.first Z).turn = .white := by
    cases h : (g.first Z).turn
    · exact ⟨_, .inl ⟨rfl, rfl⟩⟩
    · exact ⟨_, .inr ⟨rfl, rfl⟩⟩
  obtain ⟨who, hw⟩ := hw
  obtain ⟨es, Q, r1, r2, r3⟩ := replay_read Z h3 hw (hg g List.mem_cons_self) hi
  have ht : endWord g.ending.toList = none := by
    have key : ∀ x ∈ knownEnds, ¬ g.ending.toList = x.toList := fun x hx h => he (String.toList_inj.mp h ▸ hx)
    unfold endWord
    rw [if_neg (key "%TORYO" (by decide)), if_neg (key "%CHUDAN" (by decide)), if_neg (key "%SENNICHITE" (by decide)),
      if_neg (key "%TIME_UP" (by decide)), if_neg (key "%ILLEGAL_MOVE" (by decide)), if_neg (key "%JISHOGI" (by decide)),
      if_neg (key "%KACHI" (by decide))]
  rw [ht] at r3
  refine ⟨text, h1, h2.trans (r3.trans ?_)⟩
  split <;> rfl

/-- **C95 fails** for a game without a move: nothing is shown. -/
theorem C95_fails_empty {g : NotedGame} {gs : List NotedGame} (hg : ∀ x ∈ g :: gs, x.Fine Z) (hne : g.moves = []) :
    ∃ text, writeFile Z [] ((g :: gs).map NotedGame.game) = .ok text ∧ replayFile Z stof text = .error := by
  obtain ⟨text, s, h1, h2, h3⟩ := replayFile_first Z stof hg
  obtain ⟨q, q1, -, -, -⟩ := h3.first
  refine ⟨text, h1, h2.trans ?_⟩
  unfold replay
  rw [q1, Out.bind, Csa.State.pyComments, h3.comments, hne]
  show Out.bind (Out.ok []) _ = _
  rw [Out.bind, replayRows, h3.moves, hne]
  rfl

/-- **C95 fails** for a comment with words but no number: nothing is shown. -/
theorem C95_fails_words {g : NotedGame} {gs : List NotedGame} (hg : ∀ x ∈ g :: gs, x.Fine Z) (hi : Informs true (absPos (g.first Z)) g.moves)
    (hl : ∃ x ∈ g.moves, ∃ l, x.2.2 = .line l ∧ l ≠ []) :
    ∃ text, writeFile Z [] ((g :: gs).map NotedGame.game) = .ok text ∧ replayFile Z stof text = .error := by
  obtain ⟨text, s, h1, h2, h3⟩ := replayFile_first Z stof hg
  have hg1 := hg g List.mem_cons_self
  have hw : ∃ who : Color → Color, who = id ∧ (g.first Z).turn = .black ∨ who = Color.opp ∧ (g.first Z).turn = .white := by
    cases h : (g.first Z).turn
    · exact ⟨_, .inl ⟨rfl, rfl⟩⟩
    · exact ⟨_, .inr ⟨rfl, rfl⟩⟩
  obtain ⟨who, hw⟩ := hw
  obtain ⟨q, q1, q2, -, q3⟩ := h3.first
  have hturn : q.turn = (g.first Z).turn := congrArg Pos.turn q2
  have hs0 : indexSymbol 0 = Spec.Web.sign (who q.turn) := by
    rw [hturn]
    rcases hw with ⟨rfl, h⟩ | ⟨rfl, h⟩ <;> rw [h] <;> rfl
  have l1 := replayLoop_error (Z := Z) (hw.imp And.left And.left) g.moves q3 ⟨hg1.inv, hg1.check, hg1.regular⟩ q2 (lastIs_none q) hs0
    hg1.legal (by rw [q2]; exact hi) hg1.notes hl
  refine ⟨text, h1, h2.trans ?_⟩
  unfold replay
  rw [q1, Out.bind]
  rcases decodeAll_total s.comments with hc | hc
  · have hc' : s.pyComments = .ok (g.moves.map fun x => x.2.2.stored) := by rw [Csa.State.pyComments, hc, h3.comments]
    rw [hc', Out.bind, replayRows, h3.moves, h3.times, rows_zip]
    have l1' : replayLoop Z q 0 0#32 (g.moves.map fun x => (x.1, ((x.2.1.getD 0 : Nat) : Int), x.2.2.stored)) = .error := l1
    rw [l1']
    rfl
  · rw [Csa.State.pyComments, hc]
    rfl

/-! ### Games that meet the hypotheses -/

/-- P7g-7f, P3c-3d, and the exchange of bishops with an evaluation and the recapture as variation. -/
def replayGame : NotedGame where
  header := {}
  remarks := []
  start := .unnamed
  moves := [(makeMove PT.Pawn 60 59, some 10, .silent), (makeMove PT.Pawn 20 21, none, .remark "good".toList),
    (boardMove (startModel zeroKeys).piece 70 10 true, some 2, .score (-30) "-3122GI".toList)]
  ending := "%TORYO"
  lastTime := none

theorem replayGame_fine : replayGame.Fine zeroKeys := by
  obtain ⟨h1, h2, h3⟩ := startModel_ok zeroKeys
  refine ⟨⟨.inl rfl, by decide, ?_, .empty, ?_, by decide, by decide⟩, (by intro s h; cases h), h1, h2, h3, ?_, by decide, ?_,
    ⟨_, rfl⟩, by decide, by decide⟩
  · intro n hn; cases hn
  · intro l hl; cases hl
  · have hb : playB zeroKeys ⟨startModel zeroKeys, []⟩ replayGame.ops = true := by decide +kernel
    have hch := LChain.base (p0 := startModel zeroKeys) (startModel zeroKeys).st.continuousCheck h1 h2 h3.waiting
    rw [withCC_self] at hch
    exact (playB_legal h3 hch _ hb).mono fun _ _ h => h.1
  · intro x hx
    rcases List.mem_cons.mp hx with rfl | hx
    · trivial
    · rcases List.mem_cons.mp hx with rfl | hx
      · exact ⟨by decide, by decide, by decide⟩
      · rw [List.mem_singleton.mp hx]
        exact ⟨by decide, by decide, by decide⟩

theorem replayGame_informs : Informs false startPos replayGame.moves := by
  have hl : startPos.Line [.move 60 59 false, .move 20 21 false, .move 70 10 true, .move 18 10 false] := Match.start_line (by decide +kernel)
  refine .cons (mv := .move 60 59 false) ⟨by decide, by decide, by decide, by decide⟩ (.inl trivial) ?_
  refine .cons (mv := .move 20 21 false) ⟨by decide, by decide, by decide, by decide⟩ (.inl trivial) ?_
  refine .cons (mv := .move 70 10 true) (codes_encode (startModel zeroKeys) (.move 70 10 true)) (.inl ?_) (.nil _)
  exact ⟨[.move 18 10 false], hl.2.2.2, by decide +kernel⟩

/-- The hypotheses of `C95_replay_partial`. -/
example : (∀ x ∈ [replayGame], x.Fine zeroKeys) ∧ (replayGame.first zeroKeys).turn = .black ∧ replayGame.moves ≠ [] ∧
    Informs false (absPos (replayGame.first zeroKeys)) replayGame.moves ∧ replayGame.ending ∈ knownEnds ∧ replayGame.ending ≠ "%KACHI" := by
  refine ⟨fun x hx => by rw [List.mem_singleton.mp hx]; exact replayGame_fine, by decide +kernel, by simp [replayGame], ?_, by decide, by decide⟩
  show Informs false (absPos (startModel zeroKeys)) replayGame.moves
  have e : absPos (startModel zeroKeys) = startPos := (setPieces_spec zeroKeys clear startPos startBoard_oneKing (fun _ _ => Nat.zero_le _) (fun _ _ => 0)
    (fun _ _ => rfl)).2.2.1
  rw [e]
  exact replayGame_informs

/-- What is written. -/
example : writeFile zeroKeys [] [replayGame.game] =
    .ok "PI\n+\n+7776FU\nT10\n-3334FU\n'good\n+8822UM\nT2\n'** -30 -3122GI\n%TORYO\n".toList := by
  decide +kernel

/-- The hypotheses of the failures: other endings, and words instead of a number. -/
example : "%+ILLEGAL_ACTION" ∉ knownEnds ∧ "%-ILLEGAL_ACTION" ∉ knownEnds ∧ Informs true startPos [(makeMove PT.Pawn 60 59, none, .line "book".toList)] :=
  ⟨by decide, by decide, .cons (mv := .move 60 59 false) ⟨by decide, by decide, by decide, by decide⟩ (.inr ⟨rfl, _, rfl, by decide⟩) (.nil _)⟩

/-- **C95 fails** for variations that capture on the square of the last move: KIF notation writes 同, the page of a record does not (the page
of a match does). -/
theorem C95_fails_same : (replayFile zeroKeys (fun _ => none)
      "PI\n+\n+7776FU\nT10\n-3334FU\n'good\n+8822UM\nT2\n'** -30 -3122GI\n%TORYO\n".toList).bind (fun es => .ok (es.map fun e => { e with move := 0#32 })) =
      .ok [⟨1, "▲７六歩(77)".toList, 10, 0#32, none, []⟩, ⟨2, "△３四歩(33)".toList, 0, 0#32, none, []⟩,
        ⟨3, "▲２二角成(88)".toList, 2, 0#32, some (-30), "△２二銀(31)".toList⟩, ⟨4, "△投了".toList, 0, 0#32, none, []⟩] ∧
    Spec.Web.kifLine (((startPos.play (.move 60 59 false)).play (.move 20 21 false)).play (.move 70 10 true)) (some 10) [.move 18 10 false] =
      ["△同　銀(31)".toList] := by
  constructor <;> decide +kernel

end Verif.Web
