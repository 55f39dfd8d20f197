import Verif.Lemmas.CsaFile

/-!
# C86: whole CSA files

A game written with everything the exporter takes and read with the parser, and several games in one file.
-/

namespace Verif
namespace Csa
open Spec Position

variable (Z : Zobrist) (stof : List Char → Option Rat)

/-- A game with what its comments mean. -/
structure NotedGame where
  header : Header
  remarks : List (List Char)
  start : Start
  moves : List (Move × Option Nat × Note)
  ending : String
  lastTime : Option Nat

/-- What the exporter is given. -/
def NotedGame.game (g : NotedGame) : Game := ⟨g.header, g.start, g.moves.map noted, g.ending.toList, g.lastTime⟩

/-- The position the game starts from. -/
def NotedGame.first (g : NotedGame) : Position :=
  match g.start with
  | .board p => p
  | _ => startModel Z

/-- The moves as played on a board. -/
def NotedGame.ops (g : NotedGame) : List Op := g.moves.map fun x => .push x.1

/-- A header on whole lines, the starting position or a board in order, legal moves with times that fit into 32 bits and comments of one line,
and an end of the game. -/
structure NotedGame.Fine (g : NotedGame) : Prop where
  header : FineHeader g.header g.remarks
  text : ∀ s, g.start = .text s → s = [] ∨ s = Board.startSfen
  inv : Inv Z (g.first Z)
  check : CheckOK (g.first Z)
  regular : (absPos (g.first Z)).Regular
  legal : Always LegalOp Z ⟨g.first Z, []⟩ g.ops
  times : ∀ x ∈ g.moves, ∀ n ∈ x.2.1, n ≤ 2147483647
  notes : ∀ x ∈ g.moves, x.2.2.Fine
  ending : ∃ cs, g.ending.toList = '%' :: cs
  endLine : '\n' ∉ g.ending.toList ∧ ',' ∉ g.ending.toList
  lastTime : ∀ n ∈ g.lastTime, n ≤ 2147483647

/-- What the parser then shows. -/
structure NotedGame.Read (g : NotedGame) (s : State) : Prop where
  version : s.version = g.header.version
  names : ∀ n ∈ g.header.names, s.names .black = n.1 ∧ s.names .white = n.2
  unnamed : g.header.names = none → s.names .black = [] ∧ s.names .white = []
  infos : varInfo s.infos [] = .ok g.header.infos
  comment : s.comment = commentText (g.remarks ++ g.moves.flatMap fun x => x.2.2.loose)
  first : ∃ q, setSfen Z s.sfen = .ok q ∧ absPos q = absPos (g.first Z) ∧ q.gamePly = 1 ∧ Good Z q
  moves : s.moves = g.moves.map (·.1)
  times : s.times = g.moves.map (fun x => ((x.2.1.getD 0 : Nat) : Int)) ++ g.lastTime.toList.map (fun n : Nat => (n : Int))
  scores : s.scores = g.moves.map fun x => x.2.2.value
  comments : s.comments = g.moves.map fun x => x.2.2.stored
  ending : s.endgame = g.ending.toList
  ratings : ∀ c, s.ratings c = 0
  win : ∃ b, Board.run Z ⟨g.first Z, []⟩ g.ops = some b ∧ s.win = winOf (resultOf g.ending b.pos.turn)

theorem startModel_export : exportInfo (startModel Z) = "PI\n+\n".toList := by
  have h : toCsaPos (startModel Z) = startDump := by
    have h1 : (startModel Z).piece = (startModel zeroKeys).piece := rfl
    have h2 : (startModel Z).hand = (startModel zeroKeys).hand := rfl
    have h3 : (startModel Z).turn = (startModel zeroKeys).turn := rfl
    rw [toCsaPos, h1, h2, h3]
    decide +kernel
  rw [exportInfo, if_pos h]

theorem NotedGame.Fine.start {g : NotedGame} (hg : g.Fine Z) : writeStart Z g.start = .ok (exportInfo (g.first Z), (g.first Z).turn) := by
  have ht := hg.text
  unfold NotedGame.first
  cases h : g.start with
  | unnamed => rw [writeStart]; simp only [startModel_export]; rfl
  | board p => rfl
  | text s => rw [writeStart, if_pos (ht s h)]; simp only [startModel_export]; rfl

/-- The parser's state at the end. -/
def NotedGame.final (g : NotedGame) (ls : List (List Char)) (t0 : List Char) (q : Position) (l : Option Color) : State :=
  { headState g.header g.remarks with
    lines := ls, turnSeen := true, sfen := t0, pos := some q, moves := g.moves.map (·.1)
    times := g.moves.map (fun x => ((x.2.1.getD 0 : Nat) : Int)) ++ g.lastTime.toList.map (fun n : Nat => (n : Int))
    scores := g.moves.map fun x => x.2.2.value
    comments := g.moves.map fun x => x.2.2.stored
    comment := commentText (g.remarks ++ g.moves.flatMap fun x => x.2.2.loose)
    endgame := g.ending.toList, lose := l }

/-- The text of the game without the last newline is read like the whole text. -/
theorem game_read {g : NotedGame} (hg : g.Fine Z) : ∃ text s, writeGame Z g.game = .ok text ∧
    (∀ t, (t = text ∨ t ++ ['\n'] = text) → parse Z stof t = .ok s) ∧ g.Read Z s := by
  have hp : Good Z (g.first Z) := ⟨hg.inv, hg.check, hg.regular⟩
  obtain ⟨t0, q, ls, hq, e0⟩ := run_start Z stof (s := headState g.header g.remarks) rfl rfl rfl hg.inv.views.code
    (fun c h => InSet.hand_le hg.inv.inSet c h)
  obtain ⟨x, b, q', i1, i2, i3, i4⟩ := run_noted Z stof g.moves hg.times hg.notes (g.first Z) []
    { headState g.header g.remarks with lines := ls, turnSeen := true, sfen := t0, pos := some q } q hp (hq.good hp) hq.same rfl rfl
    ⟨rfl, rfl, rfl⟩ hg.legal
  obtain ⟨l, j1, j2⟩ := run_finish Z stof (q := q')
    (s := afterAll { headState g.header g.remarks with lines := ls, turnSeen := true, sfen := t0, pos := some q } g.moves q')
    rfl rfl g.ending hg.ending hg.endLine g.lastTime hg.lastTime
  have hturn : q'.turn = b.pos.turn := congrArg Pos.turn i4
  refine ⟨writeHeader g.header ++ (exportInfo (g.first Z) ++ (x ++ exportEnd g.ending.toList g.lastTime)), g.final ls t0 q' l, ?_, ?_, ?_⟩
  · unfold writeGame
    simp only [NotedGame.game]
    rw [hg.start, Out.bind_ok]
    simp only [i1, orRaise, Out.bind_ok]
  · have key : ∀ u, (u = exportEnd g.ending.toList g.lastTime ∨ u ++ ['\n'] = exportEnd g.ending.toList g.lastTime) →
        parse Z stof (writeHeader g.header ++ (exportInfo (g.first Z) ++ (x ++ u))) = .ok (g.final ls t0 q' l) := by
      intro u hu
      unfold parse
      rw [run_header Z stof hg.header, e0, i3, j2 u hu]
      simp [afterAll, headState, commentText, NotedGame.final]
    rintro t (rfl | ht)
    · exact key _ (.inl rfl)
    · have hend : ∃ u, u ++ ['\n'] = exportEnd g.ending.toList g.lastTime := by
        cases g.lastTime with
        | none => exact ⟨g.ending.toList, rfl⟩
        | some n => exact ⟨g.ending.toList ++ '\n' :: 'T' :: natChars n, by simp [exportEnd, timeText]⟩
      obtain ⟨u, hu⟩ := hend
      have : t = writeHeader g.header ++ (exportInfo (g.first Z) ++ (x ++ u)) := by
        apply List.append_cancel_right (bs := ['\n'])
        rw [ht, ← hu]; simp
      rw [this]
      exact key u (.inr hu)
  · refine ⟨rfl, fun n hn => ?_, fun hn => ?_, ?_, rfl, ⟨q, hq.text, hq.same, hq.ply, hq.good hp⟩, rfl, rfl, rfl, rfl, rfl, fun _ => rfl,
      ⟨b, i2, ?_⟩⟩
    · show nameOf g.header.names .black = n.1 ∧ nameOf g.header.names .white = n.2
      rw [hn]; exact ⟨rfl, rfl⟩
    · show nameOf g.header.names .black = [] ∧ nameOf g.header.names .white = []
      rw [hn]; exact ⟨rfl, rfl⟩
    · have := varInfo_lines g.header.infos (fun i hi => (hg.header.infos i hi).2.1) [] (by simpa using hg.header.once)
      simpa [NotedGame.final, headState] using this
    · rw [j1 _ rfl, hturn]

/-- **C86**, one game: a game written with version, names, information, comment, start, moves with times and comments, and end reads back
with all of them. An evaluation (`** ` and a number) and its words are stored with the move; other remarks are found at the end of the comment of the
game instead. -/
theorem C86_record_partial {g : NotedGame} (hg : g.Fine Z) :
    ∃ text s, writeGame Z g.game = .ok text ∧ parse Z stof text = .ok s ∧ g.Read Z s := by
  obtain ⟨text, s, h1, h2, h3⟩ := game_read Z stof hg
  exact ⟨text, s, h1, h2 text (.inl rfl), h3⟩

/-! ### Several games -/

theorem comment_whole (ls : List (List Char)) (h : ∀ l ∈ ls, '\n' ∉ l) : Whole (commentText ls) :=
  Whole.flatMap ls _ fun l hl => Whole.line (l := '\'' :: l) (by simpa using h l hl) (by simp)

theorem time_whole (t : Option Nat) : Whole (timeText t) := by
  cases t with
  | none => exact Whole.nil
  | some n =>
    refine Whole.line (l := 'T' :: natChars n) ?_ (by simp)
    intro h
    rcases List.mem_cons.mp h with h | h
    · exact absurd h (by decide)
    · exact absurd (natChars_isDigit _ h) (by decide)

theorem Note.Fine.line {n : Note} (h : n.Fine) : '\n' ∉ n.text := by
  cases n with
  | silent => simp [Note.text]
  | score k ws =>
    have hk : '\n' ∉ intChars k := fun h => (intChars_noSpace k _ h).2 rfl
    have := h.2.2
    cases ws with
    | nil => simp [Note.text, hk]
    | cons w ws => simp [Note.text, hk]; simpa using this
  | line l => simpa [Note.text] using h.1
  | remark l => exact h.2.1

theorem header_whole {h : Header} {ls : List (List Char)} (hh : FineHeader h ls) : Whole (writeHeader h) := by
  unfold writeHeader
  refine Whole.append ?_ (Whole.append ?_ (Whole.append ?_ ?_))
  · split
    · exact Whole.nil
    · refine Whole.line hh.versionLine ?_
      rcases hh.version with e | ⟨cs, e⟩ <;> rw [e] <;> simp
  · cases e : h.names with
    | none => exact Whole.nil
    | some n =>
      obtain ⟨h1, h2⟩ := hh.names n e
      have : namesText (some n) = ('N' :: '+' :: n.1 ++ ['\n']) ++ ('N' :: '-' :: n.2 ++ ['\n']) := by simp [namesText]
      rw [this]
      exact (Whole.line (by simpa using h1) (by simp)).append (Whole.line (by simpa using h2) (by simp))
  · rw [comment_written hh.comment]
    exact comment_whole ls fun l hl => (hh.plain l hl).1
  · refine Whole.flatMap _ _ fun i hi => ?_
    obtain ⟨h1, -, h3⟩ := hh.infos i hi
    have : '$' :: (i.1 ++ ':' :: (i.2 ++ ['\n'])) = infoLine i ++ ['\n'] := by simp [infoLine]
    rw [this]
    exact Whole.line (by simp [infoLine, h1, h3]) (by simp [infoLine])

theorem start_whole {p : Position} (hcode : ∀ s, p.piece s = pieceCode ((absPos p).board s)) : Whole (exportInfo p) := by
  unfold exportInfo
  split
  · exact ⟨[['P', 'I'], ['+']], by decide, by decide⟩
  · refine ⟨dumpLines p, toCsaPos_lines p, fun l hl => ⟨dump_noNewline hcode l hl, ?_⟩⟩
    rw [dumpLines_head] at hl
    rcases List.mem_append.mp hl with hl | hl
    · obtain ⟨cs, rfl⟩ := dumpHead_p p l hl
      simp
    · rw [List.mem_singleton.mp hl]; cases p.turn <;> decide

theorem moves_whole (ms : List (Move × Option Nat × Note)) (hn : ∀ x ∈ ms, x.2.2.Fine) : ∀ (c : Color) (x : List Char),
    writeMoves '\n' c (ms.map noted) = some x → Whole x := by
  induction ms with
  | nil => intro c x h; cases h; exact Whole.nil
  | cons a l ih =>
    obtain ⟨m, t, w⟩ := a
    intro c x h
    rw [List.map_cons, noted, writeMoves] at h
    obtain ⟨y, h1, h2⟩ := Option.bind_eq_some_iff.mp h
    obtain ⟨z, h3, rfl⟩ := Option.map_eq_some_iff.mp h2
    refine Whole.append ?_ (ih (fun x hx => hn x (by simp [hx])) _ _ h3)
    have h1' := h1
    unfold writeMove at h1'
    obtain ⟨k, hk, -⟩ := Option.map_eq_some_iff.mp h1'
    rw [writeMove_eq hk] at h1
    cases h1
    have : signChar c :: (k ++ '\n' :: (timeText t ++ noteText w.text)) = (signChar c :: k ++ ['\n']) ++ (timeText t ++ noteText w.text) := by simp
    rw [this]
    refine Whole.append (Whole.line ?_ ?_) (Whole.append (time_whole t) ?_)
    · intro h
      rcases List.mem_cons.mp h with h | h
      · cases c <;> exact absurd h (by decide)
      · exact toCSA_chars hk h
    · cases c <;> simp [signChar]
    · unfold noteText
      split
      · exact Whole.nil
      · refine Whole.line (l := '\'' :: w.text) ?_ (by simp)
        have := Note.Fine.line (hn (m, t, w) (by simp))
        simpa using this

theorem game_whole {g : NotedGame} (hg : g.Fine Z) {text : List Char} (h : writeGame Z g.game = .ok text) : Whole text ∧ text ≠ [] := by
  unfold writeGame at h
  simp only [NotedGame.game] at h
  rw [hg.start, Out.bind_ok] at h
  simp only at h
  obtain ⟨cs, hcs⟩ := hg.ending
  have hend : Whole (exportEnd g.ending.toList g.lastTime) := by
    have : exportEnd g.ending.toList g.lastTime = (g.ending.toList ++ ['\n']) ++ timeText g.lastTime := by simp [exportEnd]
    rw [this]
    exact (Whole.line hg.endLine.1 (by rw [hcs]; simp)).append (time_whole _)
  cases hx : writeMoves '\n' (g.first Z).turn (g.moves.map noted) with
  | none =>
    simp only [hx, orRaise, Out.bind] at h
    cases h
  | some x =>
    simp only [hx, orRaise, Out.bind_ok] at h
    cases h
    refine ⟨(header_whole hg.header).append ((start_whole hg.inv.views.code).append ((moves_whole g.moves hg.notes _ _ hx).append hend)), ?_⟩
    intro e
    have := congrArg List.length e
    have hl : (exportEnd g.ending.toList g.lastTime).length ≠ 0 := by simp [exportEnd]
    simp only [List.length_append, List.length_nil] at this
    omega

/-- The rest of a file. -/
def nextGames (Z : Zobrist) : List Game → Out (List Char)
  | [] => .ok []
  | g :: gs => (writeGame Z g).bind fun x => (nextGames Z gs).bind fun y => .ok ('/' :: '\n' :: (x ++ y))

theorem writeFile_next (gs : List Game) : ∀ file : List Char, file ≠ [] → writeFile Z file gs = (nextGames Z gs).bind fun y => .ok (file ++ y) := by
  induction gs with
  | nil => intro file _; simp [writeFile, nextGames, Out.bind]
  | cons g gs ih =>
    intro file hf
    rw [writeFile, nextGames]
    cases h : writeGame Z g with
    | ub => rfl
    | error => rfl
    | ok x =>
      rw [Out.bind_ok, Out.bind_ok, if_neg hf, ih _ (by simp [hf])]
      cases nextGames Z gs <;> simp [Out.bind]

theorem parse_games (g : NotedGame) (gs : List NotedGame) (hg : g.Fine Z) (hgs : ∀ g ∈ gs, g.Fine Z) : ∃ x y ss,
    writeGame Z g.game = .ok x ∧ nextGames Z (gs.map NotedGame.game) = .ok y ∧ parseStr Z stof (x ++ y) = .ok ss ∧
      List.Forall₂ (NotedGame.Read Z) (g :: gs) ss := by
  induction gs generalizing g with
  | nil =>
    obtain ⟨text, s, h1, h2, h3⟩ := game_read Z stof hg
    obtain ⟨⟨L, rfl, hL⟩, -⟩ := game_whole Z hg h1
    refine ⟨_, [], [s], h1, rfl, ?_, .cons h3 .nil⟩
    rw [List.append_nil, parseStr, splitGames_join hL, parseAll, h2 _ (.inl rfl)]; rfl
  | cons g' gs ih =>
    obtain ⟨text, s, h1, h2, h3⟩ := game_read Z stof hg
    obtain ⟨⟨L, rfl, hL⟩, hne⟩ := game_whole Z hg h1
    obtain ⟨x, y, ss, i1, i2, i3, i4⟩ := ih g' (hgs g' (by simp)) (fun g hg => hgs g (by simp [hg]))
    obtain ⟨u, hu, e⟩ := splitGames_next hL (by rintro rfl; exact hne rfl) (x ++ y)
    refine ⟨_, '/' :: '\n' :: (x ++ y), s :: ss, h1, ?_, ?_, .cons h3 i4⟩
    · rw [List.map_cons, nextGames, i1, Out.bind_ok, i2]; rfl
    · rw [parseStr, e, parseAll, h2 u (.inr hu), Out.bind_ok]
      rw [parseStr] at i3
      rw [i3]; rfl

/-- **C86**, several games: games written one after the other to a new file are read back one after the other, each with everything that
was written. -/
theorem C86_file_partial {gs : List NotedGame} (h : gs ≠ []) (hg : ∀ g ∈ gs, g.Fine Z) :
    ∃ text ss, writeFile Z [] (gs.map NotedGame.game) = .ok text ∧ parseStr Z stof text = .ok ss ∧
      List.Forall₂ (NotedGame.Read Z) gs ss := by
  cases gs with
  | nil => exact absurd rfl h
  | cons g gs =>
    obtain ⟨x, y, ss, h1, h2, h3, h4⟩ := parse_games Z stof g gs (hg g (by simp)) (fun g' hg' => hg g' (by simp [hg']))
    refine ⟨x ++ y, ss, ?_, h3, h4⟩
    rw [List.map_cons, writeFile, h1, Out.bind_ok]
    have hx := (game_whole Z (hg g (by simp)) h1).2
    rw [if_pos rfl, List.nil_append, List.nil_append, writeFile_next Z _ x hx, h2]; rfl

/-! ### What is written again -/

/-- **C86**, written again: if there are names and no loose remarks, writing what has been read gives the same header. -/
theorem C86_again_partial {g : NotedGame} (hg : g.Fine Z) (hn : g.header.names.isSome = true) (hl : ∀ x ∈ g.moves, x.2.2.loose = []) {s : State}
    (hs : g.Read Z s) : ∃ infos, varInfo s.infos [] = .ok infos ∧
      writeHeader ⟨s.version, some (s.names .black, s.names .white), s.comment, infos⟩ = writeHeader g.header := by
  refine ⟨g.header.infos, hs.infos, ?_⟩
  obtain ⟨n, hn⟩ := Option.isSome_iff_exists.mp hn
  obtain ⟨h1, h2⟩ := hs.names n hn
  have e1 : (g.moves.flatMap fun x => x.2.2.loose) = [] := by
    rw [List.flatMap_eq_nil_iff]; exact hl
  have e2 : remarkText s.comment = remarkText g.header.comment := by
    rw [hs.comment, e1, List.append_nil, comment_written hg.header.comment]
    cases hr : g.remarks with
    | nil => rfl
    | cons a l => exact comment_written (.written (a :: l) (by simp))
  unfold writeHeader
  simp only
  rw [e2, hs.version, h1, h2, hn]

/-! ### Where it fails -/

/-- **C86 fails** for a remark: a comment given with a move that is not an evaluation is not found with the move. -/
theorem C86_fails_remark {g : NotedGame} (hg : g.Fine Z) (i : Nat) {m : Move} {t : Option Nat} {l : List Char}
    (hi : g.moves[i]? = some (m, t, .remark l)) :
    l ≠ [] ∧ ∃ text s, writeGame Z g.game = .ok text ∧ parse Z stof text = .ok s ∧ s.moves[i]? = some m ∧ s.comments[i]? = some [] := by
  obtain ⟨text, s, h1, h2, h3⟩ := C86_record_partial Z stof hg
  have hmem : (m, t, Note.remark l) ∈ g.moves := List.mem_of_getElem? hi
  refine ⟨(hg.notes _ hmem).1, text, s, h1, h2, ?_, ?_⟩
  · rw [h3.moves, List.getElem?_map, hi]; rfl
  · rw [h3.comments, List.getElem?_map, hi]; rfl

theorem decodeAll_ok (cs : List (List Char)) (h : ∀ c ∈ cs, ∀ x ∈ c, x.toNat < 128) : decodeAll cs = .ok cs := by
  induction cs with
  | nil => rfl
  | cons c cs ih =>
    rw [decodeAll, decodeAscii, if_pos (by simpa using h c (by simp)), Out.bind_ok, ih fun d hd => h d (by simp [hd])]; rfl

theorem decodeAll_error (cs : List (List Char)) (h : ∃ c ∈ cs, ∃ x ∈ c, 128 ≤ x.toNat) : decodeAll cs = .error := by
  induction cs with
  | nil => obtain ⟨c, hc, -⟩ := h; cases hc
  | cons c cs ih =>
    rw [decodeAll, decodeAscii]
    by_cases hc : (c.all fun c => c.toNat < 128) = true
    · rw [if_pos hc, Out.bind_ok, ih]
      · rfl
      · obtain ⟨d, hd, x, hx, h⟩ := h
        rcases List.mem_cons.mp hd with rfl | hd
        · have := List.all_eq_true.mp hc x hx
          simp only [decide_eq_true_eq] at this
          omega
        · exact ⟨d, hd, x, hx, h⟩
    · rw [if_neg hc]; rfl

/-- **C86 fails** outside ASCII: the comments of the moves can be looked at exactly if they are ASCII. -/
theorem C86_fails_ascii {g : NotedGame} (hg : g.Fine Z) : ∃ text s, writeGame Z g.game = .ok text ∧ parse Z stof text = .ok s ∧
    ((∀ x ∈ g.moves, ∀ c ∈ x.2.2.stored, c.toNat < 128) → s.pyComments = .ok (g.moves.map fun x => x.2.2.stored)) ∧
    ((∃ x ∈ g.moves, ∃ c ∈ x.2.2.stored, 128 ≤ c.toNat) → s.pyComments = .error) := by
  obtain ⟨text, s, h1, h2, h3⟩ := C86_record_partial Z stof hg
  refine ⟨text, s, h1, h2, fun h => ?_, fun ⟨x, hx, c, hc, h⟩ => ?_⟩
  · rw [State.pyComments, h3.comments]
    refine decodeAll_ok _ fun c hc => ?_
    obtain ⟨x, hx, rfl⟩ := List.mem_map.mp hc
    exact h x hx
  · rw [State.pyComments, h3.comments]
    exact decodeAll_error _ ⟨_, List.mem_map_of_mem hx, c, hc, h⟩

/-- **C86 fails** for a comment that begins with an apostrophe and does not end the line: it swallows the line with the position, and the
position is read from an array that was never filled. -/
theorem C86_fails_comment (l : List Char) (hl : PlainLine (l ++ ['P', 'I'])) (ms : List (Move × Option Nat × List Char)) (e : List Char) (t : Option Nat)
    {text : List Char} (h : writeGame Z ⟨{ comment := '\'' :: l }, .unnamed, ms, e, t⟩ = .ok text) : parse Z stof text = .ub := by
  unfold writeGame at h
  simp only [writeStart, Out.bind_ok] at h
  cases hx : writeMoves '\n' .black ms with
  | none => simp only [hx, orRaise, Out.bind] at h; cases h
  | some x =>
    simp only [hx, orRaise, Out.bind_ok] at h
    cases h
    have e1 : writeHeader { comment := '\'' :: l } ++ ("PI\n+\n".toList ++ (x ++ exportEnd e t)) =
        commentText [l ++ ['P', 'I']] ++ (['+'] ++ '\n' :: (x ++ exportEnd e t)) := by
      simp [writeHeader, namesText, remarkText, commentText]
    unfold parse
    rw [e1, run_comment Z stof _ (by intro y hy; rw [List.mem_singleton.mp hy]; exact hl) {} (by intro h; exact absurd h.2 (by decide)),
      lines_cons _ _ (by decide), run]
    have e2 : parsePosition [['+']] = .ub := by decide +kernel
    have e3 : ∀ c, step Z stof { comment := c } ['+'] = .ub := by
      intro c
      have hd : dispatch Z stof { comment := c } ['+'] = .ok { comment := c, lines := [['+']], turnSeen := true } := rfl
      rw [step, hd, Out.bind_ok, if_pos ⟨rfl, rfl⟩, e2]; rfl
    show (step Z stof { comment := [] ++ commentText [l ++ ['P', 'I']] } ['+']).bind _ = _
    rw [e3]; rfl

/-- **C86 fails** for a start given as text: any text but that of the starting position raises. -/
theorem C86_fails_text (h : Header) (sfen : List Char) (h1 : sfen ≠ []) (h2 : sfen ≠ Board.startSfen) (ms : List (Move × Option Nat × List Char))
    (e : List Char) (t : Option Nat) : (∀ text, writeGame Z ⟨h, .text sfen, ms, e, t⟩ ≠ .ok text) ∧
      (∀ q, setSfen Z sfen = .ok q → writeGame Z ⟨h, .text sfen, ms, e, t⟩ = .error) := by
  unfold writeGame
  simp only [writeStart, if_neg (not_or.mpr ⟨h1, h2⟩)]
  constructor
  · intro text
    cases setSfen Z sfen <;> simp [Out.bind]
  · intro q hq
    rw [hq]; rfl

/-! #### The comma as separator -/

theorem run_comma {p : Position} (hp : Good Z p) {m : Move} (hm : LegalOp ⟨p, []⟩ (.push m)) (t : Option Nat)
    (w : List Char) (hw : '\n' ∉ w) (hw0 : w ≠ []) :
    ∃ x s, writeMove ',' p.turn m t w = some x ∧ parse Z stof (exportInfo p ++ x) = .ok s ∧ s.moves = [m] ∧ s.times = [0] ∧
      s.comments = [if t = none then w else []] := by
  obtain ⟨mv, hmv, hlg⟩ := hm
  replace hmv : m = encode p mv := hmv
  obtain ⟨t0, q, ls, hq, e0⟩ := run_start Z stof (s := {}) rfl rfl rfl hp.inv.views.code
    (fun c h => InSet.hand_le hp.inv.inSet c h)
  have hgq := hq.good hp
  have hpq := hq.same
  obtain ⟨q', e2, hq', hb⟩ := hgq.doMove (mv := mv) (by rw [hpq]; exact hlg)
  have hen := encode_same hp.inv.views hgq.inv.views hpq mv
  rw [hen, ← hmv] at e2
  obtain ⟨lm, g1, g2⟩ := C06_round_trip q hgq.inv.views hgq.check hgq.regular
  obtain ⟨lm', g1', -, g3⟩ := genLegal_spec hgq.inv.views hgq.check hgq.regular
  rw [g1] at g1'; cases g1'
  obtain ⟨k, k1, k2⟩ := g2 m ((g3 m).mpr ⟨mv, by rw [hen, hmv], by rw [hpq]; exact hlg⟩)
  have hm0 : m ≠ 0#32 := by rw [hmv]; exact encode_ne_zero hlg.1.1
  have hk6 := csaToMove_length k2 hm0
  obtain ⟨v, hv⟩ : ∃ v, v = sepTime ',' t ++ ',' :: '\'' :: w := ⟨_, rfl⟩
  have hvn : '\n' ∉ v := by
    rw [hv]
    cases t with
    | none => simpa [sepTime] using hw
    | some n =>
      have : '\n' ∉ natChars n := fun h => absurd (natChars_isDigit _ h) (by decide)
      simp [sepTime, this, hw]
  have hline : '\n' ∉ signChar p.turn :: (k ++ v) := by
    intro h
    rcases List.mem_cons.mp h with h | h
    · cases hc : p.turn <;> rw [hc] at h <;> exact absurd h (by decide)
    · rcases List.mem_append.mp h with h | h
      · exact toCSA_chars k1 h
      · exact hvn h
  have hx : writeMove ',' p.turn m t w = some ((signChar p.turn :: (k ++ v)) ++ ['\n']) := by
    rw [writeMove, k1, hv, if_neg hw0]
    simp
  have hcut : ((signChar p.turn :: (k ++ v)).drop 1).take 6 = k := by
    rw [List.drop_succ_cons, List.drop_zero, ← hk6, List.take_left']
    rfl
  have hsub : substr (signChar p.turn :: (k ++ v)) 7 2 = .ok (v.take 2) := by
    unfold substr
    rw [if_pos (by simp [hk6])]
    rw [show (7 : Nat) = k.length + 1 from by rw [hk6], List.drop_succ_cons, List.drop_left']
    rfl
  have hdrop : (signChar p.turn :: (k ++ v)).drop 9 = v.drop 2 := by
    rw [show (9 : Nat) = (k.length + 2) + 1 from by rw [hk6], List.drop_succ_cons, ← List.drop_drop, List.drop_left']
    rfl
  obtain ⟨s0, hs0⟩ : ∃ s0 : State, s0 = { lines := ls, turnSeen := true, sfen := t0, pos := some q } := ⟨_, rfl⟩
  have hmove : moveLine Z s0 (signChar p.turn :: (k ++ v)) = .ok { s0 with
      moves := [m], pos := some q', times := [0], scores := [0], comments := [if t = none then w else []] } := by
    unfold moveLine
    rw [hs0]
    simp only
    rw [hcut, k2]
    simp only
    rw [e2]
    simp only
    rw [hsub, Out.bind_ok, hdrop]
    have hc : (if v.take 2 = [',', '\''] then (resize ([] : List (List Char)) ([] ++ [m]).length []).set (([] ++ [m]).length - 1) (v.drop 2)
        else resize ([] : List (List Char)) ([] ++ [m]).length []) = [if t = none then w else []] := by
      rw [hv]
      cases t with
      | none => simp [resize, sepTime]
      | some n => simp [resize, sepTime]
    rw [hc]
    rfl
  have hstep : step Z stof s0 (signChar p.turn :: (k ++ v)) = .ok { s0 with
      moves := [m], pos := some q', times := [0], scores := [0], comments := [if t = none then w else []] } := by
    have hd : dispatch Z stof s0 (signChar p.turn :: (k ++ v)) = moveLine Z s0 (signChar p.turn :: (k ++ v)) := by
      have hk0 : k ++ v ≠ [] := by
        intro h; rw [(List.append_eq_nil_iff.mp h).1] at hk6; cases hk6
      cases p.turn <;> simp only [dispatch, signChar] <;> simp [hk0]
    rw [step, hd, hmove, Out.bind_ok, if_neg (quiet_of_pos (q := q') rfl)]
  refine ⟨_, { s0 with moves := [m], pos := some q', times := [0], scores := [0], comments := [if t = none then w else []] }, hx, ?_, ?_⟩
  · unfold parse
    rw [e0, ← hs0, lines_cons _ _ hline, run, hstep, Out.bind_ok]
    have hd : ∀ s, dispatch Z stof s [] = .ok s := fun _ => rfl
    rw [lines, run, step, hd, Out.bind_ok, if_neg (quiet_of_pos (q := q') rfl)]; rfl
  · exact ⟨rfl, rfl, rfl⟩

/-- **C86**, the comma as separator: without a time any comment of one line is stored with its move. -/
theorem C86_comma_partial {p : Position} (hi : Inv Z p) (hc : CheckOK p) (hr : (absPos p).Regular) {m : Move} (hm : LegalOp ⟨p, []⟩ (.push m))
    (w : List Char) (hw : '\n' ∉ w) (hw0 : w ≠ []) :
    ∃ x s, writeMove ',' p.turn m none w = some x ∧ parse Z stof (exportInfo p ++ x) = .ok s ∧ s.moves = [m] ∧ s.comments = [w] := by
  obtain ⟨x, s, h1, h2, h3, -, h5⟩ := run_comma Z stof ⟨hi, hc, hr⟩ hm none w hw hw0
  exact ⟨x, s, h1, h2, h3, h5⟩

/-- **C86 fails** for the comma as separator: with a time both the time and the comment are lost. -/
theorem C86_fails_comma {p : Position} (hi : Inv Z p) (hc : CheckOK p) (hr : (absPos p).Regular) {m : Move} (hm : LegalOp ⟨p, []⟩ (.push m))
    (n : Nat) (w : List Char) (hw : '\n' ∉ w) (hw0 : w ≠ []) :
    ∃ x s, writeMove ',' p.turn m (some n) w = some x ∧ parse Z stof (exportInfo p ++ x) = .ok s ∧ s.moves = [m] ∧ s.times = [0] ∧
      s.comments = [[]] := by
  obtain ⟨x, s, h1, h2, h3, h4, h5⟩ := run_comma Z stof ⟨hi, hc, hr⟩ hm (some n) w hw hw0
  exact ⟨x, s, h1, h2, h3, h4, h5⟩

/-! ### A game with everything -/

/-- Two moves, an evaluation, a remark, and everything in the header. -/
def notedGame : NotedGame where
  header := { version := "V2.2".toList, names := some ("A".toList, "B/C".toList), comment := "a test".toList, infos := [("EVENT".toList, "x:y".toList)] }
  remarks := ["a test".toList]
  start := .unnamed
  moves := [(makeMove PT.Pawn 60 59, some 10, .score (-30) "+7776FU".toList), (makeMove PT.Pawn 20 21, none, .remark "good".toList)]
  ending := "%TORYO"
  lastTime := some 3

theorem notedGame_fine : notedGame.Fine zeroKeys := by
  obtain ⟨h1, h2, h3⟩ := startModel_ok zeroKeys
  refine ⟨⟨.inr ⟨_, rfl⟩, by decide, ?_, .single 'a' _ (by decide), ?_, by decide, by decide⟩, (by intro s h; cases h), h1, h2, h3, ?_, by decide, ?_,
    ⟨_, rfl⟩, by decide, by decide⟩
  · intro n hn; cases hn; decide
  · intro l hl; rw [List.mem_singleton.mp hl]; exact ⟨by decide, by decide⟩
  · have hb : playB zeroKeys ⟨startModel zeroKeys, []⟩ notedGame.ops = true := by decide +kernel
    have hch := LChain.base (p0 := startModel zeroKeys) (startModel zeroKeys).st.continuousCheck h1 h2 h3.waiting
    rw [withCC_self] at hch
    exact (playB_legal h3 hch _ hb).mono fun _ _ h => h.1
  · intro x hx
    rcases List.mem_cons.mp hx with rfl | hx
    · exact ⟨by decide, by decide, by decide⟩
    · rw [List.mem_singleton.mp hx]
      exact ⟨by decide, by decide, by decide⟩

example : writeGame zeroKeys notedGame.game = .ok
    ("V2.2\nN+A\nN-B/C\n'a test\n$EVENT:x:y\nPI\n+\n+7776FU\nT10\n'** -30 +7776FU\n-3334FU\n'good\n%TORYO\nT3\n").toList := by
  decide +kernel

example : ∃ text ss, writeFile zeroKeys [] [notedGame.game, notedGame.game] = .ok text ∧ parseStr zeroKeys (fun _ => none) text = .ok ss ∧ ss.length = 2 := by
  obtain ⟨text, ss, h1, h2, h3⟩ := C86_file_partial zeroKeys (fun _ => none) (gs := [notedGame, notedGame]) (by simp)
    (by intro g hg; have : g = notedGame := by simpa using hg
        rw [this]; exact notedGame_fine)
  exact ⟨text, ss, h1, h2, h3.length_eq.symm⟩

example : notedGame.header.names.isSome = true ∧ notedGame.moves[1]? = some (makeMove PT.Pawn 20 21, none, .remark "good".toList) ∧
    PlainLine ("by A".toList ++ ['P', 'I']) := ⟨rfl, rfl, by decide, by decide⟩

end Csa
end Verif
