import Verif.Lemmas.Ki2Game

/-!
# KI2 records (C68, C69, C70)
-/

namespace Verif.Ki2
open Position Kif Spec

/-! ### C68: the text of a move -/

/-- **C68** for moves that need little to be told apart: the text the exporter writes for a legal move is read by the parser as that
move, provided no more than one other piece of its kind could go to the same square and, if one could, none can be dropped there. -/
theorem C68_plain_partial (Z : Zobrist) (b : Board) (hp : Inv Z b.pos) (hc : CheckOK b.pos) (hr : (absPos b.pos).Regular) (mv : Mv)
    (hm : (absPos b.pos).Legal mv) (hpl : (absPos b.pos).Plain mv) :
    ∃ text b', moveToKi2 b (encode b.pos mv) = some text ∧ b.push Z (encode b.pos mv) = some b' ∧
      ∀ n, 2 ≤ n → parseMoves Z n b text = .ok ([encode b.pos mv], b') := by
  obtain ⟨t, h, e1, e2, e3, -⟩ := move_read ⟨hp, hc, hr⟩ hm hpl
  obtain ⟨b', p1, p2, -, -⟩ := legal_push ⟨hp, hc, hr⟩ hm
  exact ⟨_, b', e1, p1, fun n hn => parseMoves_one e2 e3 p2 hn⟩

/-- A quick test of `Plain`: no piece is in hand, and there is at most one other piece of the kind. -/
theorem plain_few {q : Pos} {s t : Square} {pro : Bool} (h1 : ∀ h, q.hand q.turn h = 0)
    (h2 : ∀ s' s'' : Square, s' ≠ s → s'' ≠ s → q.board s' = q.board s → q.board s'' = q.board s → s' = s'') : q.Plain (.move s t pro) := by
  refine Or.inr ⟨?_, fun h _ hl => ?_⟩
  · rintro s' s'' ⟨a1, ⟨k, a2, a3⟩, -⟩ ⟨b1, ⟨k', b2, b3⟩, -⟩
    rw [a2] at b2; cases b2
    exact h2 s' s'' a1 b1 (a3.trans a2.symm) (b3.trans a2.symm)
  · have := hl.1.1.1
    rw [h1 h] at this
    omega

theorem legal_listed {Z : Zobrist} {p : Position} (hg : Csa.Good Z p) {mv : Mv}
    (h : ((genLegal p true).any fun l => decide (encode p mv ∈ l)) = true) : (absPos p).Legal mv := by
  obtain ⟨l, e, -, hl⟩ := genLegal_spec hg.inv.views hg.check hg.regular
  rw [e] at h
  obtain ⟨mv', e', h'⟩ := (hl _).mp (of_decide_eq_true h)
  rwa [encode_inj p e']

/-- Few pieces could be meant: no piece is in hand, and at most one other piece is of the kind. -/
def fewB (p : Position) (m : Move) : Bool :=
  ((genLegal p true).any fun l => decide (m ∈ l)) && p.hand p.turn == 0#32 &&
    decide (∀ s' s'' : Square, s' ≠ sqN m.src → s'' ≠ sqN m.src → decodePiece (p.piece s') = decodePiece (p.piece (sqN m.src)) →
      decodePiece (p.piece s'') = decodePiece (p.piece (sqN m.src)) → s' = s'')

theorem plain_fewB {Z : Zobrist} {b : Board} (hg : Csa.Good Z b.pos) {m : Move} (h : fewB b.pos m = true) : PlainOp b (.push m) := by
  simp only [fewB, Bool.and_eq_true, beq_iff_eq, decide_eq_true_eq] at h
  obtain ⟨⟨h1, h2⟩, h3⟩ := h
  obtain ⟨l, e, -, hl⟩ := genLegal_spec hg.inv.views hg.check hg.regular
  rw [e] at h1
  obtain ⟨mv, rfl, hm⟩ := (hl _).mp (of_decide_eq_true h1)
  refine ⟨mv, rfl, hm, ?_⟩
  match mv with
  | .drop h t => trivial
  | .move s t pro =>
    rw [(sqN_fields s t pro).1] at h3
    refine plain_few (fun h => ?_) h3
    show (b.pos.hand b.pos.turn).numOf h.code = 0
    rw [h2]; cases h <;> decide

/-- Every move of a game passes the test. -/
def fewGame (Z : Zobrist) : Board → List Move → Bool
  | _, [] => true
  | b, m :: ms => fewB b.pos m && match b.push Z m with | none => true | some b' => fewGame Z b' ms

theorem plain_game {Z : Zobrist} (ms : List Move) : ∀ {b : Board}, Csa.Good Z b.pos → fewGame Z b ms = true →
    Always PlainOp Z b (ms.map .push) := by
  induction ms with
  | nil => intros; trivial
  | cons m ms ih =>
    intro b hg h
    rw [fewGame, Bool.and_eq_true] at h
    have h0 := plain_fewB hg h.1
    refine ⟨h0, fun b' e => ?_⟩
    obtain ⟨mv, rfl, hm, -⟩ := h0
    obtain ⟨b2, e2, -, hg', -⟩ := legal_push hg hm
    have e' : b.push Z (encode b.pos mv) = some b' := e
    rw [e2] at e'; cases e'
    refine ih hg' ?_
    have := h.2
    rw [e2] at this
    exact this

/-- In the starting position the gold on 4i goes to 5h, and so could the one on 6i. -/
example : Inv zeroKeys (startModel zeroKeys) ∧ CheckOK (startModel zeroKeys) ∧ (absPos (startModel zeroKeys)).Regular ∧
    (absPos (startModel zeroKeys)).Legal (.move 35 43 false) ∧ (absPos (startModel zeroKeys)).Plain (.move 35 43 false) ∧
    (absPos (startModel zeroKeys)).Rival 35 43 53 ∧
    moveToKi2 ⟨startModel zeroKeys, []⟩ (encode (startModel zeroKeys) (.move 35 43 false)) = some "▲５八金右".toList := by
  obtain ⟨h1, h2, h3⟩ := startModel_ok zeroKeys
  have hg : Csa.Good zeroKeys (startModel zeroKeys) := ⟨h1, h2, h3⟩
  have hl := legal_listed hg (mv := .move 35 43 false) (by decide +kernel)
  obtain ⟨mv, e, -, hp⟩ := plain_fewB (b := ⟨startModel zeroKeys, []⟩) hg (m := encode (startModel zeroKeys) (.move 35 43 false)) (by decide +kernel)
  obtain rfl := encode_inj _ e
  exact ⟨h1, h2, h3, hl, hp, ⟨by decide, ⟨.gold, by decide +kernel, by decide +kernel⟩, false,
    (legal_listed hg (mv := .move 53 43 false) (by decide +kernel)).1.1⟩, by decide +kernel⟩

/-! #### Where it fails -/

theorem parseMoves_error {Z : Zobrist} {b : Board} {line : List Char} {h : Hit} {r : List Char} (h1 : moveRe (normalise line) = some (h, r))
    (h2 : findMove b h = .error) {n : Nat} (hn : 1 ≤ n) : parseMoves Z n b line = .error := by
  obtain ⟨k, rfl⟩ : ∃ k, n = k + 1 := ⟨n - 1, by omega⟩
  unfold parseMoves
  rw [parseLoop, List.drop_zero, h1]
  simp only [h2, Out.bind]

/-- Black's golds on 6h and 4h can both go to 5g, and a gold can be dropped there. -/
def goldsBoard (s : Square) : Option (Color × Kind) :=
  match s.val with
  | 80 => some (.black, .king) | 0 => some (.white, .king) | 52 => some (.black, .gold) | 34 => some (.black, .gold) | _ => none

def goldsHand (c : Color) (h : Nat) : Nat := match c, h with | .black, 4 => 1 | _, _ => 0

def goldsModel : Position := setPieces zeroKeys clear (fun s => pieceCode (goldsBoard s)) goldsHand

theorem goldsModel_ok : Inv zeroKeys goldsModel ∧ absPos goldsModel = ⟨goldsBoard, fun c h => goldsHand c h.code, .black⟩ ∧
    CheckOK goldsModel ∧ (absPos goldsModel).Regular :=
  setup_regular goldsBoard goldsHand 80 0 (by decide +kernel) (by decide +kernel) (fun c h => by cases c <;> cases h <;> decide)
    (by decide +kernel) (fun h => by cases h <;> decide +kernel) (by decide +kernel)

/-- **C68** fails: for the legal move of the gold on 6h to 5g the exporter writes the text for "gold from the left", and the parser,
without any complaint, reads it as the drop of a gold on 5g. -/
theorem C68_fails_drop : Inv zeroKeys goldsModel ∧ CheckOK goldsModel ∧ (absPos goldsModel).Regular ∧
    (absPos goldsModel).Legal (.move 52 42 false) ∧
    moveToKi2 ⟨goldsModel, []⟩ (encode goldsModel (.move 52 42 false)) = some "▲５七金左".toList ∧
    encode goldsModel (.drop .gold 42) ≠ encode goldsModel (.move 52 42 false) ∧
    ∃ b', ∀ n, 2 ≤ n → parseMoves zeroKeys n ⟨goldsModel, []⟩ "▲５七金左".toList = .ok ([encode goldsModel (.drop .gold 42)], b') := by
  obtain ⟨h1, -, h2, h3⟩ := goldsModel_ok
  have hg : Csa.Good zeroKeys goldsModel := ⟨h1, h2, h3⟩
  have hd := legal_listed hg (mv := .drop .gold 42) (by decide +kernel)
  obtain ⟨b', -, e2, -, -⟩ := legal_push (b := ⟨goldsModel, []⟩) hg hd
  have h4 : ((moveRe (normalise "▲５七金左".toList)).any fun x => x.2 == [] &&
      (match findMove ⟨goldsModel, []⟩ x.1 with | .ok m => m == encode goldsModel (.drop .gold 42) | _ => false)) = true := by decide +kernel
  refine ⟨h1, h2, h3, legal_listed hg (by decide +kernel), by decide +kernel, fun e => absurd (encode_inj _ e) (by simp), b', fun n hn => ?_⟩
  rcases e : moveRe (normalise "▲５七金左".toList) with _ | ⟨h, r⟩
  · rw [e] at h4; cases h4
  · rw [e] at h4
    simp only [Option.any_some, Bool.and_eq_true, beq_iff_eq] at h4
    obtain ⟨rfl, h5⟩ := h4
    rcases e' : findMove ⟨goldsModel, []⟩ h with m | _ | _
    · rw [e'] at h5
      simp only [beq_iff_eq] at h5
      rw [h5] at e'
      exact parseMoves_one e e' e2 hn
    · rw [e'] at h5; cases h5
    · rw [e'] at h5; cases h5

/-- Black's silvers on 6d, 6f and 4d can all go to 5e. -/
def silversBoard (s : Square) : Option (Color × Kind) :=
  match s.val with
  | 80 => some (.black, .king) | 0 => some (.white, .king) | 48 => some (.black, .silver) | 50 => some (.black, .silver)
  | 30 => some (.black, .silver) | _ => none

def silversModel : Position := setPieces zeroKeys clear (fun s => pieceCode (silversBoard s)) (fun _ _ => 0)

theorem silversModel_ok : Inv zeroKeys silversModel ∧ absPos silversModel = ⟨silversBoard, fun _ _ => 0, .black⟩ ∧
    CheckOK silversModel ∧ (absPos silversModel).Regular :=
  setup_regular silversBoard (fun _ _ => 0) 80 0 (by decide +kernel) (by decide +kernel) (fun c h => Nat.zero_le _)
    (by decide +kernel) (fun h => by cases h <;> decide +kernel) (by decide +kernel)

/-- **C68** fails for three pieces: the text for the silver from 6d says only "left", which also describes the one on 6f, and the
parser raises an exception. -/
theorem C68_fails_three : Inv zeroKeys silversModel ∧ CheckOK silversModel ∧ (absPos silversModel).Regular ∧
    (absPos silversModel).Legal (.move 48 40 false) ∧
    moveToKi2 ⟨silversModel, []⟩ (encode silversModel (.move 48 40 false)) = some "▲５五銀左".toList ∧
    ∀ n, 1 ≤ n → parseMoves zeroKeys n ⟨silversModel, []⟩ "▲５五銀左".toList = .error := by
  obtain ⟨h1, -, h2, h3⟩ := silversModel_ok
  have hg : Csa.Good zeroKeys silversModel := ⟨h1, h2, h3⟩
  have h4 : ((moveRe (normalise "▲５五銀左".toList)).any fun x =>
      (match findMove ⟨silversModel, []⟩ x.1 with | .error => true | _ => false)) = true := by decide +kernel
  refine ⟨h1, h2, h3, legal_listed hg (by decide +kernel), by decide +kernel, fun n hn => ?_⟩
  rcases e : moveRe (normalise "▲５五銀左".toList) with _ | ⟨h, r⟩
  · rw [e] at h4; cases h4
  · rw [e] at h4
    rcases e' : findMove ⟨silversModel, []⟩ h with m | _ | _
    · simp [e'] at h4
    · exact parseMoves_error e e' hn
    · simp [e'] at h4

theorem parseLoop_more {Z : Zobrist} {line : List Char} (n : Nat) : ∀ {b : Board} {pos : Nat} {acc : List Move},
    parseLoop Z line n b pos acc ≠ .ub → parseLoop Z line (n + 1) b pos acc = parseLoop Z line n b pos acc := by
  induction n with
  | zero => intro b pos acc h; exact absurd rfl h
  | succ n ih =>
    intro b pos acc h
    rw [parseLoop] at h ⊢
    rw [parseLoop]
    revert h
    rcases moveRe (line.drop pos) with _ | ⟨x, r⟩
    · intro _; rfl
    · dsimp only
      rcases findMove b x with m | _ | _
      · simp only [Out.bind]
        rcases playLegal Z b m with b' | _ | _
        · exact fun h => ih h
        · intro _; rfl
        · intro _; rfl
      · intro _; rfl
      · intro _; rfl

theorem parseMoves_error_of {Z : Zobrist} {b : Board} {line : List Char} {n : Nat} (h : parseMoves Z n b line = .error) {k : Nat} (hk : n ≤ k) :
    parseMoves Z k b line = .error := by
  induction k, hk using Nat.le_induction with
  | base => exact h
  | succ k _ ih =>
    unfold parseMoves at ih ⊢
    rw [parseLoop_more _ (by rw [ih]; simp), ih]

/-- **C68** fails for two moves in one line, as KI2 records have them: the parser reads the second one again and again, and raises an
exception, although each of the two texts is the one the exporter writes. -/
theorem C68_fails_line : Inv zeroKeys (startModel zeroKeys) ∧ CheckOK (startModel zeroKeys) ∧ (absPos (startModel zeroKeys)).Regular ∧
    moveToKi2 ⟨startModel zeroKeys, []⟩ (encode (startModel zeroKeys) (.move 60 59 false)) = some "▲７六歩".toList ∧
    (∃ b', Board.push zeroKeys ⟨startModel zeroKeys, []⟩ (encode (startModel zeroKeys) (.move 60 59 false)) = some b' ∧
      (absPos b'.pos).Legal (.move 20 21 false) ∧ moveToKi2 b' (encode b'.pos (.move 20 21 false)) = some "△３四歩".toList) ∧
    ∀ n, 3 ≤ n → parseMoves zeroKeys n ⟨startModel zeroKeys, []⟩ "▲７六歩△３四歩".toList = .error := by
  obtain ⟨h1, h2, h3⟩ := startModel_ok zeroKeys
  have hg : Csa.Good zeroKeys (startModel zeroKeys) := ⟨h1, h2, h3⟩
  have hl := legal_listed hg (mv := .move 60 59 false) (by decide +kernel)
  obtain ⟨b', e1, -, hg', -⟩ := legal_push (b := ⟨startModel zeroKeys, []⟩) hg hl
  have h4 : ((Board.push zeroKeys ⟨startModel zeroKeys, []⟩ (encode (startModel zeroKeys) (.move 60 59 false))).any fun b' =>
      ((genLegal b'.pos true).any fun l => decide (encode b'.pos (.move 20 21 false) ∈ l)) &&
      (moveToKi2 b' (encode b'.pos (.move 20 21 false)) == some "△３四歩".toList)) = true := by decide +kernel
  have h5 : (match parseMoves zeroKeys 3 ⟨startModel zeroKeys, []⟩ "▲７六歩△３四歩".toList with | .error => true | _ => false) = true := by
    decide +kernel
  refine ⟨h1, h2, h3, by decide +kernel, ⟨b', e1, ?_⟩, fun n hn => parseMoves_error_of (n := 3) ?_ hn⟩
  · have e1' : Board.push zeroKeys ⟨startModel zeroKeys, []⟩ (encode (startModel zeroKeys) (.move 60 59 false)) = some b' := e1
    rw [e1'] at h4
    simp only [Option.any_some, Bool.and_eq_true, beq_iff_eq] at h4
    exact ⟨legal_listed hg' h4.1, h4.2⟩
  · rcases e : parseMoves zeroKeys 3 ⟨startModel zeroKeys, []⟩ "▲７六歩△３四歩".toList with _ | _ | _
    · rw [e] at h5; cases h5
    · rfl
    · rw [e] at h5; cases h5

/-! ### C69: whole records -/

/-- **C69** for games of such moves: a game of legal moves from the starting position, none of which needs much to be told apart, written
by the exporter, is read back by the parser: start, names, moves and comments. -/
theorem C69_record_partial (Z : Zobrist) : ∃ p, setSfen Z startSfen = .ok p ∧ absPos p = startPos ∧ p.gamePly = 1 ∧
    ∀ ms : List (Move × Option (List Char)), Always PlainOp Z ⟨p, []⟩ (ms.map fun x => .push x.1) →
    (∀ x ∈ ms, ∀ c ∈ x.2, c ≠ [] ∧ '\n' ∉ c ∧ '\r' ∉ c) →
    ∀ time black white, Kif.Field time → Kif.Field black → Kif.Field white → ∀ r,
    ∃ record b s, exportGame Z time black white ms r = .ok (some (record, b)) ∧ Board.run Z ⟨p, []⟩ (ms.map fun x => .push x.1) = some b ∧
      (∀ n, 2 ≤ n → parse Z n record = .ok s) ∧ s.sfen = startSfen ∧ s.names .black = some black ∧ s.names .white = some white ∧
      s.moves = ms.map (·.1) ∧ s.comments = ms.map (·.2) ∧ s.board = b := by
  obtain ⟨p, h1, h2, h3, -, h5⟩ := Ki2.record_read Z
  refine ⟨p, h1, h2, h3, fun ms ho hc time black white ht hb hw r => ?_⟩
  obtain ⟨record, b, s, e1, e2, e3, e4, e5, e6, e7, e8, e9, -⟩ := h5 ms ho (fun x hx c hc' => (hc x hx c hc').2) time black white ht hb hw r
  refine ⟨record, b, s, e1, e2, e3, e4, e5, e6, e7, e8.trans (List.map_congr_left fun x hx => ?_), e9⟩
  have := hc x hx
  match hx2 : x.2 with
  | none => rfl
  | some [] => rw [hx2] at this; exact absurd rfl (this [] rfl).1
  | some (y :: ys) => rfl

/-- Gold 4i to 5h, gold 6a to 5b, silver 7i to 7h, with comments on the first and the last. -/
def ki2Moves : List (Move × Option (List Char)) :=
  [(makeMove PT.Gold 35 43, some "右".toList), (makeMove PT.Gold 45 37, none), (makeMove PT.Silver 62 61, some "*：".toList)]

/-- The moves of that game are as required, and this is its record. -/
example : ∃ p, setSfen zeroKeys startSfen = .ok p ∧ Always PlainOp zeroKeys ⟨p, []⟩ (ki2Moves.map fun x => .push x.1) ∧
    (∀ x ∈ ki2Moves, ∀ c ∈ x.2, c ≠ [] ∧ '\n' ∉ c ∧ '\r' ∉ c) ∧ ∃ b,
    exportGame zeroKeys "2026/11/16 10:00:00".toList "A".toList "B".toList ki2Moves .toryo = .ok (some
      (("開始日時：2026/11/16 10:00:00\n手合割：平手\n先手：A\n後手：B\n\n" ++
       "▲５八金右\n**右\n△５二金右\n▲７八銀\n***：\nまで3手で先手の勝ち\n").toList, b)) := by
  obtain ⟨p, h1, -, -, hg, -⟩ := Ki2.record_read zeroKeys
  refine ⟨p, h1, ?_, by decide, ?_⟩
  · have hb : (match setSfen zeroKeys startSfen with | .ok p => fewGame zeroKeys ⟨p, []⟩ (ki2Moves.map (·.1)) | _ => false) = true := by
      decide +kernel
    rw [h1] at hb
    have := plain_game (Z := zeroKeys) (b := ⟨p, []⟩) (ki2Moves.map (·.1)) hg hb
    rwa [List.map_map] at this
  · have hb : (match exportGame zeroKeys "2026/11/16 10:00:00".toList "A".toList "B".toList ki2Moves .toryo with
        | .ok (some (t, _)) => t == ("開始日時：2026/11/16 10:00:00\n手合割：平手\n先手：A\n後手：B\n\n" ++
           "▲５八金右\n**右\n△５二金右\n▲７八銀\n***：\nまで3手で先手の勝ち\n").toList
        | _ => false) = true := by decide +kernel
    rcases e : exportGame zeroKeys "2026/11/16 10:00:00".toList "A".toList "B".toList ki2Moves .toryo with _ | _ | _
    · rename_i x
      rcases x with _ | ⟨t, b⟩
      · rw [e] at hb; cases hb
      · rw [e] at hb
        exact ⟨b, by rw [eq_of_beq hb]⟩
    · rw [e] at hb; cases hb
    · rw [e] at hb; cases hb

/-! ### C70: the result -/

/-- **C70** for games that end by resignation, impasse, declaration or repetition: the parser finds the reason and the winner the CSA
standard gives for it. -/
theorem C70_result_partial (Z : Zobrist) (r : Reason) (e : String)
    (hr : (r, e) ∈ [(.toryo, "%TORYO"), (.jishogi, "%JISHOGI"), (.kachi, "%KACHI"), (.sennichite, "%SENNICHITE")]) :
    ∃ p, setSfen Z startSfen = .ok p ∧ absPos p = startPos ∧
    ∀ ms : List (Move × Option (List Char)), Always PlainOp Z ⟨p, []⟩ (ms.map fun x => .push x.1) →
    (∀ x ∈ ms, ∀ c ∈ x.2, '\n' ∉ c ∧ '\r' ∉ c) →
    ∀ time black white, Kif.Field time → Kif.Field black → Kif.Field white →
    ∃ record b s, exportGame Z time black white ms r = .ok (some (record, b)) ∧ Board.run Z ⟨p, []⟩ (ms.map fun x => .push x.1) = some b ∧
      (∀ n, 2 ≤ n → parse Z n record = .ok s) ∧ s.endgame = e.toList ∧ s.win = some (Csa.winOf (resultOf e b.pos.turn)) := by
  obtain ⟨p, h1, h2, -, -, h5⟩ := Ki2.record_read Z
  refine ⟨p, h1, h2, fun ms ho hc time black white ht hb hw => ?_⟩
  obtain ⟨record, b, s, e1, e2, e3, -, -, -, -, -, -, e4, e5⟩ := h5 ms ho hc time black white ht hb hw r
  refine ⟨record, b, s, e1, e2, e3, ?_⟩
  rw [e4, e5]
  simp only [List.mem_cons, List.not_mem_nil, or_false, Prod.mk.injEq] at hr
  rcases hr with ⟨rfl, rfl⟩ | ⟨rfl, rfl⟩ | ⟨rfl, rfl⟩ | ⟨rfl, rfl⟩ <;> cases b.pos.turn <;> decide

/-- **C70** fails for every game that ends with an illegal action: the parser finds either the wrong side for the action or the wrong
winner. -/
theorem C70_fails_action (Z : Zobrist) (c : Color) (e : String)
    (hr : (c, e) ∈ [(Color.black, "%+ILLEGAL_ACTION"), (Color.white, "%-ILLEGAL_ACTION")]) :
    ∃ p, setSfen Z startSfen = .ok p ∧ absPos p = startPos ∧
    ∀ ms : List (Move × Option (List Char)), Always PlainOp Z ⟨p, []⟩ (ms.map fun x => .push x.1) →
    (∀ x ∈ ms, ∀ c ∈ x.2, '\n' ∉ c ∧ '\r' ∉ c) →
    ∀ time black white, Kif.Field time → Kif.Field black → Kif.Field white →
    ∃ record b s, exportGame Z time black white ms (.illegalAction c) = .ok (some (record, b)) ∧
      Board.run Z ⟨p, []⟩ (ms.map fun x => .push x.1) = some b ∧ (∀ n, 2 ≤ n → parse Z n record = .ok s) ∧
      resultOf e b.pos.turn = .wins c.opp ∧
      (c = b.pos.turn → s.endgame ≠ e.toList) ∧ (c = b.pos.turn.opp → s.endgame = e.toList ∧ s.win = some (Csa.winOf (.wins c))) := by
  obtain ⟨p, h1, h2, -, -, h5⟩ := Ki2.record_read Z
  refine ⟨p, h1, h2, fun ms ho hc time black white ht hb hw => ?_⟩
  obtain ⟨record, b, s, e1, e2, e3, -, -, -, -, -, -, e4, e5⟩ := h5 ms ho hc time black white ht hb hw (.illegalAction c)
  refine ⟨record, b, s, e1, e2, e3, ?_⟩
  rw [e4, e5]
  simp only [List.mem_cons, List.not_mem_nil, or_false, Prod.mk.injEq] at hr
  rcases hr with ⟨rfl, rfl⟩ | ⟨rfl, rfl⟩ <;> cases b.pos.turn <;> decide

/-- **C70** fails for every game that ends with an illegal move: the side to move loses, and the parser says that it wins. -/
theorem C70_fails_move (Z : Zobrist) : ∃ p, setSfen Z startSfen = .ok p ∧ absPos p = startPos ∧
    ∀ ms : List (Move × Option (List Char)), Always PlainOp Z ⟨p, []⟩ (ms.map fun x => .push x.1) →
    (∀ x ∈ ms, ∀ c ∈ x.2, '\n' ∉ c ∧ '\r' ∉ c) →
    ∀ time black white, Kif.Field time → Kif.Field black → Kif.Field white →
    ∃ record b s, exportGame Z time black white ms .illegalMove = .ok (some (record, b)) ∧
      Board.run Z ⟨p, []⟩ (ms.map fun x => .push x.1) = some b ∧ (∀ n, 2 ≤ n → parse Z n record = .ok s) ∧
      resultOf "%ILLEGAL_MOVE" b.pos.turn = .wins b.pos.turn.opp ∧ s.win = some (Csa.winOf (.wins b.pos.turn)) := by
  obtain ⟨p, h1, h2, -, -, h5⟩ := Ki2.record_read Z
  refine ⟨p, h1, h2, fun ms ho hc time black white ht hb hw => ?_⟩
  obtain ⟨record, b, s, e1, e2, e3, -, -, -, -, -, -, e4, -⟩ := h5 ms ho hc time black white ht hb hw .illegalMove
  refine ⟨record, b, s, e1, e2, e3, rfl, ?_⟩
  rw [e4]
  cases b.pos.turn <;> rfl

end Verif.Ki2
