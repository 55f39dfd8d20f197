import Verif.Lemmas.KifMoves
import Verif.Props.Mate

/-!
# KIF records: C65, C66, C67
-/

namespace Verif.Kif
open Spec Position

/-- A text that can stand in one line of the header: no line breaks, and no ideographic space at the end. -/
structure Field (t : List Char) : Prop where
  newline : '\n' ∉ t
  return_ : '\r' ∉ t
  space : t.getLast? ≠ some '　'

theorem find_name : ∀ x ∈ handicaps, handicaps.find? (fun y => y.1 = x.1) = some x := by decide +kernel

theorem off_name : ∀ x ∈ handicapSquares, ∃ y ∈ handicaps, y.1 = x.1.toList ∧ offOf y.1 = x.2 ∧ (x.2 = [] → y.2 = startSfen) := by
  have h : (handicapSquares.all fun x => handicaps.any fun y => decide (y.1 = x.1.toList) && decide (offOf y.1 = x.2) &&
      (decide (x.2 ≠ []) || decide (y.2 = startSfen))) = true := by decide +kernel
  intro x hx
  have := List.all_eq_true.mp h x hx
  simp only [List.any_eq_true, Bool.and_eq_true, decide_eq_true_eq, Bool.or_eq_true] at this
  obtain ⟨y, hy, ⟨h1, h2⟩, h3⟩ := this
  exact ⟨y, hy, h1, h2, fun e => h3.resolve_left fun h => h e⟩

/-- The lines of a header. -/
def headerLines (time : List Char) (st : Start) (black white : List Char) : List (List Char) :=
  ["開始日時：".toList ++ time] ++ st.lines ++ ["先手：".toList ++ black, "後手：".toList ++ white,
    "手数----指手---------消費時間--".toList]

/-- The header of a game with a named start, read. -/
theorem run_header {Z : Zobrist} {x : List Char × List Char} (hx : x ∈ handicaps) {q : Position} (hq : setSfen Z x.2 = .ok q)
    {st : Start} (hst : st.lines = ["手合割：".toList ++ x.1]) (time : List Char) {black white : List Char} (hb : Field black)
    (hw : Field white) (p0 : Position) (rest : List (List Char)) :
    run Z (headerLines time st black white ++ rest) { board := ⟨p0, []⟩ } = run Z rest
      { names := fun c => if c = .white then some white else if c = .black then some black else none, sfen := x.2,
        info := [("開始日時".toList, rstrip time)], board := ⟨q, []⟩ } := by
  have hxn : rstrip x.1 = x.1 := by
    have : ∀ x ∈ handicaps, rstrip x.1 = x.1 := by decide +kernel
    exact this x hx
  unfold headerLines
  rw [hst]
  simp only [List.cons_append, List.nil_append]
  obtain ⟨i, hi⟩ : ∃ i, i = [("開始日時".toList, rstrip time)] := ⟨_, rfl⟩
  obtain ⟨n1, h1⟩ : ∃ n : Color → Option (List Char), n = fun c => if c = .black then some black else none := ⟨_, rfl⟩
  obtain ⟨n2, h2⟩ : ∃ n : Color → Option (List Char), n = fun c =>
    if c = .white then some white else if c = .black then some black else none := ⟨_, rfl⟩
  rw [← hi, ← h2, run_cons (s' := { board := ⟨p0, []⟩, info := i }), run_cons (s' := { board := ⟨q, []⟩, info := i, sfen := x.2 }),
    run_cons (s' := { board := ⟨q, []⟩, info := i, sfen := x.2, names := n1 }),
    run_cons (s' := { board := ⟨q, []⟩, info := i, sfen := x.2, names := n2 }), run_cons (step_banner _)]
  · refine (step_key _ ['後', '手'] white (by decide) (by decide)).trans ?_
    rw [rstrip_id hw.space, h2, h1]
    rfl
  · refine (step_key _ ['先', '手'] black (by decide) (by decide)).trans ?_
    rw [rstrip_id hb.space, h1]
    rfl
  · refine (step_key _ ['手', '合', '割'] x.1 (by decide) (by decide)).trans ?_
    rw [hxn]
    unfold keyLine
    rw [if_neg (by decide), if_neg (by decide), if_neg (by decide), if_pos (by decide), find_name x hx]
    simp only [hq, Out.bind]
  · refine (step_key _ ['開', '始', '日', '時'] time (by decide) (by decide)).trans ?_
    rw [hi]
    rfl

theorem calm_line {l : List Char} (h : ∀ c ∈ l, Calm c) : '\n' ∉ l ∧ '\r' ∉ l :=
  ⟨fun hh => (h _ hh).1 rfl, fun hh => (h _ hh).2.1 rfl⟩

theorem parse_unlines {Z : Zobrist} {p0 : Position} (h0 : setSfen Z startSfen = .ok p0) {ls : List (List Char)}
    (h : ∀ l ∈ ls, '\n' ∉ l ∧ '\r' ∉ l) : parse Z (unlines ls) = run Z (ls ++ [[]]) { board := ⟨p0, []⟩ } := by
  have hr : '\r' ∉ unlines ls := by
    intro hh
    obtain ⟨l, hl, hm⟩ := List.mem_flatMap.mp hh
    rcases List.mem_append.mp hm with hm | hm
    · exact (h l hl).2 hm
    · revert hm; decide
  unfold parse
  rw [h0]
  simp only [Out.bind]
  rw [unixNewlines_id hr]
  have := splitAt_unlines ls [] fun l hl => (h l hl).1
  rw [List.append_nil] at this
  rw [this]
  rfl

theorem header_plain {x : List Char × List Char} (hx : x ∈ handicaps)
    {st : Start} (hst : st.lines = ["手合割：".toList ++ x.1]) {time black white : List Char} (ht : Field time) (hb : Field black)
    (hw : Field white) : ∀ l ∈ headerLines time st black white, '\n' ∉ l ∧ '\r' ∉ l := by
  have hn : ∀ x ∈ handicaps, '\n' ∉ x.1 ∧ '\r' ∉ x.1 := by decide +kernel
  have happ : ∀ (k v : List Char), ('\n' ∉ k ∧ '\r' ∉ k) → ('\n' ∉ v ∧ '\r' ∉ v) → '\n' ∉ k ++ v ∧ '\r' ∉ k ++ v := by
    intro k v h1 h2
    simp only [List.mem_append, not_or]
    exact ⟨⟨h1.1, h2.1⟩, ⟨h1.2, h2.2⟩⟩
  intro l hl
  unfold headerLines at hl
  rw [hst] at hl
  simp only [List.cons_append, List.nil_append, List.mem_cons, List.not_mem_nil, or_false] at hl
  rcases hl with rfl | rfl | rfl | rfl | rfl
  · exact happ _ _ (by decide) ⟨ht.newline, ht.return_⟩
  · exact happ _ _ (by decide) (hn x hx)
  · exact happ _ _ (by decide) ⟨hb.newline, hb.return_⟩
  · exact happ _ _ (by decide) ⟨hw.newline, hw.return_⟩
  · decide

/-- The text of a whole record in lines. -/
theorem exportGame_lines {time : List Char} {st : Start} {black white : List Char} {ms : List (Move × Nat × Nat)} {ls : List (List Char)}
    (h : exportMoves 1 0#32 ms = some (unlines ls)) (r : Reason) (sec sum : Nat) :
    exportGame time st black white ms r sec sum = some (unlines (headerLines time st black white ++ (ls ++
      [lineText (ms.length + 1) r.text sec sum, resultLine (ms.length + 1) r]))) := by
  unfold exportGame
  rw [h, Option.map_some, unlines_append, unlines_append]
  unfold exportEnd
  rw [tableLine_eq, resultLine_eq]
  simp [unlines, exportHeader, headerLines]

/-- A whole record with a named start, read. -/
theorem record_read (Z : Zobrist) {n : String} {off : List Square} (hoff : (n, off) ∈ handicapSquares) {st : Start}
    (hst : st = .named n.toList ∨ st = .even ∧ n = "平手") :
    ∃ text p, setSfen Z text = .ok p ∧ absPos p = handicapPos off ∧ p.gamePly = 1 ∧ Csa.Good Z p ∧
      ∀ ms : List (Move × Nat × Nat), Always LegalOp Z ⟨p, []⟩ (ms.map fun x => .push x.1) →
      ∀ time black white, Field time → Field black → Field white → ∀ r sec sum,
      ∃ record b, exportGame time st black white ms r sec sum = some record ∧
        Board.run Z ⟨p, []⟩ (ms.map fun x => .push x.1) = some b ∧ (b.pos.turn = if ms.length % 2 = 0 then p.turn else p.turn.opp) ∧
        parse Z record = .ok
          { names := fun c => if c = .white then some white else if c = .black then some black else none, sfen := text,
            info := [("開始日時".toList, rstrip time)], board := b, moves := ms.map (·.1),
            times := ms.map (·.2.1) ++ (if r = .win then [] else [sec]),
            win := (readEnd (ms.length + 1) r).1, endgame := (readEnd (ms.length + 1) r).2 } := by
  obtain ⟨x, hx, e1, e2, -⟩ := off_name _ hoff
  obtain ⟨q, q1, q2, q3, q4⟩ := handicap_read Z (handicaps_ok x hx).1
  obtain ⟨p0, h0, -⟩ := handicap_read Z (x := ("平手".toList, startSfen)) (handicaps_ok _ (by decide +kernel)).1
  have hl : st.lines = ["手合割：".toList ++ x.1] := by
    rcases hst with rfl | ⟨rfl, hn⟩
    · rw [e1]; rfl
    · rw [e1]
      rw [hn]
      show ["手合割：平手".toList] = ["手合割：".toList ++ "平手".toList]
      decide
  refine ⟨x.2, q, q1, by rw [q2, e2], q3, q4, fun ms ho time black white ht hb hw r sec sum => ?_⟩
  obtain ⟨ls, b, i1, i2, i3, -, i5, i6⟩ := run_moves ms 1 0#32
    { names := fun c => if c = .white then some white else if c = .black then some black else none, sfen := x.2,
      info := [("開始日時".toList, rstrip time)], board := ⟨q, []⟩ } q4 rfl ho
  refine ⟨_, b, exportGame_lines i1 r sec sum, i3, i5, ?_⟩
  rw [parse_unlines h0, List.append_assoc, run_header hx q1 hl time hb hw, List.append_assoc, i6]
  · show run Z [_, _, []] _ = _
    rw [run_end _ rfl rfl]
    rfl
  · intro l hl'
    rcases List.mem_append.mp hl' with h | h
    · exact header_plain hx hl ht hb hw l h
    · rcases List.mem_append.mp h with h | h
      · exact calm_line (i2 l h).1
      · simp only [List.mem_cons, List.not_mem_nil, or_false] at h
        rcases h with rfl | rfl
        · exact calm_line fun c hc => (reason_calm _ _ _ _ c hc).1
        · exact calm_line fun c hc => (resultLine_calm _ _ c hc).1

/-! ### C65 -/

/-- **C65**: a game of legal moves from the starting position or from a named handicap, written by the exporter, is read back by the
parser: the start, the names, the moves in order and the seconds of every move. -/
theorem C65_record (Z : Zobrist) {n : String} {off : List Square} (hoff : (n, off) ∈ handicapSquares) {st : Start}
    (hst : st = .named n.toList ∨ st = .even ∧ n = "平手") :
    ∃ text p, setSfen Z text = .ok p ∧ absPos p = handicapPos off ∧ p.gamePly = 1 ∧
      ∀ ms : List (Move × Nat × Nat), Always LegalOp Z ⟨p, []⟩ (ms.map fun x => .push x.1) →
      ∀ time black white, Field time → Field black → Field white → ∀ r sec sum,
      ∃ record s, exportGame time st black white ms r sec sum = some record ∧ parse Z record = .ok s ∧ s.sfen = text ∧
        s.names .black = some black ∧ s.names .white = some white ∧ s.moves = ms.map (·.1) ∧
        s.times.take ms.length = ms.map (·.2.1) ∧ s.comments = [] := by
  obtain ⟨text, p, h1, h2, h3, -, h5⟩ := record_read Z hoff hst
  refine ⟨text, p, h1, h2, h3, fun ms ho time black white ht hb hw r sec sum => ?_⟩
  obtain ⟨record, b, e1, -, -, e4⟩ := h5 ms ho time black white ht hb hw r sec sum
  refine ⟨record, _, e1, e4, rfl, rfl, rfl, rfl, ?_, rfl⟩
  exact List.take_left' (by simp)

/-- Two moves of a handicap game: White opens with the pawn on 3c, Black answers on 7f, and White resigns. -/
def kifMoves : List (Move × Nat × Nat) := [(makeMove PT.Pawn 20 21, 75, 75), (makeMove PT.Pawn 60 59, 3, 3)]

/-- The record of that game, and that its moves are legal from the position named. -/
example : ∃ p, setSfen zeroKeys "lnsgkgsnl/1r7/ppppppppp/9/9/9/PPPPPPPPP/1B5R1/LNSGKGSNL w - 1".toList = .ok p ∧
    absPos p = handicapPos [10] ∧ ("角落ち", [10]) ∈ handicapSquares ∧
    Always LegalOp zeroKeys ⟨p, []⟩ (kifMoves.map fun x => .push x.1) ∧
    exportGame "2026/11/16 10:00:00".toList (.named "角落ち".toList) "A".toList "B".toList kifMoves .resign 5 80 = some
      ("開始日時：2026/11/16 10:00:00\n手合割：角落ち\n先手：A\n後手：B\n手数----指手---------消費時間--\n" ++
       "   1 ３四歩(33)        ( 1:15/00:01:15)\n   2 ７六歩(77)        ( 0:03/00:00:03)\n" ++
       "   3 投了              ( 0:05/00:01:20)\nまで2手で後手の勝ち\n").toList := by
  obtain ⟨q, q1, q2, -, q4⟩ := handicap_read zeroKeys (handicaps_ok
    ("角落ち".toList, "lnsgkgsnl/1r7/ppppppppp/9/9/9/PPPPPPPPP/1B5R1/LNSGKGSNL w - 1".toList) (by decide +kernel)).1
  have eo : offOf "角落ち".toList = [10] := by decide +kernel
  refine ⟨q, q1, by rw [q2]; exact congrArg _ eo, by decide +kernel, ?_, by decide +kernel⟩
  have hq : setSfen zeroKeys "lnsgkgsnl/1r7/ppppppppp/9/9/9/PPPPPPPPP/1B5R1/LNSGKGSNL w - 1".toList = .ok q := q1
  have hb : (match setSfen zeroKeys "lnsgkgsnl/1r7/ppppppppp/9/9/9/PPPPPPPPP/1B5R1/LNSGKGSNL w - 1".toList with
      | .ok p => playB zeroKeys ⟨p, []⟩ (kifMoves.map fun x => .push x.1)
      | _ => false) = true := by decide +kernel
  rw [hq] at hb
  simp only at hb
  obtain ⟨ops, hops⟩ : ∃ x, x = kifMoves.map fun x => Op.push x.1 := ⟨_, rfl⟩
  rw [← hops] at hb ⊢
  have hch := LChain.base (p0 := q) q.st.continuousCheck q4.inv q4.check q4.regular.waiting
  rw [withCC_self] at hch
  exact (playB_legal q4.regular hch ops hb).mono fun _ _ h => h.1

/-! ### C66 -/

/-- **C66** for starts that are named: the position of the record is the one with the pieces of that handicap left out, White to move
(the starting position, Black to move, if there is no handicap). -/
theorem C66_named_partial (Z : Zobrist) {n : String} {off : List Square} (hoff : (n, off) ∈ handicapSquares) {st : Start}
    (hst : st = .named n.toList ∨ st = .even ∧ n = "平手") {time black white : List Char} (ht : Field time) (hb : Field black)
    (hw : Field white) (r : Reason) (sec sum : Nat) :
    ∃ record s p, exportGame time st black white [] r sec sum = some record ∧ parse Z record = .ok s ∧ setSfen Z s.sfen = .ok p ∧
      absPos p = handicapPos off ∧ p.gamePly = 1 ∧ s.board = ⟨p, []⟩ := by
  obtain ⟨text, p, h1, h2, h3, -, h5⟩ := record_read Z hoff hst
  obtain ⟨record, b, e1, e2, -, e4⟩ := h5 [] trivial time black white ht hb hw r sec sum
  refine ⟨record, _, p, e1, e4, h1, h2, h3, ?_⟩
  exact (Option.some.inj e2).symm

theorem addMove_sfen {Z : Zobrist} {s s' : State} {m : Move} (h : addMove Z s m = .ok s') : s'.sfen = s.sfen := by
  unfold addMove at h
  split at h
  · cases h
  · cases h; rfl
  · split at h
    · cases h
    · cases h; rfl

/-- A line that does not name a handicap leaves the start alone. -/
theorem step_sfen {Z : Zobrist} {s : State} {l : List Char} (hl : l.takeWhile (· ≠ '：') ≠ "手合割".toList) {x : State × Bool}
    (h : step Z s l = .ok x) : x.1.sfen = s.sfen := by
  unfold step at h
  split at h
  · cases h; rfl
  · split at h
    · unfold commentLine at h
      split at h
      · cases h; rfl
      · simp only at h
        split at h
        · split at h
          · cases h; rfl
          · cases h
        · cases h; rfl
    · split at h
      · unfold keyLine at h
        split at h
        · cases h; rfl
        · split at h
          · cases h; rfl
          · split at h
            · split at h
              · cases h; rfl
              · cases h
            · cases h; rfl
      · unfold otherLine at h
        cases hp : parseMove s.board _ with
        | error => rw [hp] at h; cases h
        | ub => rw [hp] at h; cases h
        | ok r =>
          rw [hp] at h
          simp only [Out.bind] at h
          split at h
          · cases ha : addMove Z s _ with
            | error => rw [ha] at h; cases h
            | ub => rw [ha] at h; cases h
            | ok s1 =>
              rw [ha] at h
              cases h
              exact (addMove_sfen ha : s1.sfen = s.sfen)
          · cases h; rfl
          · split at h
            · cases h; rfl
            · cases h; rfl

theorem run_sfen {Z : Zobrist} : ∀ (ls : List (List Char)), (∀ l ∈ ls, l.takeWhile (· ≠ '：') ≠ "手合割".toList) → ∀ (s s' : State),
    run Z ls s = .ok s' → s'.sfen = s.sfen
  | [], _, s, s', h => by cases h; rfl
  | l :: ls, hl, s, s', h => by
    rw [run] at h
    cases hs : step Z s l with
    | error => rw [hs] at h; cases h
    | ub => rw [hs] at h; cases h
    | ok x =>
      rw [hs] at h
      have h1 := step_sfen (hl l (by simp)) hs
      obtain ⟨s1, stop⟩ := x
      simp only [Out.bind] at h
      split at h
      · cases h; exact h1
      · rw [run_sfen ls (fun k hk => hl k (by simp [hk])) _ _ h, h1]

theorem not_teai {l : List Char} (h : l.head? ≠ some '手') : l.takeWhile (· ≠ '：') ≠ "手合割".toList := by
  intro e
  apply h
  cases l with
  | nil => cases e
  | cons c l =>
    rw [List.takeWhile_cons] at e
    split at e
    · have : c = '手' := (List.cons.inj e).1
      rw [this]; rfl
    · cases e

theorem getElem?_toList_mem {l : List Char} {i : Nat} {c : Char} (h : c ∈ (l[i]?).toList) : c ∈ l := by
  cases hi : l[i]? with
  | none => rw [hi] at h; cases h
  | some x =>
    rw [hi] at h
    rw [List.mem_singleton.mp h]
    exact List.mem_of_getElem? hi

theorem kanjiNumber_mem {n : Nat} {c : Char} (h : c ∈ kanjiNumber n) : c ∈ '十' :: rankChars := by
  unfold kanjiNumber at h
  split at h
  · exact List.mem_cons_of_mem _ (getElem?_toList_mem h)
  · split at h
    · rw [List.mem_singleton.mp h]; simp
    · rcases List.mem_cons.mp h with rfl | h
      · simp
      · exact List.mem_cons_of_mem _ (getElem?_toList_mem h)

theorem joinSpace_mem : ∀ {ls : List (List Char)} {c : Char}, c ∈ joinSpace ls → c = '　' ∨ ∃ l ∈ ls, c ∈ l
  | [], _, h => by cases h
  | [x], c, h => Or.inr ⟨x, by simp, h⟩
  | x :: y :: l, c, h => by
    rw [joinSpace] at h
    · rcases List.mem_append.mp h with h | h
      · exact Or.inr ⟨x, by simp, h⟩
      · rcases List.mem_cons.mp h with h | h
        · exact Or.inl h
        · rcases joinSpace_mem h with h | ⟨k, hk, h⟩
          · exact Or.inl h
          · exact Or.inr ⟨k, by simp [hk], h⟩
    · simp

/-- The characters of a diagram. -/
def bodChars : List Char := pieceChars ++ rankChars ++ handChars ++ "十　なし |+-v・".toList

theorem bodHand_mem {h : Hand} {c : Char} (hc : c ∈ bodHand h) : c ∈ bodChars := by
  unfold bodHand at hc
  split at hc
  · revert c; decide
  · rcases joinSpace_mem hc with rfl | ⟨l, hl, hc⟩
    · decide
    · unfold bodItems at hl
      obtain ⟨i, -, hi⟩ := List.mem_flatMap.mp hl
      have hs : ∀ x ∈ handChars, x ∈ bodChars := by decide
      have hk : ∀ x ∈ '十' :: rankChars, x ∈ bodChars := by decide
      split at hi
      · rw [List.mem_singleton.mp hi] at hc
        rcases List.mem_append.mp hc with h | h
        · exact hs c (getElem?_toList_mem h)
        · exact hk c (kanjiNumber_mem h)
      · split at hi
        · rw [List.mem_singleton.mp hi] at hc
          exact hs c (getElem?_toList_mem hc)
        · cases hi

theorem bodSymbol_mem : ∀ pc : Nat, pc < 31 → ∀ c ∈ bodSymbol pc, c ∈ bodChars := by decide +kernel

theorem bodLines_ok {p : Position} (hp : Consistent p) : ∀ l ∈ bodLines p, '\n' ∉ l ∧ '\r' ∉ l ∧ l.takeWhile (· ≠ '：') ≠ "手合割".toList := by
  have hbc : '\n' ∉ bodChars ∧ '\r' ∉ bodChars := by decide
  have hrank : ∀ r, ∀ c ∈ bodRank p r, c ∈ bodChars := by
    intro r c hc
    unfold bodRank at hc
    rcases List.mem_cons.mp hc with rfl | hc
    · decide
    · rcases List.mem_append.mp hc with h | h
      · obtain ⟨f, -, h⟩ := List.mem_flatMap.mp h
        refine bodSymbol_mem _ ?_ c h
        rw [hp.code]
        generalize (absPos p).board _ = v
        rcases v with _ | ⟨c, k⟩
        · decide
        · cases c <;> cases k <;> decide
      · rcases List.mem_cons.mp h with rfl | h
        · decide
        · have : ∀ x ∈ rankChars, x ∈ bodChars := by decide
          exact this c (getElem?_toList_mem h)
  have hhand : ∀ (k : List Char) (h : Hand), ('\n' ∉ k ∧ '\r' ∉ k) → '\n' ∉ k ++ bodHand h ∧ '\r' ∉ k ++ bodHand h := by
    intro k h h1
    simp only [List.mem_append, not_or]
    exact ⟨⟨h1.1, fun hh => hbc.1 (bodHand_mem hh)⟩, ⟨h1.2, fun hh => hbc.2 (bodHand_mem hh)⟩⟩
  intro l hl
  unfold bodLines at hl
  simp only [List.mem_append, List.mem_cons, List.not_mem_nil, or_false] at hl
  rcases hl with (((rfl | rfl | rfl) | h) | (rfl | rfl)) | h
  · exact ⟨(hhand _ _ (by decide)).1, (hhand _ _ (by decide)).2, not_teai (by simp)⟩
  · decide
  · decide
  · obtain ⟨r, -, rfl⟩ := List.mem_map.mp h
    exact ⟨fun hh => hbc.1 (hrank r _ hh), fun hh => hbc.2 (hrank r _ hh), not_teai (by simp [bodRank])⟩
  · decide
  · exact ⟨(hhand _ _ (by decide)).1, (hhand _ _ (by decide)).2, not_teai (by simp)⟩
  · split at h
    · rw [List.mem_singleton.mp h]; decide
    · cases h

/-- **C66** fails whenever the start is given as a board: whatever the board, the parser says that the game began from the starting
position. The diagram the exporter writes is not read. -/
theorem C66_fails_board (Z : Zobrist) {p : Position} (hi : Inv Z p) (hc : CheckOK p) (hr : (absPos p).Regular)
    (ms : List (Move × Nat × Nat)) (ho : Always LegalOp Z ⟨p, []⟩ (ms.map fun x => .push x.1))
    {time black white : List Char} (ht : Field time) (hb : Field black) (hw : Field white) (r : Reason) (sec sum : Nat) :
    ∃ record, exportGame time (.board p) black white ms r sec sum = some record ∧
      ∀ s, parse Z record = .ok s → s.sfen = startSfen := by
  obtain ⟨ls, b, i1, i2, -⟩ := run_moves (Z := Z) ms 1 0#32 { board := ⟨p, []⟩ } ⟨hi, hc, hr⟩ rfl ho
  obtain ⟨p0, h0, -⟩ := handicap_read Z (x := ("平手".toList, startSfen)) (handicaps_ok _ (by decide +kernel)).1
  refine ⟨_, exportGame_lines i1 r sec sum, fun s hs => ?_⟩
  have happ : ∀ (k v : List Char), ('\n' ∉ k ∧ '\r' ∉ k) → ('\n' ∉ v ∧ '\r' ∉ v) → k.head? ≠ some '手' → k ≠ [] →
      '\n' ∉ k ++ v ∧ '\r' ∉ k ++ v ∧ (k ++ v).takeWhile (· ≠ '：') ≠ "手合割".toList := by
    intro k v h1 h2 h3 h4
    refine ⟨?_, ?_, not_teai ?_⟩
    · simp only [List.mem_append, not_or]; exact ⟨h1.1, h2.1⟩
    · simp only [List.mem_append, not_or]; exact ⟨h1.2, h2.2⟩
    · cases k with
      | nil => exact absurd rfl h4
      | cons c k => exact h3
  have hline : ∀ n t sec sum, (lineText n t sec sum).head? ≠ some '手' := by
    intro n t sec sum hh
    obtain ⟨c, l, e, h3, -⟩ := line_head n t sec sum
    rw [e] at hh
    exact h3.ne (by decide) (by decide) (Option.some.inj hh)
  have hall : ∀ l ∈ headerLines time (.board p) black white ++ (ls ++ [lineText (ms.length + 1) r.text sec sum, resultLine (ms.length + 1) r]),
      '\n' ∉ l ∧ '\r' ∉ l ∧ l.takeWhile (· ≠ '：') ≠ "手合割".toList := by
    intro l hl
    rcases List.mem_append.mp hl with h | h
    · unfold headerLines Start.lines at h
      simp only [List.mem_append, List.mem_cons, List.not_mem_nil, or_false] at h
      rcases h with (rfl | h) | rfl | rfl | rfl
      · exact happ _ _ (by decide) ⟨ht.newline, ht.return_⟩ (by decide) (by decide)
      · exact bodLines_ok hi.views l h
      · exact happ _ _ (by decide) ⟨hb.newline, hb.return_⟩ (by decide) (by decide)
      · exact happ _ _ (by decide) ⟨hw.newline, hw.return_⟩ (by decide) (by decide)
      · decide
    · rcases List.mem_append.mp h with h | h
      · obtain ⟨h1, k, t, sec, sum, rfl⟩ := i2 l h
        exact ⟨(calm_line h1).1, (calm_line h1).2, not_teai (hline _ _ _ _)⟩
      · simp only [List.mem_cons, List.not_mem_nil, or_false] at h
        rcases h with rfl | rfl
        · have := calm_line fun c hc => (reason_calm (ms.length + 1) r sec sum c hc).1
          exact ⟨this.1, this.2, not_teai (hline _ _ _ _)⟩
        · have := calm_line fun c hc => (resultLine_calm (ms.length + 1) r c hc).1
          exact ⟨this.1, this.2, not_teai (by simp [resultLine])⟩
  rw [parse_unlines h0 (fun l hl => ⟨(hall l hl).1, (hall l hl).2.1⟩)] at hs
  refine run_sfen _ ?_ _ _ hs
  intro l hl
  rcases List.mem_append.mp hl with h | h
  · exact (hall l h).2.2
  · rw [List.mem_singleton.mp h]; decide

/-- **C66** fails: the record of a game that begins with few pieces on the board is read without complaint as one from the starting
position. -/
theorem C66_fails : Inv zeroKeys discModel ∧ CheckOK discModel ∧ (absPos discModel).Regular ∧ absPos discModel ≠ startPos ∧
    ∃ record s, exportGame "2026/11/16 10:00:00".toList (.board discModel) "A".toList "B".toList [] .resign 5 80 = some record ∧
      parse zeroKeys record = .ok s ∧ s.sfen = startSfen := by
  obtain ⟨h1, h2, h3, h4⟩ := discModel_ok
  have hb : (match exportGame "2026/11/16 10:00:00".toList (.board discModel) "A".toList "B".toList [] .resign 5 80 with
    | none => false
    | some record => match parse zeroKeys record with
      | .ok s => decide (s.sfen = startSfen)
      | _ => false) = true := by decide +kernel
  refine ⟨h1, h3, h4, ?_, ?_⟩
  · intro h
    have : (absPos discModel).board 0 = startPos.board 0 := by rw [h]
    rw [h2] at this
    revert this; decide
  · split at hb
    · cases hb
    · rename_i record e
      split at hb
      · rename_i s es
        exact ⟨record, s, e, es, of_decide_eq_true hb⟩
      · cases hb

/-! ### C67 -/

/-- Who has won when a game ends for this reason, `side` being the side to move: resigning loses, declaring wins, an impasse and a
repetition are draws. (The reasons about illegal moves are left out.) -/
def Reason.result : Reason → Color → Option Result
  | .resign, side => some (.wins side.opp)
  | .win, side => some (.wins side)
  | .draw, _ => some .draw
  | .sennichite, _ => some .draw
  | _, _ => none

/-- **C67** for games without handicap that end by resignation, impasse or repetition: the parser finds the right winner, and the
seconds spent at the end. -/
theorem C67_even_partial (Z : Zobrist) (r : Reason) (hr : r = .resign ∨ r = .draw ∨ r = .sennichite) :
    ∃ p, setSfen Z startSfen = .ok p ∧ absPos p = startPos ∧
      ∀ ms : List (Move × Nat × Nat), Always LegalOp Z ⟨p, []⟩ (ms.map fun x => .push x.1) →
      ∀ time black white, Field time → Field black → Field white → ∀ sec sum,
      ∃ record s b res, exportGame time .even black white ms r sec sum = some record ∧ parse Z record = .ok s ∧
        Board.run Z ⟨p, []⟩ (ms.map fun x => .push x.1) = some b ∧ r.result b.pos.turn = some res ∧ s.win = some (Csa.winOf res) ∧
        s.times = ms.map (·.2.1) ++ [sec] ∧ s.endgame = some (if r = .resign then "%TORYO".toList else "%SENNICHITE".toList) := by
  obtain ⟨text, p, h1, h2, -, -, h5⟩ := record_read Z (n := "平手") (off := []) (by decide +kernel) (Or.inr ⟨rfl, rfl⟩)
  have h2' : absPos p = startPos := h2.trans (pos_ext (by funext s; simp [handicapPos, startPos]) rfl rfl)
  have ht : text = startSfen := by
    obtain ⟨rec', b, e1, -, -, e4⟩ := h5 [] trivial [] [] [] ⟨by simp, by simp, by simp⟩ ⟨by simp, by simp, by simp⟩
      ⟨by simp, by simp, by simp⟩ .win 0 0
    obtain ⟨y, hy, e5, -, e6⟩ := off_name ("平手", []) (by decide +kernel)
    obtain ⟨q, q1, -⟩ := handicap_read Z (handicaps_ok y hy).1
    obtain ⟨p0, h0, -⟩ := handicap_read Z (x := ("平手".toList, startSfen)) (handicaps_ok _ (by decide +kernel)).1
    have hl : Start.even.lines = ["手合割：".toList ++ y.1] := by rw [e5]; decide
    rw [exportGame_lines (ls := []) rfl] at e1
    rw [← Option.some.inj e1, parse_unlines h0, List.append_assoc, run_header hy q1 hl [] ⟨by simp, by simp, by simp⟩ ⟨by simp, by simp, by simp⟩] at e4
    · have e7 : run Z [lineText 1 Reason.win.text 0 0, resultLine 1 .win, []] _ = _ := e4
      rw [run_end _ rfl rfl] at e7
      have := congrArg (fun x : Out State => match x with | .ok s => s.sfen | _ => []) e7
      simp only at this
      rw [← this, e6 rfl]
    · intro l hl'
      rcases List.mem_append.mp hl' with h | h
      · exact header_plain hy hl ⟨by simp, by simp, by simp⟩ ⟨by simp, by simp, by simp⟩ ⟨by simp, by simp, by simp⟩ l h
      · simp only [List.nil_append, List.mem_cons, List.not_mem_nil, or_false] at h
        rcases h with rfl | rfl
        · exact calm_line fun c hc => (reason_calm _ _ _ _ c hc).1
        · exact calm_line fun c hc => (resultLine_calm _ _ c hc).1
  refine ⟨p, ht ▸ h1, h2', fun ms ho time black white hf1 hf2 hf3 sec sum => ?_⟩
  obtain ⟨record, b, e1, e2, e3, e4⟩ := h5 ms ho time black white hf1 hf2 hf3 r sec sum
  have hturn : p.turn = .black := congrArg Pos.turn h2'
  rw [hturn] at e3
  rcases hr with rfl | rfl | rfl
  · refine ⟨record, _, b, _, e1, e4, e2, rfl, ?_, rfl, rfl⟩
    rw [e3]
    simp only [readEnd]
    rcases Nat.mod_two_eq_zero_or_one ms.length with h | h
    · have h' : (ms.length + 1) % 2 = 1 := by omega
      rw [h, h']; rfl
    · have h' : (ms.length + 1) % 2 = 0 := by omega
      rw [h, h']; rfl
  · exact ⟨record, _, b, _, e1, e4, e2, rfl, rfl, rfl, rfl⟩
  · exact ⟨record, _, b, _, e1, e4, e2, rfl, rfl, rfl, rfl⟩

/-- **C67** fails in every handicap game that ends by resignation: the parser says that the side that resigned has won. The exporter
takes it that Black makes the moves with odd numbers. -/
theorem C67_fails_handicap (Z : Zobrist) {n : String} {off : List Square} (hoff : (n, off) ∈ handicapSquares) (hne : off ≠ []) :
    ∃ text p, setSfen Z text = .ok p ∧ absPos p = handicapPos off ∧
      ∀ ms : List (Move × Nat × Nat), Always LegalOp Z ⟨p, []⟩ (ms.map fun x => .push x.1) →
      ∀ time black white, Field time → Field black → Field white → ∀ sec sum,
      ∃ record s b, exportGame time (.named n.toList) black white ms .resign sec sum = some record ∧ parse Z record = .ok s ∧
        Board.run Z ⟨p, []⟩ (ms.map fun x => .push x.1) = some b ∧ Reason.resign.result b.pos.turn = some (.wins b.pos.turn.opp) ∧
        s.win = some (Csa.winOf (.wins b.pos.turn)) := by
  obtain ⟨text, p, h1, h2, -, -, h5⟩ := record_read Z hoff (Or.inl rfl)
  refine ⟨text, p, h1, h2, fun ms ho time black white hf1 hf2 hf3 sec sum => ?_⟩
  obtain ⟨record, b, e1, e2, e3, e4⟩ := h5 ms ho time black white hf1 hf2 hf3 .resign sec sum
  have hturn : p.turn = .white := by
    have : (absPos p).turn = .white := by rw [h2]; exact if_neg hne
    exact this
  rw [hturn] at e3
  refine ⟨record, _, b, e1, e4, e2, rfl, ?_⟩
  rw [e3]
  simp only [readEnd]
  rcases Nat.mod_two_eq_zero_or_one ms.length with h | h
  · have h' : (ms.length + 1) % 2 = 1 := by omega
    rw [h, h']; rfl
  · have h' : (ms.length + 1) % 2 = 0 := by omega
    rw [h, h']; rfl

/-- **C67** fails for every game won by declaration: the parser finds no winner and no end, and the seconds spent on the declaration
are lost. -/
theorem C67_fails_declaration (Z : Zobrist) {n : String} {off : List Square} (hoff : (n, off) ∈ handicapSquares) {st : Start}
    (hst : st = .named n.toList ∨ st = .even ∧ n = "平手") :
    ∃ text p, setSfen Z text = .ok p ∧ absPos p = handicapPos off ∧
      ∀ ms : List (Move × Nat × Nat), Always LegalOp Z ⟨p, []⟩ (ms.map fun x => .push x.1) →
      ∀ time black white, Field time → Field black → Field white → ∀ sec sum,
      ∃ record s b, exportGame time st black white ms .win sec sum = some record ∧ parse Z record = .ok s ∧
        Board.run Z ⟨p, []⟩ (ms.map fun x => .push x.1) = some b ∧ Reason.win.result b.pos.turn = some (.wins b.pos.turn) ∧
        s.win = none ∧ s.endgame = none ∧ s.times = ms.map (·.2.1) := by
  obtain ⟨text, p, h1, h2, -, -, h5⟩ := record_read Z hoff hst
  refine ⟨text, p, h1, h2, fun ms ho time black white hf1 hf2 hf3 sec sum => ?_⟩
  obtain ⟨record, b, e1, e2, -, e4⟩ := h5 ms ho time black white hf1 hf2 hf3 .win sec sum
  exact ⟨record, _, b, e1, e4, e2, rfl, rfl, rfl, List.append_nil _⟩

/-- Texts that meet the conditions on a field. -/
example : Field "2026/11/16 10:00:00".toList ∧ Field "羽生　善治".toList ∧ Field [] ∧ ¬ Field "A　".toList :=
  ⟨⟨by decide, by decide, by decide⟩, ⟨by decide, by decide, by decide⟩, ⟨by decide, by decide, by decide⟩, fun h => h.space (by decide)⟩

end Verif.Kif
