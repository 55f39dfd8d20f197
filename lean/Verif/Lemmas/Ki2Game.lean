import Verif.Lemmas.Ki2Moves
import Verif.Props.Kif

/-!
# Lemmas about KI2 records: whole games
-/

namespace Verif.Ki2
open Position Kif Spec

theorem parseMoves_one {Z : Zobrist} {b b' : Board} {line : List Char} {h : Hit} {m : Move} (h1 : moveRe (normalise line) = some (h, []))
    (h2 : findMove b h = .ok m) (h3 : playLegal Z b m = .ok b') {n : Nat} (hn : 2 ≤ n) : parseMoves Z n b line = .ok ([m], b') := by
  obtain ⟨k, rfl⟩ : ∃ k, n = k + 2 := ⟨n - 2, by omega⟩
  unfold parseMoves
  rw [parseLoop, List.drop_zero, h1]
  simp only [h2, h3, Out.bind, List.length_nil, Nat.sub_zero, List.nil_append]
  rw [parseLoop, List.drop_length]
  rfl

theorem legal_push {Z : Zobrist} {b : Board} (hg : Csa.Good Z b.pos) {mv : Mv} (hm : (absPos b.pos).Legal mv) :
    ∃ b', b.push Z (encode b.pos mv) = some b' ∧ playLegal Z b (encode b.pos mv) = .ok b' ∧ Csa.Good Z b'.pos ∧ b'.pos.turn = b.pos.turn.opp := by
  obtain ⟨p', e1, g1, g2⟩ := hg.doMove hm
  have hpush : b.push Z (encode b.pos mv) = some ⟨p', .move (encode b.pos mv) :: b.hist⟩ := by
    unfold Board.push; rw [e1]; rfl
  have hlegal : b.pos.isLegal (encode b.pos mv) = some true := by
    obtain ⟨l, e, hl⟩ := C27_listed_partial _ hg.inv.views hg.check hg.regular
    obtain ⟨l', e', -, hl'⟩ := genLegal_spec hg.inv.views hg.check hg.regular
    rw [e] at e'
    cases e'
    exact hl _ ((hl' _).mpr ⟨mv, rfl, hm⟩)
  refine ⟨_, hpush, ?_, g1, ?_⟩
  · unfold playLegal; rw [hlegal]; simp only [hpush]
  · have := congrArg Pos.turn g2
    rw [play_turn] at this
    exact this

/-- Pushes of legal moves that need little to be told apart. -/
def PlainOp (b : Board) : Op → Prop
  | .push m => ∃ mv, m = encode b.pos mv ∧ (absPos b.pos).Legal mv ∧ (absPos b.pos).Plain mv
  | _ => False

/-- An empty comment is not written. -/
def said : Option (List Char) → Option (List Char)
  | some (x :: xs) => some (x :: xs)
  | _ => none

theorem run_cons {Z : Zobrist} {n : Nat} {s s' : State} {l : List Char} {ls : List (List Char)} (h : step Z n s l = .ok (s', false)) :
    run Z n (l :: ls) s = run Z n ls s' := by
  rw [run, h]; rfl

theorem step_move {Z : Zobrist} {s : State} (hg : Csa.Good Z s.board.pos) {mv : Mv} (hm : (absPos s.board.pos).Legal mv)
    (hpl : (absPos s.board.pos).Plain mv) :
    ∃ t b', moveToKi2 s.board (encode s.board.pos mv) = some t ∧ s.board.push Z (encode s.board.pos mv) = some b' ∧ Csa.Good Z b'.pos ∧
      b'.pos.turn = s.board.pos.turn.opp ∧ ('\n' ∉ t ∧ '\r' ∉ t) ∧
      ∀ n, 2 ≤ n → step Z n s t = .ok ({ s with moves := s.moves ++ [encode s.board.pos mv], board := b' }, false) := by
  obtain ⟨t, h, e1, e2, e3, e4⟩ := move_read hg hm hpl
  obtain ⟨b', p1, p2, p3, p4⟩ := legal_push hg hm
  refine ⟨_, b', e1, p1, p3, p4, ⟨fun hh => (e4 _ hh).2.1 rfl, fun hh => (e4 _ hh).2.2 rfl⟩, fun n hn => ?_⟩
  have hc : ∀ c : Color, turnChar c ≠ '*' ∧ turnChar c ≠ 'ま' := by intro c; cases c <;> decide
  unfold step
  dsimp only
  rw [if_neg (hc _).1, if_neg (fun hh => (e4 _ hh).1 rfl)]
  unfold otherLine
  have hr : resultRe (turnChar s.board.pos.turn :: t) = none := by
    unfold resultRe behind
    rw [if_neg]
    · rfl
    · have := (hc s.board.pos.turn).2
      simp [List.isPrefixOf, Ne.symm this]
  rw [hr]
  simp only [parseMoves_one e2 e3 p2 hn, Out.bind]

/-- All moves of a game. -/
theorem run_moves {Z : Zobrist} (ms : List (Move × Option (List Char))) : ∀ (s : State), Csa.Good Z s.board.pos →
    Always PlainOp Z s.board (ms.map fun x => .push x.1) → (∀ x ∈ ms, ∀ c ∈ x.2, '\n' ∉ c ∧ '\r' ∉ c) → s.comments.length ≤ s.moves.length →
    ∃ ls b cs, exportMoves Z s.board ms = some (ls, b) ∧ (∀ l ∈ ls, '\n' ∉ l ∧ '\r' ∉ l) ∧
      Board.run Z s.board (ms.map fun x => .push x.1) = some b ∧ Csa.Good Z b.pos ∧
      cs.length ≤ s.moves.length + ms.length ∧
      cs ++ List.replicate (s.moves.length + ms.length - cs.length) none =
        s.comments ++ List.replicate (s.moves.length - s.comments.length) none ++ (ms.map fun x => said x.2) ∧
      ∀ n, 2 ≤ n → ∀ rest, run Z n (ls ++ rest) s = run Z n rest { s with moves := s.moves ++ ms.map (·.1), comments := cs, board := b } := by
  induction ms with
  | nil =>
    intro s hg ho hcm hlen
    refine ⟨[], s.board, s.comments, rfl, by simp, rfl, hg, by simpa using hlen, by simp, fun n hn rest => ?_⟩
    simp
  | cons x ms ih =>
    obtain ⟨m, c⟩ := x
    intro s hg ho hcm hlen
    obtain ⟨⟨mv, rfl, hm, hpl⟩, hrest⟩ := ho
    obtain ⟨t, b', e1, e2, e3, e4, e5, e6⟩ := step_move hg hm hpl
    have hcm' : ∀ x ∈ ms, ∀ c ∈ x.2, '\n' ∉ c ∧ '\r' ∉ c := fun x hx => hcm x (List.mem_cons_of_mem _ hx)
    -- the state after the move and its comment
    obtain ⟨cs0, h1, h2, h3, h4⟩ : ∃ cs0 : List (Option (List Char)), cs0.length ≤ s.moves.length + 1 ∧
        cs0 ++ List.replicate (s.moves.length + 1 - cs0.length) none =
          s.comments ++ List.replicate (s.moves.length - s.comments.length) none ++ [said c] ∧
        (∀ l ∈ commentLines c, '\n' ∉ l ∧ '\r' ∉ l) ∧
        ∀ n rest, run Z n (commentLines c ++ rest) { s with moves := s.moves ++ [encode s.board.pos mv], board := b' } =
          run Z n rest { s with moves := s.moves ++ [encode s.board.pos mv], board := b', comments := cs0 } := by
      have hnone : s.comments.length ≤ s.moves.length + 1 ∧ s.comments ++ List.replicate (s.moves.length + 1 - s.comments.length) none =
          s.comments ++ List.replicate (s.moves.length - s.comments.length) none ++ [(none : Option (List Char))] := by
        refine ⟨by omega, ?_⟩
        rw [show s.moves.length + 1 - s.comments.length = (s.moves.length - s.comments.length) + 1 by omega, List.replicate_succ', List.append_assoc]
      match c, hcm (encode s.board.pos mv, c) (by simp) with
      | none, _ => exact ⟨s.comments, hnone.1, hnone.2, by simp [commentLines], fun n rest => rfl⟩
      | some [], _ => exact ⟨s.comments, hnone.1, hnone.2, by simp [commentLines], fun n rest => rfl⟩
      | some (y :: ys), hc =>
        refine ⟨s.comments ++ (List.replicate (s.moves.length - s.comments.length) none ++ [some (y :: ys)]), ?_, ?_, ?_, ?_⟩
        · simp only [List.length_append, List.length_replicate, List.length_cons, List.length_nil]; omega
        · have e : s.moves.length + 1 - (s.comments ++ (List.replicate (s.moves.length - s.comments.length) none ++ [some (y :: ys)])).length = 0 := by
            simp only [List.length_append, List.length_replicate, List.length_cons, List.length_nil]; omega
          rw [e]
          simp [said]
        · intro l hl
          rw [show l = '*' :: '*' :: y :: ys from List.mem_singleton.mp hl]
          have hcc := hc (y :: ys) rfl
          refine ⟨fun hh => ?_, fun hh => ?_⟩
          · rcases List.mem_cons.mp hh with hh | hh
            · exact absurd hh (by decide)
            · rcases List.mem_cons.mp hh with hh | hh
              · exact absurd hh (by decide)
              · exact hcc.1 hh
          · rcases List.mem_cons.mp hh with hh | hh
            · exact absurd hh (by decide)
            · rcases List.mem_cons.mp hh with hh | hh
              · exact absurd hh (by decide)
              · exact hcc.2 hh
        · intro n rest
          refine run_cons ?_
          unfold step
          dsimp only
          rw [if_pos rfl]
          unfold commentLine
          rw [if_neg (by simp)]
          simp only [List.length_append, List.length_cons, List.length_nil, List.take_succ_cons, List.take_zero, if_true, List.drop_succ_cons, List.drop_zero]
          rw [show s.moves.length + (0 + 1) - s.comments.length - 1 = s.moves.length - s.comments.length by omega]
    obtain ⟨ls, b, cs, i1, i2, i3, i4, i5, i6, i7⟩ := ih
      { s with moves := s.moves ++ [encode s.board.pos mv], board := b', comments := cs0 } e3 (hrest b' e2) hcm' (by simpa using h1)
    simp only [List.length_append, List.length_cons, List.length_nil, Nat.zero_add] at i5 i6 h1
    refine ⟨t :: (commentLines c ++ ls), b, cs, ?_, ?_, ?_, i4, ?_, ?_, fun n hn rest => ?_⟩
    · rw [exportMoves, e1]
      simp only [Option.bind_some, e2]
      have i1' : exportMoves Z b' ms = some (ls, b) := i1
      rw [i1']
      rfl
    · intro l hl
      rcases List.mem_cons.mp hl with rfl | hl
      · exact e5
      · rcases List.mem_append.mp hl with hl | hl
        · exact h3 l hl
        · exact i2 l hl
    · show (s.board.push Z (encode s.board.pos mv)).bind _ = _
      rw [e2]; exact i3
    · simp only [List.length_cons]; omega
    · simp only [List.length_cons, List.map_cons]
      rw [show s.moves.length + (ms.length + 1) = s.moves.length + 1 + ms.length by omega, i6, h2]
      simp
    · rw [List.cons_append, run_cons (e6 n hn), List.append_assoc, h4, i7 n hn]
      simp [List.append_assoc]

/-! ### Header and result -/

theorem step_key {Z : Zobrist} (n : Nat) (s : State) (k v : List Char) (hne : k ≠ []) (h : ∀ c ∈ k, Calm c) :
    step Z n s (k ++ '：' :: v) = (keyLine Z s k (rstrip v)).bind fun s => .ok (s, false) := by
  obtain ⟨c, k', rfl⟩ := List.exists_cons_of_ne_nil hne
  have hstar : c ≠ '*' := fun e => (h c (by simp)).2.2.2.1 e
  have hcol : ∀ x ∈ c :: k', (decide (x ≠ '：')) = true := fun x hx => by simpa using (h x hx).2.2.1
  unfold step
  rw [List.cons_append]
  dsimp only
  rw [if_neg hstar, if_pos (by simp), ← List.cons_append, takeWhile_append_all hcol (by simp), dropWhile_append_all hcol (by simp)]
  rfl

/-- The header, read. -/
theorem run_header {Z : Zobrist} {q : Position} (hq : setSfen Z startSfen = .ok q) (n : Nat) (time : List Char) {black white : List Char}
    (hb : Kif.Field black) (hw : Kif.Field white) (p0 : Position) (rest : List (List Char)) :
    run Z n (headerLines time black white ++ rest) { board := ⟨p0, []⟩ } = run Z n rest
      { names := fun c => if c = .white then some white else if c = .black then some black else none, board := ⟨q, []⟩ } := by
  unfold headerLines
  simp only [List.cons_append, List.nil_append]
  obtain ⟨n1, h1⟩ : ∃ n : Color → Option (List Char), n = fun c => if c = .black then some black else none := ⟨_, rfl⟩
  obtain ⟨n2, h2⟩ : ∃ n : Color → Option (List Char), n = fun c =>
    if c = .white then some white else if c = .black then some black else none := ⟨_, rfl⟩
  rw [← h2, run_cons (s' := { board := ⟨p0, []⟩ }), run_cons (s' := { board := ⟨q, []⟩ }), run_cons (s' := { board := ⟨q, []⟩, names := n1 }),
    run_cons (s' := { board := ⟨q, []⟩, names := n2 }), run_cons (s' := { board := ⟨q, []⟩, names := n2 }) rfl]
  · refine (step_key n _ ['後', '手'] white (by decide) (by decide)).trans ?_
    rw [rstrip_id hw.space, h2, h1]
    rfl
  · refine (step_key n _ ['先', '手'] black (by decide) (by decide)).trans ?_
    rw [rstrip_id hb.space, h1]
    rfl
  · refine (step_key n _ ['手', '合', '割'] ['平', '手'] (by decide) (by decide)).trans ?_
    rw [show rstrip ['平', '手'] = ['平', '手'] by decide]
    unfold keyLine
    rw [if_neg (by decide), if_neg (by decide), if_neg (by decide), if_pos (by decide),
      show handicaps.find? (fun x => x.1 = ['平', '手']) = some ("平手".toList, startSfen) by decide +kernel]
    simp only [hq, Out.bind]
  · exact (step_key n _ ['開', '始', '日', '時'] time (by decide) (by decide)).trans rfl

/-- What the reader makes of the end, as the writer writes it. -/
def readEnd (turn : Color) : Reason → Csa.Win × List Char
  | .toryo => (if turn = .white then .black else .white, "%TORYO".toList)
  | .jishogi => (.draw, "%JISHOGI".toList)
  | .kachi => (if turn = .black then .black else .white, "%KACHI".toList)
  | .sennichite => (.draw, "%SENNICHITE".toList)
  | .illegalAction _ => if turn = .white then (.black, "%+ILLEGAL_ACTION".toList) else (.white, "%-ILLEGAL_ACTION".toList)
  | .illegalMove => (if turn = .white then .white else .black, "%ILLEGAL_MOVE".toList)

theorem result_read (turn : Color) (r : Reason) (k : Nat) :
    (resultRe ("まで".toList ++ (natChars k ++ ("手で".toList ++ r.tail turn)))).map outcome = some (some (readEnd turn r).1, (readEnd turn r).2) := by
  have e : Kif.resultRe (['ま', 'で'] ++ (natChars k ++ (['手', 'で'] ++ r.tail turn))) = resultRe ("まで".toList ++ (natChars k ++ ("手で".toList ++ r.tail turn))) := by
    unfold Kif.resultRe resultRe
    show (behind "まで".toList (['ま', 'で'] ++ (natChars k ++ (['手', 'で'] ++ r.tail turn)))).bind _ =
      (behind "まで".toList (['ま', 'で'] ++ (natChars k ++ (['手', 'で'] ++ r.tail turn)))).bind _
    have hb : behind "まで".toList (['ま', 'で'] ++ (natChars k ++ (['手', 'で'] ++ r.tail turn))) = some (natChars k ++ (['手', 'で'] ++ r.tail turn)) := by
      unfold behind
      rw [if_pos (by simp [List.isPrefixOf])]
      rfl
    rw [hb]
    simp only [Option.bind_some]
    cases hn : natChars k with
    | nil => exact absurd hn (natChars_ne_nil k)
    | cons c l =>
      have : c ≠ '、' := by
        have := natChars_isDigit (n := k) c (by rw [hn]; simp)
        rintro rfl
        revert this; decide
      simp only [List.cons_append, if_neg this]
  rw [← e, resultRe_line]
  cases turn <;> rcases r with _ | _ | _ | _ | c | _ <;> first | rfl | decide | (cases c <;> decide)

theorem natChars_no {x : Char} (hx : x.isDigit = false) (n : Nat) : x ∉ natChars n := fun h => by
  rw [natChars_isDigit (n := n) x h] at hx; cases hx

theorem tail_plain (turn : Color) (r : Reason) : '：' ∉ r.tail turn ∧ '\n' ∉ r.tail turn ∧ '\r' ∉ r.tail turn := by
  cases turn <;> rcases r with _ | _ | _ | _ | c | _ <;> first | decide | (cases c <;> decide)

theorem resultLine_plain (b : Board) (r : Reason) : '：' ∉ resultLine b r ∧ '\n' ∉ resultLine b r ∧ '\r' ∉ resultLine b r := by
  obtain ⟨h1, h2, h3⟩ := tail_plain b.pos.turn r
  unfold resultLine
  simp only [List.mem_append, not_or]
  exact ⟨⟨by decide, natChars_no (by decide) _, by decide, h1⟩, ⟨by decide, natChars_no (by decide) _, by decide, h2⟩,
    by decide, natChars_no (by decide) _, by decide, h3⟩

theorem run_end {Z : Zobrist} (n : Nat) (s : State) (b : Board) (r : Reason) (rest : List (List Char)) : run Z n (resultLine b r :: rest) s =
    .ok { s with win := some (readEnd b.pos.turn r).1, endgame := (readEnd b.pos.turn r).2 } := by
  have h := result_read b.pos.turn r (r.number b)
  obtain ⟨h', e1, e2⟩ := Option.map_eq_some_iff.mp h
  have hs : step Z n s (resultLine b r) = otherLine Z n s (resultLine b r) := by
    unfold step
    rw [show resultLine b r = 'ま' :: ('で' :: (natChars (r.number b) ++ ("手で".toList ++ r.tail b.pos.turn))) from rfl]
    dsimp only
    rw [if_neg (by decide), if_neg]
    exact (resultLine_plain b r).1
  rw [run, hs]
  unfold otherLine
  rw [show resultRe (resultLine b r) = some h' from e1]
  simp only [Out.bind, if_true, e2]

/-- A whole record, read. -/
theorem record_read (Z : Zobrist) : ∃ p, setSfen Z startSfen = .ok p ∧ absPos p = startPos ∧ p.gamePly = 1 ∧ Csa.Good Z p ∧
    ∀ ms : List (Move × Option (List Char)), Always PlainOp Z ⟨p, []⟩ (ms.map fun x => .push x.1) →
    (∀ x ∈ ms, ∀ c ∈ x.2, '\n' ∉ c ∧ '\r' ∉ c) →
    ∀ time black white, Kif.Field time → Kif.Field black → Kif.Field white → ∀ r,
    ∃ record b s, exportGame Z time black white ms r = .ok (some (record, b)) ∧ Board.run Z ⟨p, []⟩ (ms.map fun x => .push x.1) = some b ∧
      (∀ n, 2 ≤ n → parse Z n record = .ok s) ∧ s.sfen = startSfen ∧ s.names .black = some black ∧ s.names .white = some white ∧
      s.moves = ms.map (·.1) ∧ (s.comments = ms.map fun x => said x.2) ∧ s.board = b ∧
      s.win = some (readEnd b.pos.turn r).1 ∧ s.endgame = (readEnd b.pos.turn r).2 := by
  obtain ⟨y, hy, e5, e7, e6⟩ := off_name ("平手", []) (by decide +kernel)
  obtain ⟨p, q1, q2, q3, q4⟩ := handicap_read Z (handicaps_ok y hy).1
  rw [e6 rfl] at q1
  rw [e7] at q2
  refine ⟨p, q1, q2.trans (pos_ext (by funext s; simp [handicapPos, startPos]) rfl rfl), q3, q4, fun ms ho hcm time black white ht hb hw r => ?_⟩
  obtain ⟨ls, b, cs, i1, i2, i3, i4, i5, i6, i7⟩ := Ki2.run_moves ms
    { names := fun c => if c = .white then some white else if c = .black then some black else none, board := ⟨p, []⟩ } q4 ho hcm (by simp)
  have hlines : ∀ l ∈ headerLines time black white ++ (ls ++ [resultLine b r]), '\n' ∉ l ∧ '\r' ∉ l := by
    have happ : ∀ (k v : List Char), ('\n' ∉ k ∧ '\r' ∉ k) → ('\n' ∉ v ∧ '\r' ∉ v) → '\n' ∉ k ++ v ∧ '\r' ∉ k ++ v := by
      intro k v h1 h2
      simp only [List.mem_append, not_or]
      exact ⟨⟨h1.1, h2.1⟩, ⟨h1.2, h2.2⟩⟩
    intro l hl
    rcases List.mem_append.mp hl with hl | hl
    · unfold headerLines at hl
      simp only [List.mem_cons, List.not_mem_nil, or_false] at hl
      rcases hl with rfl | rfl | rfl | rfl | rfl
      · exact happ _ _ (by decide) ⟨ht.newline, ht.return_⟩
      · decide
      · exact happ _ _ (by decide) ⟨hb.newline, hb.return_⟩
      · exact happ _ _ (by decide) ⟨hw.newline, hw.return_⟩
      · decide
    · rcases List.mem_append.mp hl with hl | hl
      · exact i2 l hl
      · rw [List.mem_singleton.mp hl]
        exact (resultLine_plain b r).2
  obtain ⟨nm, hnm⟩ : ∃ nm : Color → Option (List Char), nm = fun c =>
    if c = .white then some white else if c = .black then some black else none := ⟨_, rfl⟩
  obtain ⟨w, e, hw', he'⟩ : ∃ w e, w = (readEnd b.pos.turn r).1 ∧ e = (readEnd b.pos.turn r).2 := ⟨_, _, rfl, rfl⟩
  obtain ⟨s, hs⟩ : ∃ s : State, s = { names := nm, moves := ms.map (·.1), comments := cs, board := b, win := some w, endgame := e } := ⟨_, rfl⟩
  refine ⟨unlines (headerLines time black white ++ (ls ++ [resultLine b r])), b, filled s, ?_, i3, fun n hn => ?_, ?_⟩
  · unfold exportGame
    rw [q1]
    simp only [Out.bind]
    have i1' : exportMoves Z ⟨p, []⟩ ms = some (ls, b) := i1
    rw [i1']
    simp [List.append_assoc]
  · have hr : '\r' ∉ unlines (headerLines time black white ++ (ls ++ [resultLine b r])) := by
      intro hh
      obtain ⟨l, hl, hm⟩ := List.mem_flatMap.mp hh
      rcases List.mem_append.mp hm with hm | hm
      · exact (hlines l hl).2 hm
      · revert hm; decide
    unfold parse
    rw [q1]
    simp only [Out.bind]
    rw [unixNewlines_id hr]
    have := splitAt_unlines (headerLines time black white ++ (ls ++ [resultLine b r])) [] fun l hl => (hlines l hl).1
    rw [List.append_nil] at this
    rw [this, List.append_assoc, Ki2.run_header q1 n time hb hw, List.append_assoc, i7 n hn, List.singleton_append, Ki2.run_end, hs, hnm, hw', he']
    rfl
  · rw [hs, hnm, ← hw', ← he']
    refine ⟨rfl, rfl, rfl, rfl, ?_, rfl, rfl, rfl⟩
    simpa [filled] using i6

end Verif.Ki2
