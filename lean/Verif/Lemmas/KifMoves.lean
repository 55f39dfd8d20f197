import Verif.Lemmas.KifGame

/-!
# Reading back the lines of a KIF record
-/

namespace Verif.Kif
open Spec Position

/-! ### Moves -/

/-- The characters of a square's name. -/
def fileCh (t : Square) : Char := (fileChars[t.val / 9]?).getD ' '
/-- The same for the rank. -/
def rankCh (t : Square) : Char := (rankChars[t.val % 9]?).getD ' '

theorem squareName_spec : ∀ t : Square, squareName t.val = some [fileCh t, rankCh t] ∧ fileCh t ∈ fileChars ∧ rankCh t ∈ rankChars ∧
    ((indexOf fileChars (fileCh t)).bind fun x => (indexOf rankChars (rankCh t)).map fun y => y + x * 9) = some t.val := by
  decide +kernel

theorem fromName_spec : ∀ s : Square, fromName s.val = some [digitCh (s.val / 9 + 1), digitCh (s.val % 9 + 1)] ∧
    (digitCh (s.val / 9 + 1)).isDigit = true ∧ (digitCh (s.val % 9 + 1)).isDigit = true ∧ digitCh (s.val / 9 + 1) ≠ '0' ∧
    square? (((digitVal (digitCh (s.val % 9 + 1)) : Int) - 1) + ((digitVal (digitCh (s.val / 9 + 1)) : Int) - 1) * 9) = some s := by
  decide +kernel

theorem pieceSymbol_spec (k : Kind) : ∃ c i, pieceSymbol k.code = some [c] ∧ c ∈ pieceChars ∧ indexOf pieceChars c = some i := by
  cases k
  · exact ⟨'歩', 0, by decide, by decide, by decide⟩
  · exact ⟨'香', 1, by decide, by decide, by decide⟩
  · exact ⟨'桂', 2, by decide, by decide, by decide⟩
  · exact ⟨'銀', 3, by decide, by decide, by decide⟩
  · exact ⟨'角', 4, by decide, by decide, by decide⟩
  · exact ⟨'飛', 5, by decide, by decide, by decide⟩
  · exact ⟨'金', 6, by decide, by decide, by decide⟩
  · exact ⟨'玉', 7, by decide, by decide, by decide⟩
  · exact ⟨'と', 8, by decide, by decide, by decide⟩
  · exact ⟨'杏', 9, by decide, by decide, by decide⟩
  · exact ⟨'圭', 10, by decide, by decide, by decide⟩
  · exact ⟨'全', 11, by decide, by decide, by decide⟩
  · exact ⟨'馬', 12, by decide, by decide, by decide⟩
  · exact ⟨'龍', 13, by decide, by decide, by decide⟩

theorem handChar_spec (h : HKind) : ∃ c i, handChars[h.code]? = some c ∧ c ∈ pieceChars ∧ indexOf pieceChars c = some i ∧
    i + 1 = h.kind.code := by
  cases h
  · exact ⟨'歩', 0, by decide, by decide, by decide, by decide⟩
  · exact ⟨'香', 1, by decide, by decide, by decide, by decide⟩
  · exact ⟨'桂', 2, by decide, by decide, by decide, by decide⟩
  · exact ⟨'銀', 3, by decide, by decide, by decide, by decide⟩
  · exact ⟨'金', 6, by decide, by decide, by decide, by decide⟩
  · exact ⟨'角', 4, by decide, by decide, by decide, by decide⟩
  · exact ⟨'飛', 5, by decide, by decide, by decide, by decide⟩

/-- The destination as written and as read. -/
theorem dest_spec (b : Board) (m prev : Move) (t : Square) (ht : m.dst = t.val) (hprev : prev = peek b) :
    ∃ d, destName m prev = some (destChars d) ∧ DestOK d ∧ destSquare b d = some t.val := by
  obtain ⟨h1, h2, h3, h4⟩ := squareName_spec t
  unfold destName
  rw [ht, h1, Option.map_some]
  by_cases hs : prev ≠ 0#32 ∧ prev.dst = t.val
  · refine ⟨none, by rw [if_pos hs]; rfl, trivial, ?_⟩
    rw [destSquare, ← hprev, hs.2]
  · exact ⟨some (fileCh t, rankCh t), by rw [if_neg hs]; rfl, ⟨h2, h3⟩, h4⟩

/-- The text of a move, and how it is read. -/
theorem move_text {b : Board} (hp : Consistent b.pos) {mv : Mv} (hm : (absPos b.pos).Pseudo mv) {prev : Move} (hprev : prev = peek b) :
    ∃ d c a, moveToKif (encode b.pos mv) prev = some (destChars d ++ (c :: actChars a)) ∧ DestOK d ∧ c ∈ pieceChars ∧ ActOK a ∧
      buildMove b d c a = .ok (encode b.pos mv) := by
  cases mv with
  | move f t pro =>
    obtain ⟨h1, h2, h3⟩ := src_eq b.pos f t pro
    have hd : (boardMove b.pos.piece f t pro).isDrop = false := encode_isDrop b.pos f t pro
    have hpt : (boardMove b.pos.piece f t pro).pieceTypeFrom = pieceType (b.pos.piece f) := by
      have hf := C01_board_move_fields b.pos.piece f t pro
      simp only [readBoardMove, Prod.mk.injEq] at hf
      exact hf.2.2.1
    obtain ⟨k, hk, -⟩ := hm
    have hcode : pieceType (b.pos.piece f) = k.code := by
      rw [hp.code f, hk]
      generalize (absPos b.pos).turn = c
      cases c <;> cases k <;> rfl
    obtain ⟨c, i, e1, e2, e3⟩ := pieceSymbol_spec k
    obtain ⟨n1, n2, n3, n4, n5⟩ := fromName_spec f
    obtain ⟨d, d1, d2, d3⟩ := dest_spec b (boardMove b.pos.piece f t pro) prev t h2 hprev
    refine ⟨d, c, .board pro (digitCh (f.val / 9 + 1)) (digitCh (f.val % 9 + 1)), ?_, d2, e2, ⟨n2, n3⟩, ?_⟩
    · unfold moveToKif
      simp only [encode, d1, Option.bind_some, hd, hpt, hcode, e1, h1, n1, h3, Option.map_some]
      cases pro <;> simp [actChars]
    · unfold buildMove
      simp only [e3, d3]
      rw [if_neg (fun h => n4 h.1), n5]
      have : square? (t.val : Int) = some t := by
        unfold square?
        rw [dif_pos ⟨by omega, by have := t.isLt; omega⟩]
        simp
      simp only [this]
      rfl
  | drop h t =>
    obtain ⟨-, h1, hd, h2, -⟩ := drop_fields h t
    obtain ⟨c, i, e1, e2, e3, e4⟩ := handChar_spec h
    obtain ⟨d, d1, d2, d3⟩ := dest_spec b (makeDropMove h.kind.code t.val) prev t h1 hprev
    have hh : (makeDropMove h.kind.code t.val).handPieceDropped = h.code := by
      unfold Move.handPieceDropped
      rw [h2]
      cases h <;> rfl
    refine ⟨d, c, .drop, ?_, d2, e2, trivial, ?_⟩
    · unfold moveToKif
      simp only [encode, d1, Option.bind_some, hd, if_true, hh, e1, Option.map_some]
      rfl
    · unfold buildMove
      simp only [e3, d3, e4]
      rfl

theorem padding_space (m : Move) : ∀ x ∈ padding m, x = ' ' := by
  unfold padding
  split
  · decide
  · split
    · decide
    · decide

/-! ### Steps of the parser -/

/-- Characters without a special meaning for the loop. -/
def Calm (c : Char) : Prop := c ≠ '\n' ∧ c ≠ '\r' ∧ c ≠ '：' ∧ c ≠ '*' ∧ c ≠ '王' ∧ c ≠ '竜'

instance (c : Char) : Decidable (Calm c) := inferInstanceAs (Decidable (_ ∧ _))

theorem Okc.calm {c : Char} (h : Okc c) : Calm c :=
  ⟨h.ne (by decide) (by decide), h.ne (by decide) (by decide), h.ne (by decide) (by decide), h.ne (by decide) (by decide),
    h.ne (by decide) (by decide), h.ne (by decide) (by decide)⟩

theorem step_other {Z : Zobrist} (s : State) {line : List Char} (h : ∀ c ∈ line, Calm c) (hne : line ≠ []) :
    step Z s line = otherLine Z s line := by
  cases line with
  | nil => exact absurd rfl hne
  | cons c l =>
    rw [step, if_neg (h c (by simp)).2.2.2.1, if_neg]
    intro hh
    exact (h _ hh).2.2.1 rfl

theorem lineText_ne_nil (n : Nat) (t : List Char) (sec sum : Nat) : lineText n t sec sum ≠ [] := by
  simp [lineText, numberText]

theorem peek_push {Z : Zobrist} {b b' : Board} {m : Move} (h : b.push Z m = some b') : peek b' = m := by
  unfold Board.push at h
  cases hd : doMove Z b.pos m with
  | none => rw [hd] at h; cases h
  | some p => rw [hd] at h; cases h; rfl

/-- A line with a legal move. -/
theorem step_move {Z : Zobrist} {s : State} (hg : Csa.Good Z s.board.pos) {mv : Mv} (hm : (absPos s.board.pos).Legal mv) {prev : Move}
    (hprev : prev = peek s.board) (n sec sum : Nat) :
    ∃ t b', moveToKif (encode s.board.pos mv) prev = some t ∧ s.board.push Z (encode s.board.pos mv) = some b' ∧ Csa.Good Z b'.pos ∧
      b'.pos.turn = s.board.pos.turn.opp ∧
      (∀ c ∈ lineText n (t ++ padding (encode s.board.pos mv)) sec sum, Calm c) ∧
      step Z s (lineText n (t ++ padding (encode s.board.pos mv)) sec sum) =
        .ok ({ s with moves := s.moves ++ [encode s.board.pos mv], times := s.times ++ [sec], board := b' }, false) := by
  obtain ⟨d, c, a, h1, h2, h3, h4, h5⟩ := move_text hg.inv.views hm.1.1 hprev
  obtain ⟨p', e1, g1, g2⟩ := hg.doMove hm
  obtain ⟨r1, r2⟩ := moveRe_move n h2 h3 h4 (padding_space (encode s.board.pos mv)) sec sum
  have hcalm : ∀ c ∈ _, Calm c := fun c hc => (r2 c hc).calm
  have hpush : s.board.push Z (encode s.board.pos mv) = some ⟨p', .move (encode s.board.pos mv) :: s.board.hist⟩ := by
    unfold Board.push; rw [e1]; rfl
  have hlegal : s.board.pos.isLegal (encode s.board.pos mv) = some true := by
    obtain ⟨l, e, hl⟩ := C27_listed_partial _ hg.inv.views hg.check hg.regular
    obtain ⟨l', e', -, hm'⟩ := genLegal_spec hg.inv.views hg.check hg.regular
    rw [e] at e'; cases e'
    exact hl _ ((hm' _).mpr ⟨mv, rfl, hm⟩)
  refine ⟨_, _, h1, hpush, g1, ?_, hcalm, ?_⟩
  · have := congrArg Pos.turn g2
    rw [play_turn] at this
    exact this
  · rw [step_other s hcalm (lineText_ne_nil _ _ _ _)]
    unfold otherLine parseMove
    rw [r1]
    simp only [readTime, seconds_clock, Out.bind, h5, addMove, hlegal, hpush]
    rfl

/-- All moves of a game. -/
theorem run_moves {Z : Zobrist} (ms : List (Move × Nat × Nat)) : ∀ (n : Nat) (prev : Move) (s : State), Csa.Good Z s.board.pos →
    prev = peek s.board → Always LegalOp Z s.board (ms.map fun x => .push x.1) →
    ∃ ls b, exportMoves n prev ms = some (unlines ls) ∧ (∀ l ∈ ls, (∀ c ∈ l, Calm c) ∧ ∃ k t sec sum, l = lineText k t sec sum) ∧
      Board.run Z s.board (ms.map fun x => .push x.1) = some b ∧ Csa.Good Z b.pos ∧
      (b.pos.turn = if ms.length % 2 = 0 then s.board.pos.turn else s.board.pos.turn.opp) ∧
      ∀ rest, run Z (ls ++ rest) s =
        run Z rest { s with moves := s.moves ++ ms.map (·.1), times := s.times ++ ms.map (·.2.1), board := b } := by
  induction ms with
  | nil =>
    intro n prev s hg hprev ho
    refine ⟨[], s.board, rfl, by simp, rfl, hg, by simp, fun rest => ?_⟩
    simp
  | cons x ms ih =>
    obtain ⟨m, sec, sum⟩ := x
    intro n prev s hg hprev ho
    obtain ⟨⟨mv, rfl, hm⟩, hrest⟩ := ho
    obtain ⟨t, b', e1, e2, e3, e4, e5, e6⟩ := step_move hg hm hprev n sec sum
    obtain ⟨ls, b, i1, i2, i3, i4, i5, i6⟩ := ih (n + 1) (encode s.board.pos mv)
      { s with moves := s.moves ++ [encode s.board.pos mv], times := s.times ++ [sec], board := b' } e3 (peek_push e2).symm
      (hrest b' e2)
    refine ⟨lineText n (t ++ padding (encode s.board.pos mv)) sec sum :: ls, b, ?_, ?_, ?_, i4, ?_, fun rest => ?_⟩
    · rw [exportMoves, exportMove, e1]
      simp only [Option.map_some, Option.bind_some, i1, tableLine_eq]
      rfl
    · intro l hl
      rcases List.mem_cons.mp hl with rfl | hl
      · exact ⟨e5, _, _, _, _, rfl⟩
      · exact i2 l hl
    · show (s.board.push Z (encode s.board.pos mv)).bind _ = _
      rw [e2]; exact i3
    · rw [i5]
      simp only [List.length_cons, e4, opp_opp]
      rcases Nat.mod_two_eq_zero_or_one ms.length with h | h
      · rw [if_pos h, if_neg (by omega)]
      · rw [if_neg (by omega), if_pos (by omega)]
    · rw [List.cons_append, run, e6]
      simp only [Out.bind, Bool.false_eq_true, if_false]
      rw [i6]
      simp [List.append_assoc]

/-! ### The end -/

/-- What the reader makes of the end, as the writer writes it; `n` is the number of the next move. -/
def readEnd (n : Nat) : Reason → Option Csa.Win × Option (List Char)
  | .resign => (some (if n % 2 = 0 then .black else .white), some "%TORYO".toList)
  | .win => (none, none)
  | .draw => (some .draw, some "%SENNICHITE".toList)
  | .sennichite => (some .draw, some "%SENNICHITE".toList)
  | .illegalWin => (some (if n % 2 = 0 then .black else .white),
      some (if n % 2 = 0 then "%+ILLEGAL_ACTION".toList else "%-ILLEGAL_ACTION".toList))
  | .illegalLose => (some (if n % 2 = 0 then .white else .black), some "%ILLEGAL_MOVE".toList)

/-- The number in the line about the result. -/
def endNumber (n : Nat) (r : Reason) : Nat := if r = .draw then n + 1 else n - 1

/-- What follows the number. -/
def endTail (n : Nat) : Reason → List Char
  | .resign => lastSide n ++ "の勝ち".toList
  | .draw => "持将棋".toList
  | .win => "入玉宣言".toList
  | .sennichite => "千日手".toList
  | .illegalWin => lastSide n ++ "の反則勝ち".toList
  | .illegalLose => lastSide n ++ "の反則負け".toList

/-- The line about the result without its newline. -/
def resultLine (n : Nat) (r : Reason) : List Char :=
  ['ま', 'で'] ++ (natChars (endNumber n r) ++ (['手', 'で'] ++ endTail n r))

theorem resultLine_eq (n : Nat) (r : Reason) : r.line n = resultLine n r ++ ['\n'] := by
  cases r <;> simp [Reason.line, resultLine, endNumber, endTail]

theorem endTail_calm (n : Nat) (r : Reason) : ∀ c ∈ endTail n r, Calm c ∧ c ≠ '成' := by
  unfold endTail lastSide
  rcases Nat.mod_two_eq_zero_or_one n with h | h
  · rw [if_pos h]
    cases r <;> decide
  · rw [if_neg (by omega)]
    cases r <;> decide

theorem natChars_calm (n : Nat) : ∀ c ∈ natChars n, Calm c ∧ c ≠ '成' := by
  intro c hc
  refine ⟨Okc.calm (Or.inl (natChars_isDigit c hc)), ?_⟩
  rintro rfl
  exact natChars_noPro n (by decide) hc

theorem resultLine_calm (n : Nat) (r : Reason) : ∀ c ∈ resultLine n r, Calm c ∧ c ≠ '成' := by
  intro c hc
  simp only [resultLine, List.mem_append] at hc
  rcases hc with h | h | h | h
  · revert c; decide
  · exact natChars_calm _ c h
  · revert c; decide
  · exact endTail_calm n r c h

theorem Calm.normalise {l : List Char} (h : ∀ c ∈ l, Calm c ∧ c ≠ '成') : normalise l = l :=
  normalise_id (fun hh => (h _ hh).1.2.2.2.2.1 rfl) (fun hh => (h _ hh).1.2.2.2.2.2 rfl)
    (ProOK.of_none fun hh => (h _ hh).2 rfl)

/-- The part of the pattern behind the number. -/
def resultWord (l : List Char) : Option ResultHit :=
  match l with
  | [] => none
  | c :: r =>
    if c ∈ ['先', '下', '後', '上'] then
      (behind "手の".toList r).bind fun r =>
        (firstWord ["勝ち".toList, "入玉勝ち".toList, "反則勝ち".toList, "反則負け".toList] r).map fun x => .side c x.1
    else (firstWord ["千日手".toList, "持将棋".toList, "中断".toList] l).map fun x => .word x.1

theorem resultRe_line (k : Nat) (t : List Char) :
    resultRe (['ま', 'で'] ++ (natChars k ++ (['手', 'で'] ++ t))) = resultWord t := by
  obtain ⟨d, l, hd, hn⟩ := natChars_head k
  have hne : digitCh d ≠ '、' := by
    intro h
    have := digitCh_isDigit hd
    rw [h] at this; revert this; decide
  have e : resultRe (['ま', 'で'] ++ (natChars k ++ (['手', 'で'] ++ t))) = resultTail (natChars k ++ (['手', 'で'] ++ t)) := by
    rw [hn]
    show (match digitCh d :: (l ++ ('手' :: 'で' :: t)) with
      | [] => none
      | c :: r => if c = '、' then resultTail r else resultTail (digitCh d :: (l ++ ('手' :: 'で' :: t)))) = _
    simp only [if_neg hne]
    rfl
  rw [e]
  have h2 : ∀ c ∈ (['手', 'で'] ++ t).head?, Char.isDigit c = false := by intro c hc; cases hc; decide
  unfold resultTail
  rw [takeWhile_append_all natChars_isDigit h2, dropWhile_append_all natChars_isDigit h2, if_neg (natChars_ne_nil k)]
  rfl

theorem resultWord_tail (n : Nat) (r : Reason) :
    ((resultWord (endTail n r)).map outcome).map (fun x => (x.1, some x.2)) = if r = .win then none else some (readEnd n r) := by
  unfold endTail readEnd lastSide
  rcases Nat.mod_two_eq_zero_or_one n with h | h
  · simp only [if_pos h]
    cases r <;> decide +kernel
  · simp only [if_neg (show ¬ n % 2 = 0 by omega)]
    cases r <;> decide +kernel

/-- The line about the result. -/
theorem step_result {Z : Zobrist} (s : State) (n : Nat) (r : Reason) : step Z s (resultLine n r) =
    if r = .win then .ok (s, false) else .ok ({ s with win := (readEnd n r).1, endgame := (readEnd n r).2 }, true) := by
  have hc := resultLine_calm n r
  rw [step_other s (fun c h => (hc c h).1) (by simp [resultLine])]
  unfold otherLine parseMove
  rw [Calm.normalise hc]
  have hm : moveRe (resultLine n r) = none := by
    unfold moveRe
    exact if_pos (Or.inl rfl)
  rw [hm]
  have hre : resultRe (resultLine n r) = resultWord (endTail n r) := resultRe_line _ _
  have ht := resultWord_tail n r
  simp only [Out.bind, hre]
  cases hw : resultWord (endTail n r) with
  | none =>
    rw [hw] at ht
    by_cases hr : r = .win
    · rw [if_pos hr]
    · rw [if_neg hr] at ht; cases ht
  | some x =>
    rw [hw] at ht
    by_cases hr : r = .win
    · rw [if_pos hr] at ht; cases ht
    · rw [if_neg hr] at ht ⊢
      simp only [Option.map_some, Option.some.injEq] at ht
      rw [← ht]

theorem reason_calm (n : Nat) (r : Reason) (sec sum : Nat) : ∀ c ∈ lineText n r.text sec sum, Calm c ∧ c ≠ '成' := by
  have h1 : ∀ c ∈ r.text, Calm c ∧ c ≠ '成' := by cases r <;> decide
  have h2 : ∀ c ∈ "      ".toList, Calm c ∧ c ≠ '成' := by decide
  intro c hc
  simp only [lineText, List.mem_append] at hc
  rcases hc with h | h | h | h
  · exact ⟨(number_okc n c h).1.calm, (number_okc n c h).2⟩
  · exact h1 c h
  · exact h2 c h
  · exact ⟨(clock_okc sec sum c h).1.calm, (clock_okc sec sum c h).2⟩

theorem readBody_reason (r : Reason) (l : List Char) : ∃ sp, (∀ c ∈ sp, c = ' ') ∧
    readBody (r.text ++ l) = if r = .win then none else some (.ending (r.text.takeWhile (· ≠ ' ')), sp ++ l) := by
  refine ⟨r.text.dropWhile (· ≠ ' '), ?_, ?_⟩
  · cases r <;> decide
  · cases r <;> rfl

theorem line_head (n : Nat) (t : List Char) (sec sum : Nat) : ∃ c l, lineText n t sec sum = c :: l ∧ Okc c ∧ c ≠ '　' := by
  obtain ⟨d, l, hd, hn⟩ := natChars_head n
  have e : lineText n t sec sum = List.replicate (4 - (natChars n).length) ' ' ++ (natChars n ++ ([' '] ++ (t ++ ("      ".toList ++ clock sec sum)))) := by
    simp [lineText, numberText, rjust, List.append_assoc]
  rw [e]
  cases hk : 4 - (natChars n).length with
  | zero =>
    rw [hn]
    refine ⟨_, _, rfl, Or.inl (digitCh_isDigit hd), ?_⟩
    intro h
    have := digitCh_isDigit hd
    rw [h] at this; revert this; decide
  | succ k => exact ⟨' ', _, by rw [List.replicate_succ]; rfl, Or.inr (by decide), by decide⟩

/-- The last line of the table. -/
theorem step_end {Z : Zobrist} (s : State) (n : Nat) (r : Reason) (sec sum : Nat) : step Z s (lineText n r.text sec sum) =
    .ok ({ s with times := s.times ++ if r = .win then [] else [sec] }, false) := by
  have hc := reason_calm n r sec sum
  rw [step_other s (fun c h => (hc c h).1) (lineText_ne_nil _ _ _ _)]
  unfold otherLine parseMove
  rw [Calm.normalise hc]
  obtain ⟨sp, h1, h2⟩ := readBody_reason r ("      ".toList ++ clock sec sum)
  have hsp : ∀ x ∈ "      ".toList, x = ' ' := by decide
  have hm : moveRe (lineText n r.text sec sum) = if r = .win then none else
      some (.ending (r.text.takeWhile (· ≠ ' ')), some (natChars (sec / 60) ++ ':' :: zpad 2 (sec % 60))) := by
    unfold lineText
    rw [moveRe_line n _ (by intro c hh; cases r <;> cases hh <;> decide), h2]
    by_cases hr : r = .win
    · rw [if_pos hr, if_pos hr]; rfl
    · rw [if_neg hr, if_neg hr]
      simp only [Option.map_some]
      rw [← List.append_assoc, dropWhile_append_all, readClock_clock]
      · intro x hx
        rcases List.mem_append.mp hx with h | h
        · rw [h1 x h]; decide
        · rw [hsp x h]; decide
      · intro x hx
        cases hx; decide
  rw [hm]
  by_cases hr : r = .win
  · rw [if_pos hr, if_pos hr]
    have hre : resultRe (lineText n r.text sec sum) = none := by
      have hx : ∀ (c : Char) (l : List Char), c ≠ '　' → c ≠ 'ま' → resultRe (c :: l) = none := by
        intro c l h1 h2
        unfold resultRe
        rw [List.dropWhile_cons, if_neg (by simpa using h1)]
        have : behind "まで".toList (c :: l) = none := by
          unfold behind
          rw [if_neg]
          show ¬ (List.isPrefixOf ['ま', 'で'] (c :: l) = true)
          simp only [List.isPrefixOf, Bool.and_eq_true, beq_iff_eq]
          exact fun h => h2 h.1.symm
        rw [this]; rfl
      obtain ⟨c, l, e, h3, h4⟩ := line_head n r.text sec sum
      rw [e]
      exact hx c l h4 (h3.ne (by decide) (by decide))
    simp [Out.bind, hre]
  · rw [if_neg hr, if_neg hr]
    simp only [readTime, seconds_clock, Out.bind]

theorem run_cons {Z : Zobrist} {s s' : State} {l : List Char} {ls : List (List Char)} (h : step Z s l = .ok (s', false)) :
    run Z (l :: ls) s = run Z ls s' := by
  rw [run, h]; rfl

/-- The end of a record. -/
theorem run_end {Z : Zobrist} (s : State) (hw : s.win = none) (he : s.endgame = none) (n : Nat) (r : Reason) (sec sum : Nat) :
    run Z [lineText n r.text sec sum, resultLine n r, []] s =
      .ok { s with times := s.times ++ (if r = .win then [] else [sec]), win := (readEnd n r).1, endgame := (readEnd n r).2 } := by
  rw [run_cons (step_end s n r sec sum), run, step_result]
  by_cases hr : r = .win
  · subst hr
    simp only [if_true, Out.bind, run, step, readEnd, List.append_nil, Bool.false_eq_true, if_false]
    cases s
    simp only at hw he
    rw [hw, he]
  · simp only [if_neg hr, Out.bind, if_true]

/-! ### The header -/

theorem step_key {Z : Zobrist} (s : State) (k v : List Char) (hne : k ≠ []) (h : ∀ c ∈ k, Calm c) :
    step Z s (k ++ '：' :: v) = (keyLine Z s k (rstrip v)).bind fun s => .ok (s, false) := by
  have h1 : ∀ c ∈ k, decide (c ≠ '：') = true := fun c hc => by simpa using (h c hc).2.2.1
  have h2 : ∀ c ∈ ('：' :: v).head?, decide (c ≠ '：') = false := by intro c hc; cases hc; rfl
  have e1 := takeWhile_append_all h1 h2
  have e2 := dropWhile_append_all h1 h2
  obtain ⟨c, l, e⟩ : ∃ c l, k ++ '：' :: v = c :: l ∧ c ≠ '*' := by
    cases k with
    | nil => exact absurd rfl hne
    | cons c l => exact ⟨c, l ++ '：' :: v, rfl, (h c (by simp)).2.2.2.1⟩
  have hm : '：' ∈ k ++ '：' :: v := by simp
  rw [e.1] at e1 e2 hm ⊢
  rw [step, if_neg e.2, if_pos hm, e1, e2]
  rfl

theorem rstrip_id {v : List Char} (h : v.getLast? ≠ some '　') : rstrip v = v := by
  unfold rstrip
  have : v.reverse.dropWhile (fun c => decide (c = '　')) = v.reverse := by
    cases hr : v.reverse with
    | nil => rfl
    | cons c l =>
      rw [List.dropWhile_cons, if_neg]
      intro hh
      apply h
      rw [List.getLast?_eq_head?_reverse, hr]
      simpa using hh
  rw [this, List.reverse_reverse]

theorem step_banner {Z : Zobrist} (s : State) : step Z s "手数----指手---------消費時間--".toList = .ok (s, false) := by
  rw [step_other s (by decide +kernel) (by decide)]
  unfold otherLine parseMove
  have h1 : moveRe (normalise "手数----指手---------消費時間--".toList) = none := by
    have : (moveRe (normalise "手数----指手---------消費時間--".toList)).isNone = true := by decide +kernel
    exact Option.isNone_iff_eq_none.mp this
  have h2 : resultRe "手数----指手---------消費時間--".toList = none := by
    have : (resultRe "手数----指手---------消費時間--".toList).isNone = true := by decide +kernel
    exact Option.isNone_iff_eq_none.mp this
  rw [h1]
  simp only [Out.bind, h2]

end Verif.Kif
