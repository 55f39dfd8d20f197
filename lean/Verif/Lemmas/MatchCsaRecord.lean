import Verif.Lemmas.MatchCsa
import Verif.Lemmas.Replay
import Verif.Props.MatchRecord

/-!
# The record of a match game: order, listening, and files that cannot be read
-/

namespace Verif.Match
open Spec Bitboard Position Usi

/-! ### The record is in order -/

theorem csaMove_line (P : Pos) (mv : Mv) : '\n' ∉ csaMove P mv := by
  have hd : ∀ s : Square, '\n' ∉ squareDigits s := by decide
  have hn : ∀ k : Kind, '\n' ∉ csaName k := by intro k; cases k <;> decide
  have hs : ∀ c : Color, (if c = .black then '+' else '-') ≠ '\n' := by intro c; cases c <;> decide
  unfold csaMove
  rw [List.mem_cons]
  rintro (h | h)
  · exact hs _ h.symm
  cases mv with
  | move f t pro =>
    simp only [List.mem_append] at h
    rcases h with (h | h) | h
    · exact hd f h
    · exact hd t h
    · cases hb : (P.play (Mv.move f t pro)).board t with
      | none => rw [hb] at h; exact absurd h (by simp)
      | some x => rw [hb] at h; exact hn _ h
  | drop k t =>
    simp only [List.mem_append] at h
    rcases h with (h | h) | h
    · exact absurd h (by decide)
    · exact hd t h
    · exact hn _ h

theorem intercalate_line : ∀ {ws : List (List Char)}, (∀ w ∈ ws, '\n' ∉ w) → '\n' ∉ [' '].intercalate ws
  | [], _ => by simp [List.intercalate]
  | [w], h => by simpa [List.intercalate] using h w (by simp)
  | w :: v :: ws, h => by
    rw [intercalate_two]
    simp only [List.mem_append, List.mem_cons, not_or]
    exact ⟨h w (by simp), by decide, intercalate_line (ws := v :: ws) fun u hu => h u (List.mem_cons_of_mem _ hu)⟩

theorem csaMoves_line : ∀ (mvs : List Mv) (P : Pos), ∀ w ∈ csaMoves P mvs, '\n' ∉ w
  | [], _, w, h => by cases h
  | mv :: mvs, P, w, h => by
    rcases List.mem_cons.mp h with rfl | h
    · exact csaMove_line P mv
    · exact csaMoves_line mvs _ w h

theorem number_range {s : Score} (h : ∀ n, s = .cp n → -2147483647 ≤ n ∧ n ≤ 2147483647) : -2147483647 ≤ s.number ∧ s.number ≤ 2147483647 := by
  cases s with
  | cp n => exact h n rfl
  | mate n => unfold Score.number; dsimp only; split <;> omega
  | mateSoon lost => cases lost <;> decide

theorem note_fine {P : Pos} {s : Spoken} {mv : Mv} (h : ∀ t, s.last = some t → t.Fine P mv) : (s.note P).Fine := by
  unfold Spoken.note
  cases hl : s.last with
  | none => trivial
  | some t =>
    have h := h t hl
    have hr := number_range h.range
    refine ⟨?_, ?_, intercalate_line (csaMoves_line _ _)⟩ <;> unfold forBlack <;> split <;> omega

theorem kept_fine {R : Rules} : ∀ {ss : List Spoken} {P : Pos} {ks : List (Mv × Nat × Note)}, Clean R P ss → Kept P ss ks →
    ∀ k ∈ ks, k.2.1 ≤ 2147483647 ∧ k.2.2.Fine
  | _, _, [], _, _, k, hk => by cases hk
  | [], _, _ :: _, _, h, _, _ => absurd h (by simp [Kept])
  | s :: ss, P, x :: ks, hc, h, k, hk => by
    obtain ⟨-, hsec, -, hmv⟩ := hc
    obtain ⟨h1, h2, h3, h4, h5, h6⟩ := h
    obtain ⟨h7, h8⟩ := (hmv x.1 h1).2 h2
    rcases List.mem_cons.mp hk with rfl | hk
    · exact ⟨by omega, by rw [h5]; exact note_fine h7⟩
    · exact kept_fine h8 h6 k hk

theorem verdict_text {T : Terms} {f : Flag} {st : State} {w : Option Color} {text : String} (h : verdict T f st = .ok (w, text))
    (ht : text ≠ "ILLEGAL_MOVE") : resultOf text st.board.pos.turn = resultOfWin w ∧ (∃ cs, text.toList = '%' :: cs) ∧
      '\n' ∉ text.toList ∧ ',' ∉ text.toList := by
  unfold verdict at h
  cases ho : st.board.pos.isGameOver with
  | none => rw [ho] at h; cases h
  | some over =>
    rw [ho] at h
    dsimp only at h
    by_cases hl : (!over && decide (st.board.pos.gamePly > T.draw)) = true
    · rw [if_pos hl] at h; cases h; exact ⟨rfl, ⟨_, rfl⟩, by decide, by decide⟩
    · rw [if_neg hl] at h
      cases f <;> cases h
      · exact ⟨rfl, ⟨_, rfl⟩, by decide, by decide⟩
      · exact ⟨rfl, ⟨_, rfl⟩, by decide, by decide⟩
      · exact ⟨rfl, ⟨_, rfl⟩, by decide, by decide⟩
      · exact ⟨rfl, ⟨_, rfl⟩, by decide, by decide⟩
      · cases st.board.pos.turn
        · exact ⟨rfl, ⟨_, rfl⟩, by decide, by decide⟩
        · exact ⟨rfl, ⟨_, rfl⟩, by decide, by decide⟩
      · exact absurd rfl ht
      · exact ⟨rfl, ⟨_, rfl⟩, by decide, by decide⟩

theorem take_same {α : Type} {l : List α} {a b : Nat} (h : (l.take a).length = (l.take b).length) : l.take a = l.take b := by
  rw [List.length_take, List.length_take] at h
  rw [List.take_eq_take_iff]; exact h

/-! ### Lines without a score -/

/-- No `s` is followed by a `c`. -/
def noSc : List Char → Bool
  | [] => true
  | c :: l => !(c == 's' && l.head? == some 'c') && noSc l

theorem noSc_absent : ∀ {l : List Char}, noSc l = true → greedy scoreGroups l = none
  | [], _ => by
    rw [greedy]; rfl
  | c :: l, h => by
    rw [noSc, Bool.and_eq_true] at h
    refine greedy_cons_none ?_ (noSc_absent h.2)
    unfold scoreGroups
    dsimp only
    cases e : afterText "score ".toList (c :: l) with
    | none => rfl
    | some r =>
      have := afterText_eq e
      obtain ⟨e1, e2⟩ := List.cons.inj (show c :: l = 's' :: ('c' :: "ore ".toList ++ r) from this)
      rw [e1, e2] at h
      exact absurd h.1 (by simp)

theorem noSc_no_s : ∀ {l : List Char}, 's' ∉ l → noSc l = true
  | [], _ => rfl
  | c :: l, h => by
    rw [List.mem_cons, not_or] at h
    have h1 : (c == 's') = false := by rw [beq_eq_false_iff_ne]; exact fun e => h.1 e.symm
    rw [noSc, noSc_no_s h.2, h1]; rfl

theorem noSc_append : ∀ {a b : List Char}, noSc a = true → a.getLast? ≠ some 's' → noSc b = true → noSc (a ++ b) = true
  | [], _, _, _, h => h
  | [c], b, _, h, hb => by
    have h1 : (c == 's') = false := by rw [beq_eq_false_iff_ne]; rintro rfl; exact h rfl
    show noSc (c :: b) = true
    rw [noSc, hb, h1]; rfl
  | c :: d :: a, b, ha, h, hb => by
    rw [noSc, Bool.and_eq_true] at ha
    show noSc (c :: ((d :: a) ++ b)) = true
    rw [noSc, Bool.and_eq_true]
    exact ⟨by simpa using ha.1, noSc_append ha.2 (by rwa [List.getLast?_cons_cons] at h) hb⟩

theorem usiText_no_s (mv : Mv) : 's' ∉ usiText mv := by
  have h1 : ∀ s : Square, Char.ofNat (49 + s.val / 9) ≠ 's' ∧ Char.ofNat (97 + s.val % 9) ≠ 's' := by decide
  intro hc
  cases mv with
  | move f t pro =>
    simp only [usiText, List.mem_append, List.mem_cons, List.not_mem_nil, or_false] at hc
    rcases hc with (h | h | h | h) | hc
    · exact (h1 f).1 h.symm
    · exact (h1 f).2 h.symm
    · exact (h1 t).1 h.symm
    · exact (h1 t).2 h.symm
    · cases pro
      · cases hc
      · rw [if_pos rfl, List.mem_singleton] at hc; exact absurd hc (by decide)
  | drop h t =>
    simp only [usiText, List.mem_cons, List.not_mem_nil, or_false] at hc
    rcases hc with h' | h' | h' | h'
    · revert h'; cases h <;> decide
    · exact absurd h' (by decide)
    · exact (h1 t).1 h'.symm
    · exact (h1 t).2 h'.symm

theorem joined_no_s : ∀ (ms : List Mv), 's' ∉ joined (ms.map usiText)
  | [] => by simp [joined]
  | [m] => usiText_no_s m
  | m :: m' :: ms => by
    show 's' ∉ usiText m ++ ' ' :: joined ((m' :: ms).map usiText)
    simp only [List.mem_append, List.mem_cons, not_or]
    exact ⟨usiText_no_s m, by decide, joined_no_s (m' :: ms)⟩

/-! ### A line that stops the reader -/

theorem lines_some : ∀ (a : List Char), Csa.lines a ≠ []
  | [] => by simp [Csa.lines]
  | d :: a => by
    rw [Csa.lines]
    split
    · simp
    · split <;> simp

theorem lines_newline : ∀ (a b : List Char), Csa.lines (a ++ '\n' :: b) = Csa.lines a ++ Csa.lines b
  | [], b => by
    show Csa.lines ('\n' :: b) = [] :: Csa.lines b
    rw [Csa.lines, if_pos rfl]
  | c :: a, b => by
    rw [List.cons_append, Csa.lines, Csa.lines, lines_newline a b]
    split
    · rfl
    · cases h : Csa.lines a with
      | nil => exact absurd h (lines_some a)
      | cons l ls => rfl

theorem lines_games : ∀ {t y : List Char} {ys : List (List Char)}, Csa.splitGames t = y :: ys →
    Csa.lines t = Csa.lines y ++ ys.flatMap fun c => ['/'] :: Csa.lines c
  | [], y, ys, h => by
    rw [Csa.splitGames] at h
    obtain ⟨rfl, rfl⟩ := List.cons.inj h
    simp
  | c :: cs, y, ys, h => by
    by_cases hx : ∃ r, c :: cs = '\n' :: '/' :: '\n' :: r
    · obtain ⟨r, hr⟩ := hx
      have hlt : r.length < cs.length + 1 := by
        have := congrArg List.length hr
        simp only [List.length_cons] at this
        omega
      rw [hr, Csa.splitGames] at h
      obtain ⟨rfl, h'⟩ := List.cons.inj h
      clear h
      cases hs : Csa.splitGames r with
      | nil => exact absurd hs (Csa.splitGames_ne r)
      | cons z zs =>
        rw [hs] at h'
        subst h'
        rw [hr, show '\n' :: '/' :: '\n' :: r = [] ++ '\n' :: (['/'] ++ '\n' :: r) from rfl, lines_newline, lines_newline, lines_games hs]
        rfl
    · rw [Csa.splitGames_cons fun r e => hx ⟨r, e⟩] at h
      cases hs : Csa.splitGames cs with
      | nil => exact absurd hs (Csa.splitGames_ne cs)
      | cons z zs =>
        rw [hs] at h
        obtain ⟨rfl, rfl⟩ := List.cons.inj h
        rw [Csa.lines, Csa.lines, lines_games hs]
        split
        · rfl
        · cases hz : Csa.lines z with
          | nil => exact absurd hz (lines_some z)
          | cons l ls => rfl
termination_by t => t.length
decreasing_by all_goals (simp only [List.length_cons]; omega)

theorem run_stops {Z : Zobrist} {stof : List Char → Option Rat} {bad : List Char} (hb : ∀ s, Csa.dispatch Z stof s bad = .error) :
    ∀ {ls : List (List Char)}, bad ∈ ls → ∀ s s', Csa.run Z stof ls s ≠ .ok s'
  | l :: ls, h, s, s', hr => by
    rw [Csa.run] at hr
    cases e : Csa.step Z stof s l with
    | error => rw [e] at hr; cases hr
    | ub => rw [e] at hr; cases hr
    | ok s1 =>
      rw [e] at hr
      rcases List.mem_cons.mp h with rfl | h
      · rw [Csa.step, hb] at e; cases e
      · exact run_stops hb h s1 s' hr

theorem parseAll_stops {Z : Zobrist} {stof : List Char → Option Rat} {bad : List Char} (hb : ∀ s, Csa.dispatch Z stof s bad = .error) :
    ∀ {ts : List (List Char)}, (∃ t ∈ ts, bad ∈ Csa.lines t) → ∀ ss, Csa.parseAll Z stof ts ≠ .ok ss
  | [], ⟨t, ht, _⟩, _, _ => by cases ht
  | t :: ts, ⟨u, hu, hl⟩, ss, hr => by
    rw [Csa.parseAll] at hr
    cases e : Csa.parse Z stof t with
    | error => rw [e] at hr; cases hr
    | ub => rw [e] at hr; cases hr
    | ok s =>
      rw [e, Out.bind_ok] at hr
      rcases List.mem_cons.mp hu with rfl | hu
      · exact run_stops hb hl _ _ e
      · cases e' : Csa.parseAll Z stof ts with
        | error => rw [e'] at hr; cases hr
        | ub => rw [e'] at hr; cases hr
        | ok ss' => exact parseAll_stops hb ⟨u, hu, hl⟩ ss' e'

theorem str_stops {Z : Zobrist} {stof : List Char → Option Rat} {bad : List Char} (hb : ∀ s, Csa.dispatch Z stof s bad = .error) (hs : bad ≠ ['/'])
    {text : List Char} (h : bad ∈ Csa.lines text) (ss : List Csa.State) : Csa.parseStr Z stof text ≠ .ok ss := by
  refine parseAll_stops hb ?_ ss
  cases e : Csa.splitGames text with
  | nil => exact absurd e (Csa.splitGames_ne text)
  | cons y ys =>
    rw [lines_games e, List.mem_append, List.mem_flatMap] at h
    rcases h with h | ⟨c, hc, h⟩
    · exact ⟨y, by simp, h⟩
    · rcases List.mem_cons.mp h with h | h
      · exact absurd h hs
      · exact ⟨c, by simp [hc], h⟩

theorem file_holds {Z : Zobrist} {g : Csa.Game} : ∀ {gs : List Csa.Game} {file0 file : List Char}, Csa.writeFile Z file0 gs = .ok file →
    (∃ r, file = file0 ++ r) ∧ (g ∈ gs → ∃ a text b, Csa.writeGame Z g = .ok text ∧ file = a ++ (text ++ b))
  | [], file0, file, h => by cases h; exact ⟨⟨[], by simp⟩, by simp⟩
  | g' :: gs, file0, file, h => by
    rw [Csa.writeFile] at h
    cases e : Csa.writeGame Z g' with
    | error => rw [e] at h; cases h
    | ub => rw [e] at h; cases h
    | ok x =>
      rw [e, Out.bind_ok] at h
      obtain ⟨⟨r, hr⟩, h2⟩ := file_holds h
      refine ⟨⟨_, by rw [hr, List.append_assoc]⟩, fun hg => ?_⟩
      rcases List.mem_cons.mp hg with rfl | hg
      · exact ⟨file0 ++ (if file0 = [] then [] else ['/', '\n']), x, r, e, by rw [hr]; simp [List.append_assoc]⟩
      · exact h2 hg

theorem writeMoves_newline {sep : Char} : ∀ {ms : List (Move × Option Nat × List Char)} {c : Color} {y : List Char}, Csa.writeMoves sep c ms = some y →
    y = [] ∨ ∃ z, y = z ++ ['\n']
  | [], c, y, h => by cases h; exact .inl rfl
  | (m, t, w) :: ms, c, y, h => by
    rw [Csa.writeMoves, Option.bind_eq_some_iff] at h
    obtain ⟨x, hx, h⟩ := h
    rw [Option.map_eq_some_iff] at h
    obtain ⟨y', hy, rfl⟩ := h
    rw [Csa.writeMove, Option.map_eq_some_iff] at hx
    obtain ⟨k, -, rfl⟩ := hx
    right
    rcases writeMoves_newline hy with rfl | ⟨z, rfl⟩
    · exact ⟨Csa.signChar c :: (k ++ (Csa.sepTime sep t ++ (if w = [] then [] else sep :: '\'' :: w))), by simp⟩
    · exact ⟨_ ++ z, by rw [List.append_assoc]⟩

theorem exportInfo_newline (p : Position) : ∃ z, Csa.exportInfo p = z ++ ['\n'] := by
  unfold Csa.exportInfo
  split
  · exact ⟨"PI\n+".toList, rfl⟩
  · exact ⟨((List.range 9).flatMap fun r => Csa.csaRankLine p.piece r ++ ['\n']) ++ (Csa.printHand (p.hand .black) .black ++
      (Csa.printHand (p.hand .white) .white ++ [Csa.signChar p.turn])), by simp only [Csa.toCsaPos, List.append_assoc, List.cons_append, List.nil_append]⟩

end Verif.Match
