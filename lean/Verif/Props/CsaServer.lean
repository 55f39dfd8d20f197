import Verif.Lemmas.CsaFile
import Verif.Spec.CsaServer

/-!
# C88: ratings and summaries in CSA records
-/

namespace Verif
namespace Csa
open Spec Position

variable (Z : Zobrist) (stof : List Char → Option Rat)

/-! ### Reading one more line -/

/-- The record `a`, which ends with the end of a line, is read as `s`. -/
structure Reads (a : List Char) (s : State) : Prop where
  whole : a = [] ∨ ∃ b, a = b ++ ['\n']
  parsed : parse Z stof a = .ok s

theorem lines_split (b t : List Char) : lines (b ++ '\n' :: t) = lines b ++ lines t := by
  induction b with
  | nil => exact lines_cons [] t (by simp)
  | cons a l ih =>
    rw [List.cons_append, lines, lines, ih]
    split
    · rfl
    · cases h : lines l with
      | nil => cases l <;> simp [lines] at h; (split at h <;> first | cases h | (split at h <;> cases h))
      | cons x y => rfl

theorem run_two (x y : List (List Char)) (s : State) : run Z stof (x ++ y) s = (run Z stof x s).bind (run Z stof y) := by
  induction x generalizing s with
  | nil => rfl
  | cons a l ih =>
    rw [List.cons_append, run, run]
    cases step Z stof s a with
    | ok s' => exact ih s'
    | error => rfl
    | ub => rfl

theorem step_quiet {s s' : State} {l : List Char} (h : step Z stof s l = .ok s') : Quiet s' := by
  unfold step at h
  cases hd : dispatch Z stof s l with
  | error => rw [hd] at h; cases h
  | ub => rw [hd] at h; cases h
  | ok s1 =>
    rw [hd, Out.bind_ok] at h
    split at h
    · cases h1 : parsePosition s1.lines with
      | error => rw [h1] at h; cases h
      | ub => rw [h1] at h; cases h
      | ok x =>
        rw [h1, Out.bind_ok] at h
        cases h2 : setSfen Z x with
        | error => rw [h2] at h; cases h
        | ub => rw [h2] at h; cases h
        | ok q => rw [h2, Out.bind_ok] at h; cases h; exact quiet_of_pos (q := q) rfl
    · cases h; assumption

theorem run_quiet (ls : List (List Char)) : ∀ {s s' : State}, Quiet s → run Z stof ls s = .ok s' → Quiet s' := by
  induction ls with
  | nil => intro s s' hs h; cases h; exact hs
  | cons a l ih =>
    intro s s' hs h
    rw [run] at h
    cases h1 : step Z stof s a with
    | error => rw [h1] at h; cases h
    | ub => rw [h1] at h; cases h
    | ok s1 => rw [h1, Out.bind_ok] at h; exact ih (step_quiet Z stof h1) h

theorem Reads.quiet {a : List Char} {s : State} (h : Reads Z stof a s) : Quiet s :=
  run_quiet Z stof _ (s := {}) (fun h => absurd h.2 (by decide)) h.parsed

theorem step_nil {s : State} (h : Quiet s) : step Z stof s [] = .ok s := by
  rw [step, show dispatch Z stof s [] = .ok s from rfl, Out.bind_ok, if_neg h]

/-- The text goes on after what was read. -/
theorem Reads.next {a : List Char} {s : State} (h : Reads Z stof a s) (t : List Char) : parse Z stof (a ++ t) = run Z stof (lines t) s := by
  rcases h.whole with rfl | ⟨b, rfl⟩
  · have := h.parsed
    rw [parse, show lines [] = [[]] from rfl, run, step_nil Z stof (fun h => absurd h.2 (by decide)), Out.bind_ok] at this
    cases this; rfl
  · have hp := h.parsed
    rw [parse, show b ++ ['\n'] = b ++ '\n' :: [] from rfl, lines_split, run_two] at hp
    rw [parse, List.append_assoc, show ['\n'] ++ t = '\n' :: t from rfl, lines_split, run_two]
    cases h1 : run Z stof (lines b) {} with
    | error => rw [h1] at hp; cases hp
    | ub => rw [h1] at hp; cases hp
    | ok s1 =>
      rw [h1, Out.bind_ok, show lines [] = [[]] from rfl, run,
        step_nil Z stof (run_quiet Z stof _ (s := {}) (fun h => absurd h.2 (by decide)) h1), Out.bind_ok] at hp
      cases hp; rfl

theorem Reads.line {a l : List Char} {s s' : State} (h : Reads Z stof a s) (hl : '\n' ∉ l) (hd : dispatch Z stof s l = .ok s') (hq : Quiet s') :
    Reads Z stof (a ++ (l ++ ['\n'])) s' := by
  refine ⟨.inr ⟨a ++ l, by rw [List.append_assoc]⟩, ?_⟩
  rw [h.next, show l ++ ['\n'] = l ++ '\n' :: [] from rfl, run_line Z stof hl hd hq, show lines [] = [[]] from rfl, run,
    step_nil Z stof hq, Out.bind_ok]; rfl

/-! ### Ratings -/

theorem index_colon {x y : List Char} (hx : ':' ∉ x) : (x ++ ':' :: y).findIdx? (· = ':') = some x.length := by
  induction x with
  | nil => rfl
  | cons a l ih =>
    have ha : a ≠ ':' := fun e => hx (by rw [e]; exact List.mem_cons_self ..)
    rw [List.cons_append, List.findIdx?_cons, if_neg (by simpa using ha), ih fun h => hx (List.mem_cons_of_mem _ h)]
    rfl

theorem find_colon {w x y : List Char} {n : Nat} (hw : w.length = n) (hx : ':' ∉ x) : findFrom (w ++ (x ++ ':' :: y)) ':' n = some (n + x.length) := by
  unfold findFrom
  subst hw
  rw [List.drop_left' rfl, index_colon hx, Option.map_some, Nat.add_comm]

theorem drop_colon {w x y : List Char} {n : Nat} (hw : w.length = n) : (w ++ (x ++ ':' :: y)).drop (n + x.length + 1) = y := by
  have : w ++ (x ++ ':' :: y) = (w ++ (x ++ [':'])) ++ y := by simp
  rw [this, List.drop_left']
  simp; omega

theorem rating_value {s : State} (c : Color) {w name value : List Char} (hw : w.length = 12) (hn : ':' ∉ name) :
    (∀ r, stof value = some r → rating stof s c (w ++ (name ++ ':' :: value)) =
      .ok { s with ratings := fun c' => if c' = c then r else s.ratings c' }) ∧
    (stof value = none → rating stof s c (w ++ (name ++ ':' :: value)) = .error) := by
  unfold rating
  rw [find_colon hw hn]
  dsimp only
  rw [drop_colon hw]
  constructor
  · intro r hr; rw [hr]
  · intro hr; rw [hr]

theorem rating_dispatch (s : State) (c : Color) (name value : List Char) : ∃ w : List Char, w.length = 12 ∧
    dispatch Z stof s (ratingLine c name value) = rating stof s c (w ++ (name ++ ':' :: value)) := by
  cases c
  · exact ⟨"'black_rate:".toList, by decide, rfl⟩
  · exact ⟨"'white_rate:".toList, by decide, rfl⟩

theorem mem_line {w x : List Char} (hw : '\n' ∉ w) (hx : '\n' ∉ x) : '\n' ∉ w ++ x := fun h =>
  (List.mem_append.mp h).elim hw hx

theorem mem_colon {c : Char} {x : List Char} (hc : '\n' ≠ c) (hx : '\n' ∉ x) : '\n' ∉ c :: x := fun h =>
  (List.mem_cons.mp h).elim hc hx

theorem rating_clean (c : Color) {name value : List Char} (hn : '\n' ∉ name) (hv : '\n' ∉ value) : '\n' ∉ ratingLine c name value := by
  unfold ratingLine
  cases c
  · exact mem_line (by decide) (mem_line hn (mem_colon (by decide) hv))
  · exact mem_line (by decide) (mem_line hn (mem_colon (by decide) hv))

/-- **C88, ratings**: the line with the rating of a player whose name has no colon sets the rating of that side and nothing else. -/
theorem C88_rating_partial {a : List Char} {s : State} (h : Reads Z stof a s) (c : Color) (name value : List Char) (r : Rat)
    (hn : ':' ∉ name ∧ '\n' ∉ name) (hv : '\n' ∉ value) (hr : stof value = some r) :
    Reads Z stof (a ++ (ratingLine c name value ++ ['\n'])) { s with ratings := fun c' => if c' = c then r else s.ratings c' } := by
  obtain ⟨w, hw, e⟩ := rating_dispatch Z stof s c name value
  exact h.line Z stof (rating_clean c hn.2 hv) (e.trans ((rating_value stof c hw hn.1).1 r hr)) (show Quiet s from h.quiet)

/-- **C88 fails** for names with a colon: what follows the first colon is taken for the number, and if it is none the whole record is
refused. -/
theorem C88_fails_rating {a : List Char} {s : State} (h : Reads Z stof a s) (c : Color) (x y value rest : List Char) (hx : ':' ∉ x ∧ '\n' ∉ x)
    (hy : '\n' ∉ y) (hv : '\n' ∉ value) (hr : stof (y ++ ':' :: value) = none) :
    parse Z stof (a ++ (ratingLine c (x ++ ':' :: y) value ++ '\n' :: rest)) = .error := by
  have e : ratingLine c (x ++ ':' :: y) value = ratingLine c x (y ++ ':' :: value) := by
    cases c <;> unfold ratingLine <;> rw [List.append_assoc] <;> rfl
  have hl : '\n' ∉ ratingLine c x (y ++ ':' :: value) := rating_clean c hx.2 (mem_line hy (mem_colon (by decide) hv))
  obtain ⟨w, hw, e'⟩ := rating_dispatch Z stof s c x (y ++ ':' :: value)
  rw [h.next, e, lines_cons _ _ hl, run, step, e', (rating_value stof c hw hx.1).2 hr]; rfl

/-! ### Summaries -/

/-- The value of `win` if `winner` won. -/
def named : Option Color → Win
  | none => .draw
  | some .black => .black
  | some .white => .white

theorem take_word {w x : List Char} {n : Nat} (hw : w.length = n) : (w ++ x).take n = w := by
  rw [List.take_left']; exact hw

theorem summary_read {s : State} {reason rest : List Char} (hr : ':' ∉ reason) :
    dispatch Z stof s ("'summary:".toList ++ (reason ++ ':' :: rest)) =
      let s' := { s with comment := s.comment ++ ("'summary:".toList ++ (reason ++ ':' :: rest) ++ ['\n']) }
      if reason = "illegal move".toList then match s'.pos with
        | none => .ub
        | some p => .ok { s' with endgame := "%ILLEGAL_MOVE".toList, lose := some p.turn }
      else if reason = "max_moves".toList then .ok { s' with endgame := "%JISHOGI".toList }
      else if reason = "abnormal".toList then .ok { s' with endgame := "%ERROR".toList }
      else .ok s' := by
  have hd : dispatch Z stof s ("'summary:".toList ++ (reason ++ ':' :: rest)) =
      commentLine stof s ("'summary:".toList ++ (reason ++ ':' :: rest)) := rfl
  have h1 : ¬ (("'summary:".toList ++ (reason ++ ':' :: rest)).take 12 = "'black_rate:".toList) := fun e =>
    absurd (List.cons.inj (List.cons.inj e).2).1 (by decide)
  have h2 : ¬ (("'summary:".toList ++ (reason ++ ':' :: rest)).take 12 = "'white_rate:".toList) := fun e =>
    absurd (List.cons.inj (List.cons.inj e).2).1 (by decide)
  have h3 : ¬ (("'summary:".toList ++ (reason ++ ':' :: rest)).take 4 = "'** ".toList) := fun e =>
    absurd (List.cons.inj (List.cons.inj e).2).1 (by decide)
  obtain ⟨w, hw⟩ : ∃ w, w = "'summary:".toList := ⟨_, rfl⟩
  have hw9 : w.length = 9 := by rw [hw]; decide
  rw [hd]
  unfold commentLine
  rw [if_neg h1, if_neg h2, if_neg h3]
  unfold summary
  rw [← hw, if_pos (take_word hw9), find_colon hw9 hr]
  dsimp only
  have h4 : ((w ++ (reason ++ ':' :: rest)).drop 9).take (9 + reason.length - 9) = reason := by
    rw [List.drop_left' hw9, Nat.add_sub_cancel_left, List.take_left' rfl]
  rw [h4]
  rfl

theorem summary_clean {reason black white : List Char} {winner : Option Color} (hr : '\n' ∉ reason) (hb : '\n' ∉ black) (hw : '\n' ∉ white) :
    '\n' ∉ summaryLine reason black white winner := by
  have hv : ∀ c, '\n' ∉ verdictWord winner c := by
    intro c
    rcases winner with _ | w
    · exact (by decide : '\n' ∉ "draw".toList)
    · show '\n' ∉ (if w = c then "win".toList else "lose".toList)
      split <;> decide
  exact mem_line (by decide) (mem_line hr (mem_colon (by decide) (mem_line hb (mem_colon (by decide) (mem_line (hv _)
    (mem_colon (by decide) (mem_line hw (mem_colon (by decide) (hv _)))))))))

/-- What a summary changes: the comment, the end of the game for three reasons, and the loser for one. -/
theorem C88_effect {a : List Char} {s : State} (h : Reads Z stof a s) {p : Position} (hp : s.pos = some p) (reason black white : List Char)
    (winner : Option Color) (hr : ':' ∉ reason ∧ '\n' ∉ reason) (hb : '\n' ∉ black) (hw : '\n' ∉ white) :
    Reads Z stof (a ++ (summaryLine reason black white winner ++ ['\n']))
      { s with
        comment := s.comment ++ (summaryLine reason black white winner ++ ['\n'])
        endgame := (reasonWord reason).getD s.endgame
        lose := if reason = "illegal move".toList then some p.turn else s.lose } := by
  obtain ⟨rest, hrest⟩ : ∃ rest, summaryLine reason black white winner = "'summary:".toList ++ (reason ++ ':' :: rest) := ⟨_, rfl⟩
  refine h.line Z stof (summary_clean hr.2 hb hw) ?_ (show Quiet s from h.quiet)
  rw [hrest, summary_read Z stof hr.1]
  dsimp only
  unfold reasonWord
  rw [hp]
  by_cases e1 : reason = "illegal move".toList
  · simp only [if_pos e1, Option.getD_some]
  · by_cases e2 : reason = "max_moves".toList
    · simp only [if_neg e1, if_pos e2, Option.getD_some]
    · by_cases e3 : reason = "abnormal".toList
      · simp only [if_neg e1, if_neg e2, if_pos e3, Option.getD_some]
      · simp only [if_neg e1, if_neg e2, if_neg e3, Option.getD_none]

/-- **C88, summaries**: the winner is the one the summary names if the reason is an illegal move of the side to move, or the limit on the
number of moves and no loser was known, or a reason that is not looked at and the record has the right winner already. -/
theorem C88_summary_partial {a : List Char} {s : State} (h : Reads Z stof a s) {p : Position} (hp : s.pos = some p) (reason black white : List Char)
    (winner : Option Color) (hr : ':' ∉ reason ∧ '\n' ∉ reason) (hb : '\n' ∉ black) (hw : '\n' ∉ white)
    (hcase : (reason = "illegal move".toList ∧ winner = some p.turn.opp) ∨
      (reason ≠ "illegal move".toList ∧ s.win = named winner)) :
    ∃ s', Reads Z stof (a ++ (summaryLine reason black white winner ++ ['\n'])) s' ∧
      s'.win = named winner ∧
      s'.endgame = (reasonWord reason).getD s.endgame ∧ s'.moves = s.moves ∧ s'.times = s.times ∧ s'.scores = s.scores ∧
      s'.comments = s.comments ∧ s'.names = s.names ∧ s'.ratings = s.ratings ∧ s'.sfen = s.sfen ∧
      s'.comment = s.comment ++ (summaryLine reason black white winner ++ ['\n']) := by
  refine ⟨_, C88_effect Z stof h hp reason black white winner hr hb hw, ?_, rfl, rfl, rfl, rfl, rfl, rfl, rfl, rfl, rfl⟩
  rcases hcase with ⟨e1, rfl⟩ | ⟨e1, e2⟩
  · unfold State.win
    simp only [if_pos e1]
    cases p.turn <;> rfl
  · rw [← e2]
    unfold State.win
    simp only [if_neg e1]

/-- **C88 fails** for every other reason: if no loser is known before, the game counts as a draw whoever the summary says won. Floodgate gives
such summaries for broken connections (`abnormal`) and perpetual check (`oute_sennichite`). -/
theorem C88_fails_winner {a : List Char} {s : State} (h : Reads Z stof a s) {p : Position} (hp : s.pos = some p) (hs : s.win = .draw)
    (reason black white : List Char) (w : Color) (hr : ':' ∉ reason ∧ '\n' ∉ reason) (hb : '\n' ∉ black) (hw : '\n' ∉ white)
    (hn : reason ≠ "illegal move".toList) :
    ∃ s', Reads Z stof (a ++ (summaryLine reason black white (some w) ++ ['\n'])) s' ∧ s'.win = .draw := by
  refine ⟨_, C88_effect Z stof h hp reason black white (some w) hr hb hw, ?_⟩
  rw [← hs]
  unfold State.win
  simp only [if_neg hn]

/-- **C88 fails** for an illegal move that the record contains: the loser is then taken to be the other side. -/
theorem C88_fails_side {a : List Char} {s : State} (h : Reads Z stof a s) {p : Position} (hp : s.pos = some p) (black white : List Char)
    (hb : '\n' ∉ black) (hw : '\n' ∉ white) :
    ∃ s', Reads Z stof (a ++ (summaryLine "illegal move".toList black white (some p.turn) ++ ['\n'])) s' ∧
      s'.win = match p.turn with | .black => .white | .white => .black := by
  refine ⟨_, C88_effect Z stof h hp _ black white _ (by decide) hb hw, ?_⟩
  unfold State.win
  simp only [if_true]
  cases p.turn <;> rfl

/-! ### Cases -/

/-- Read, with White to move and no loser. -/
def oneMoveB : Out State → Bool
  | .ok s => s.lose == none && match s.pos with | some p => p.turn == .white | none => false
  | _ => false

/-- The hypotheses are met by a record of one move. -/
theorem oneMove_reads : ∃ s p, Reads zeroKeys (fun _ => some 1500) "PI\n+\n+7776FU\n".toList s ∧ s.pos = some p ∧ p.turn = .white ∧ s.win = .draw := by
  have hb : oneMoveB (parse zeroKeys (fun _ => some 1500) "PI\n+\n+7776FU\n".toList) = true := by decide +kernel
  have hw : ∃ b, "PI\n+\n+7776FU\n".toList = b ++ ['\n'] := ⟨"PI\n+\n+7776FU".toList, by decide⟩
  revert hb hw
  obtain ⟨a, ha⟩ : ∃ a, a = "PI\n+\n+7776FU\n".toList := ⟨_, rfl⟩
  rw [← ha]
  cases h : parse zeroKeys (fun _ => some 1500) a with
  | error => intro hb; cases hb
  | ub => intro hb; cases hb
  | ok s =>
    intro hb hw
    simp only [oneMoveB, Bool.and_eq_true, beq_iff_eq] at hb
    cases hp : s.pos with
    | none => rw [hp] at hb; cases hb.2
    | some p =>
      rw [hp] at hb
      refine ⟨s, p, ⟨.inr hw, h⟩, hp, by simpa using hb.2, ?_⟩
      unfold State.win; rw [hb.1]

example : ∃ s, Reads zeroKeys (fun _ => some 1500) ("PI\n+\n+7776FU\n".toList ++ (summaryLine "illegal move".toList "A".toList "B".toList (some .black) ++ ['\n'])) s ∧
    s.win = .black ∧ s.endgame = "%ILLEGAL_MOVE".toList := by
  obtain ⟨s, p, h1, h2, h3, h4⟩ := oneMove_reads
  obtain ⟨s', e1, e2, e3, -⟩ := C88_summary_partial _ _ h1 h2 "illegal move".toList "A".toList "B".toList (some .black) (by decide) (by decide) (by decide)
    (.inl ⟨rfl, by rw [h3]; rfl⟩)
  exact ⟨s', e1, e2, e3⟩

/-- Black wins because White's connection broke, and the game counts as a draw. -/
theorem C88_fails : ∃ s, Reads zeroKeys (fun _ => some 1500)
    ("PI\n+\n+7776FU\n".toList ++ (summaryLine "abnormal".toList "A".toList "B".toList (some .black) ++ ['\n'])) s ∧ s.win = .draw := by
  obtain ⟨s, p, h1, h2, h3, h4⟩ := oneMove_reads
  exact C88_fails_winner _ _ h1 h2 h4 "abnormal".toList "A".toList "B".toList .black (by decide) (by decide) (by decide) (by decide)

example : ∃ s, Reads zeroKeys (fun _ => some 1500) ("PI\n+\n+7776FU\n".toList ++ (ratingLine .white "A".toList "1500".toList ++ ['\n'])) s ∧
    s.ratings .white = 1500 := by
  obtain ⟨s, p, h1, h2, h3, h4⟩ := oneMove_reads
  exact ⟨_, C88_rating_partial _ _ h1 .white "A".toList "1500".toList 1500 (by decide) (by decide) rfl, by simp⟩

end Csa
end Verif
