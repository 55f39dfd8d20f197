import Verif.Props.Csa
import Verif.Model.CsaFile
import Verif.Spec.CsaFile

/-!
# Lemmas for whole CSA files
-/

namespace Verif
namespace Csa
open Spec Position

variable (Z : Zobrist) (stof : List Char → Option Rat)

/-! ### Comment lines -/

theorem prefix_take {w l : List Char} {n : Nat} (hw : w.length = n) (h : l.take n = w) : w <+: l := by
  rw [← h]; exact List.take_prefix _ _

theorem plain_commentLine {l : List Char} (h : PlainLine l) (s : State) :
    commentLine stof s ('\'' :: l) = .ok { s with comment := s.comment ++ ('\'' :: (l ++ ['\n'])) } := by
  have hb : ¬ (('\'' :: l).take 12 = "'black_rate:".toList) := fun e =>
    h.2 "black_rate:" (by decide) (prefix_take (n := 11) (by decide) (List.cons.inj e).2)
  have hw : ¬ (('\'' :: l).take 12 = "'white_rate:".toList) := fun e =>
    h.2 "white_rate:" (by decide) (prefix_take (n := 11) (by decide) (List.cons.inj e).2)
  have hs : ¬ (('\'' :: l).take 4 = "'** ".toList) := fun e =>
    h.2 "** " (by decide) (prefix_take (n := 3) (by decide) (List.cons.inj e).2)
  have hm : ¬ (('\'' :: l).take 9 = "'summary:".toList) := fun e =>
    h.2 "summary:" (by decide) (prefix_take (n := 8) (by decide) (List.cons.inj e).2)
  unfold commentLine
  rw [if_neg hb, if_neg hw, if_neg hs]
  unfold summary
  rw [if_neg hm]
  rfl

/-- A state in which the position is not waiting to be set. -/
def Quiet (s : State) : Prop := ¬ (s.pos.isNone = true ∧ s.turnSeen = true)

theorem quiet_of_pos {s : State} {q : Position} (h : s.pos = some q) : Quiet s := by
  intro h'; rw [h] at h'; exact absurd h'.1 (by simp)

theorem run_comment (ls : List (List Char)) (h : ∀ l ∈ ls, PlainLine l) : ∀ (s : State), Quiet s → ∀ rest,
    run Z stof (lines (commentText ls ++ rest)) s = run Z stof (lines rest) { s with comment := s.comment ++ commentText ls } := by
  induction ls with
  | nil => intro s _ rest; simp [commentText]
  | cons l ls ih =>
    intro s hs rest
    have hl := h l (by simp)
    have e1 : lines (commentText (l :: ls) ++ rest) = ('\'' :: l) :: lines (commentText ls ++ rest) := by
      rw [← lines_cons ('\'' :: l) _ (by simpa using hl.1)]
      simp [commentText]
    have e2 : step Z stof s ('\'' :: l) = .ok { s with comment := s.comment ++ ('\'' :: (l ++ ['\n'])) } := by
      have hd : dispatch Z stof s ('\'' :: l) = commentLine stof s ('\'' :: l) := rfl
      rw [step, hd, plain_commentLine stof hl, Out.bind_ok, if_neg hs]
    rw [e1, run, e2, Out.bind_ok]
    refine (ih (fun l hl => h l (by simp [hl])) { s with comment := s.comment ++ ('\'' :: (l ++ ['\n'])) } (show Quiet s from hs) rest).trans ?_
    simp [commentText]

/-! ### Evaluations -/

theorem readSign_minus (r : List Char) : readSign ('-' :: r) = (true, r) := rfl

theorem stoi_intChars {n : Int} (h1 : -2147483648 ≤ n) (h2 : n ≤ 2147483647) : stoi (intChars n) = .val n := by
  unfold intChars
  split
  · next h =>
    have e1 : ('-' :: natChars n.natAbs).dropWhile isSpace = '-' :: natChars n.natAbs := by
      rw [List.dropWhile_cons_of_neg (by decide)]
    unfold stoi
    simp only [e1, readSign_minus, readNat_natChars]
    rw [takeWhile_all natChars_isDigit, if_neg (natChars_ne_nil _)]
    simp only [if_true]
    rw [if_pos (by omega), show -((n.natAbs : Nat) : Int) = n from by omega]
  · next h =>
    rw [stoi_natChars (by omega), show ((n.natAbs : Nat) : Int) = n from by omega]

theorem intChars_noSpace (n : Int) : ∀ c ∈ intChars n, c ≠ ' ' ∧ c ≠ '\n' := by
  have hnat : ∀ n : Nat, ∀ c ∈ natChars n, c ≠ ' ' ∧ c ≠ '\n' := by
    intro n c hc
    have := natChars_isDigit c hc
    constructor <;> rintro rfl <;> exact absurd this (by decide)
  intro c hc
  unfold intChars at hc
  split at hc
  · rcases List.mem_cons.mp hc with rfl | hc
    · decide
    · exact hnat _ _ hc
  · exact hnat _ _ hc

theorem takeWhile_word {w rest : List Char} (h : ∀ c ∈ w, c ≠ ' ') : (w ++ ' ' :: rest).takeWhile (· ≠ ' ') = w := by
  rw [List.takeWhile_append_of_pos (by simpa using h)]
  simp

theorem stoi_invalid {l : List Char} (h : ∀ c ∈ l.head?, c.isDigit = false ∧ c ≠ '+' ∧ c ≠ '-' ∧ isSpace c = false) : stoi l = .invalid := by
  cases l with
  | nil => rfl
  | cons c cs =>
    obtain ⟨h1, h2, h3, h4⟩ := h c rfl
    have e1 : (c :: cs).dropWhile isSpace = c :: cs := by rw [List.dropWhile_cons_of_neg (by simp [h4])]
    have e2 : readSign (c :: cs) = (false, c :: cs) := by
      unfold readSign
      split
      · next e => exact absurd (List.cons.inj e).1 h3
      · next e => exact absurd (List.cons.inj e).1 h2
      · rfl
    unfold stoi
    simp only [e1, e2]
    rw [if_pos (by simp [h1])]

/-! ### A move with its time and its comment -/

/-- The comment as it is written after the move. -/
def noteText (w : List Char) : List Char := if w = [] then [] else '\'' :: (w ++ ['\n'])

/-- The state after reading a move, its time and its comment. -/
def afterNoted (s : State) (m : Move) (q : Position) (t : Option Nat) (n : Note) : State :=
  { s with
    moves := s.moves ++ [m], pos := some q, times := s.times ++ [((t.getD 0 : Nat) : Int)],
    scores := s.scores ++ [n.value], comments := s.comments ++ [n.stored], comment := s.comment ++ commentText n.loose }

theorem set_last {α : Type} (l : List α) (a b : α) {k : Nat} (h : k = l.length) : (l ++ [a]).set k b = l ++ [b] := by
  subst h; simp

theorem step_star {s : State} (hs : Sized s) {q : Position} {m : Move} {t : Option Nat} (l : List Char)
    (hr : stoi (l.takeWhile (· ≠ ' ')) ≠ .range) :
    step Z stof (afterMove s m q t) ('\'' :: '*' :: '*' :: ' ' :: l) = .ok { afterMove s m q t with
      scores := s.scores ++ [match stoi (l.takeWhile (· ≠ ' ')) with | .val n => n | _ => 0], comments := s.comments ++ [l] } := by
  have hz : Sized (afterMove s m q t) :=
    ⟨by simp [afterMove, hs.times], by simp [afterMove, hs.scores], by simp [afterMove, hs.comments]⟩
  have := C54_stored_partial Z stof hz (by simp [afterMove]) (by simp [afterMove]) l hr
  refine this.trans ?_
  have e1 : (afterMove s m q t).moves.length - 1 = s.scores.length := by simp [afterMove, hs.scores]
  have e2 : (afterMove s m q t).moves.length - 1 = s.comments.length := by simp [afterMove, hs.comments]
  have e3 : (afterMove s m q t).comments.set ((afterMove s m q t).moves.length - 1) l = s.comments ++ [l] := set_last _ _ _ e2
  have e4 : ∀ n, (afterMove s m q t).scores.set ((afterMove s m q t).moves.length - 1) n = s.scores ++ [n] := fun n => set_last _ _ _ e1
  rw [e3]
  cases h : stoi (l.takeWhile (· ≠ ' ')) with
  | range => exact absurd h hr
  | invalid => rfl
  | val n => simp only [e4]

theorem lines_quote {w : List Char} (h : '\n' ∉ w) (hw : w ≠ []) (rest : List Char) :
    lines (noteText w ++ rest) = ('\'' :: w) :: lines rest := by
  unfold noteText
  rw [if_neg hw, ← lines_cons ('\'' :: w) _ (by simpa using h)]
  simp

theorem run_note {s : State} (hs : Sized s) {q : Position} {m : Move} {t : Option Nat} {n : Note} (hn : n.Fine) (rest : List Char) :
    run Z stof (lines (noteText n.text ++ rest)) (afterMove s m q t) = run Z stof (lines rest) (afterNoted s m q t n) := by
  cases n with
  | silent => simp [noteText, Note.text, afterNoted, afterMove, Note.value, Note.stored, Note.loose, commentText]
  | score k ws =>
    obtain ⟨h1, h2, h3⟩ := hn
    have key : ∀ l : List Char, '\n' ∉ l → l.takeWhile (· ≠ ' ') = intChars k →
        run Z stof (lines (noteText ('*' :: '*' :: ' ' :: l) ++ rest)) (afterMove s m q t) =
          run Z stof (lines rest) { afterMove s m q t with scores := s.scores ++ [k], comments := s.comments ++ [l] } := by
      intro l hl htw
      rw [lines_quote (by simpa using hl) (by simp), run,
        step_star Z stof hs l (by rw [htw, stoi_intChars h1 h2]; simp), Out.bind_ok, htw, stoi_intChars h1 h2]
    cases ws with
    | nil =>
      refine (key (intChars k) (fun h => (intChars_noSpace k _ h).2 rfl) ?_).trans ?_
      · apply takeWhile_all
        intro c hc
        simpa using (intChars_noSpace k c hc).1
      · simp [afterNoted, afterMove, Note.value, Note.stored, Note.loose, commentText]
    | cons w ws =>
      refine (key (intChars k ++ ' ' :: w :: ws) ?_ (takeWhile_word fun c hc => (intChars_noSpace k c hc).1)).trans ?_
      · intro h
        rcases List.mem_append.mp h with h | h
        · exact (intChars_noSpace k _ h).2 rfl
        · rcases List.mem_cons.mp h with h | h
          · exact absurd h (by decide)
          · exact h3 h
      · simp [afterNoted, afterMove, Note.value, Note.stored, Note.loose, commentText]
  | line l =>
    obtain ⟨h1, h2⟩ := hn
    have h3 : stoi (l.takeWhile (· ≠ ' ')) = .invalid := by
      apply stoi_invalid
      cases l with
      | nil => intro c hc; cases hc
      | cons c cs =>
        have hc : c ≠ ' ' := by
          rintro rfl; exact absurd (h2 ' ' rfl).2.2.2 (by decide)
        intro c' hc'
        rw [List.takeWhile_cons_of_pos (by simpa using hc)] at hc'
        exact h2 c' hc'
    show run Z stof (lines (noteText ('*' :: '*' :: ' ' :: l) ++ rest)) _ = _
    rw [lines_quote (by simpa using h1) (by simp), run, step_star Z stof hs l (by rw [h3]; simp), Out.bind_ok, h3]
    simp [afterNoted, afterMove, Note.value, Note.stored, Note.loose, commentText]
  | remark l =>
    obtain ⟨h1, h2⟩ := hn
    have e : noteText l = commentText [l] := by
      unfold noteText; rw [if_neg h1]; simp [commentText]
    show run Z stof (lines (noteText l ++ rest)) _ = _
    rw [e, run_comment Z stof [l] (by intro x hx; rw [List.mem_singleton.mp hx]; exact h2) _ (quiet_of_pos rfl)]
    simp [afterNoted, afterMove, Note.value, Note.stored, Note.loose]

/-! ### The moves -/

/-- A move as it is given to the exporter. -/
def noted (x : Move × Option Nat × Note) : Move × Option Nat × List Char := (x.1, x.2.1, x.2.2.text)

theorem writeMove_eq {c : Color} {m : Move} {t : Option Nat} {w k : List Char} (h : m.toCSA = some k) :
    writeMove '\n' c m t w = some (signChar c :: (k ++ ('\n' :: (timeText t ++ noteText w)))) := by
  unfold writeMove noteText
  rw [h]
  cases t <;> cases w <;> simp [timeText, sepTime]

/-- The state after reading the moves. -/
def afterAll (s : State) (ms : List (Move × Option Nat × Note)) (q : Position) : State :=
  { s with
    moves := s.moves ++ ms.map (·.1), pos := some q, times := s.times ++ ms.map (fun x => ((x.2.1.getD 0 : Nat) : Int)),
    scores := s.scores ++ ms.map (fun x => x.2.2.value), comments := s.comments ++ ms.map (fun x => x.2.2.stored),
    comment := s.comment ++ commentText (ms.flatMap fun x => x.2.2.loose) }

theorem run_noted (ms : List (Move × Option Nat × Note)) (ht : ∀ x ∈ ms, ∀ n ∈ x.2.1, n ≤ 2147483647) (hn : ∀ x ∈ ms, x.2.2.Fine) :
    ∀ (p : Position) (hist : List HistEntry) (s : State) (q : Position), Good Z p → Good Z q → absPos q = absPos p → s.pos = some q →
      s.endgame = [] → Sized s → Always LegalOp Z ⟨p, hist⟩ (ms.map fun x => .push x.1) →
      ∃ x b q', writeMoves '\n' p.turn (ms.map noted) = some x ∧ Board.run Z ⟨p, hist⟩ (ms.map fun x => .push x.1) = some b ∧
        (∀ rest, run Z stof (lines (x ++ rest)) s = run Z stof (lines rest) (afterAll s ms q')) ∧ absPos q' = absPos b.pos := by
  induction ms with
  | nil =>
    intro p hist s q hp hq hpq hs he hz ho
    refine ⟨[], ⟨p, hist⟩, q, rfl, rfl, fun _ => ?_, hpq⟩
    simp [afterAll, commentText, ← hs]
  | cons a l ih =>
    obtain ⟨m, t, w⟩ := a
    intro p hist s q hp hq hpq hs he hz ho
    obtain ⟨⟨mv, hmv, hlg⟩, ho⟩ := ho
    obtain ⟨p', e1, hp', ha⟩ := hp.doMove hlg
    obtain ⟨q', e2, hq', hb⟩ := hq.doMove (mv := mv) (by rw [hpq]; exact hlg)
    have hen := encode_same hp.inv.views hq.inv.views hpq mv
    rw [hen] at e2
    replace hmv : m = encode p mv := hmv
    obtain ⟨lm, g1, g2⟩ := C06_round_trip q hq.inv.views hq.check hq.regular
    obtain ⟨lm', g1', -, g3⟩ := genLegal_spec hq.inv.views hq.check hq.regular
    rw [g1] at g1'; cases g1'
    obtain ⟨k, k1, k2⟩ := g2 m ((g3 m).mpr ⟨mv, by rw [hen, hmv], by rw [hpq]; exact hlg⟩)
    have hm0 : m ≠ 0#32 := by rw [hmv]; exact encode_ne_zero hlg.1.1
    have hstep : Board.step Z ⟨p, hist⟩ (.push m) = some ⟨p', .move m :: hist⟩ := by
      show Board.push Z ⟨p, hist⟩ m = _
      unfold Board.push
      show (Position.doMove Z p m).map _ = _
      rw [hmv, e1]; rfl
    have hturn : p'.turn = p.turn.opp := by
      have : (absPos p').turn = p.turn.opp := by rw [ha]; exact play_turn mv
      exact this
    obtain ⟨x, b, q2, i1, i2, i3, i4⟩ := ih (fun x hx => ht x (by simp [hx])) (fun x hx => hn x (by simp [hx])) p' (.move m :: hist)
      (afterNoted s m q' t w) q' hp' hq' (by rw [ha, hb, hpq]) rfl he
      ⟨by simp [afterNoted, hz.times], by simp [afterNoted, hz.scores], by simp [afterNoted, hz.comments]⟩ (ho _ hstep)
    refine ⟨(signChar p.turn :: (k ++ ('\n' :: (timeText t ++ noteText w.text)))) ++ x, b, q2, ?_, ?_, ?_, i4⟩
    · rw [List.map_cons, noted, writeMoves, writeMove_eq k1, Option.bind_some, ← hturn, i1]; rfl
    · rw [List.map_cons, Board.run, hstep, Option.bind_some, i2]
    · intro rest
      have hmv' := run_move Z stof hz hs he (csaToMove_length k2 hm0) k2 (by rw [hmv]; exact e2) p.turn t
        (fun n hn => ht (m, t, w) (by simp) n hn) (noteText w.text ++ (x ++ rest)) (toCSA_chars k1)
      rw [run_note Z stof hz (hn (m, t, w) (by simp)), i3] at hmv'
      refine Eq.trans ?_ (hmv'.trans ?_)
      · simp [List.append_assoc]
      · simp [afterAll, afterNoted, commentText]

/-! ### The header -/

/-- The lines with the information as the parser keeps them. -/
def infoLine (i : List Char × List Char) : List Char := '$' :: (i.1 ++ ':' :: i.2)

/-- The name of a player. -/
def nameOf (n : Option (List Char × List Char)) (c : Color) : List Char :=
  match n with
  | none => []
  | some n => if c = .black then n.1 else n.2

/-- The state after the header. -/
def headState (h : Header) (ls : List (List Char)) : State :=
  { version := h.version, names := nameOf h.names,
    comment := commentText ls, infos := h.infos.map infoLine }

theorem run_line {s s' : State} {l : List Char} (hl : '\n' ∉ l) (hd : dispatch Z stof s l = .ok s') (hs : Quiet s') (rest : List Char) :
    run Z stof (lines (l ++ '\n' :: rest)) s = run Z stof (lines rest) s' := by
  rw [lines_cons _ _ hl, run, step, hd, Out.bind_ok, if_neg hs, Out.bind_ok]

theorem comment_written {c : List Char} {ls : List (List Char)} (h : CommentOf c ls) :
    remarkText c = commentText ls := by
  cases h with
  | empty => rfl
  | single c l hc => simp [commentText, remarkText, hc]
  | written ls hls =>
    cases ls with
    | nil => exact absurd rfl hls
    | cons a l => simp [commentText, remarkText]

theorem run_infos (is : List (List Char × List Char)) (h : ∀ i ∈ is, '\n' ∉ i.1 ∧ ':' ∉ i.1 ∧ '\n' ∉ i.2) : ∀ (s : State), Quiet s → ∀ rest,
    run Z stof (lines ((is.flatMap fun i => '$' :: (i.1 ++ ':' :: (i.2 ++ ['\n']))) ++ rest)) s =
      run Z stof (lines rest) { s with infos := s.infos ++ is.map infoLine } := by
  induction is with
  | nil => intro s _ rest; simp
  | cons i is ih =>
    intro s hs rest
    obtain ⟨h1, -, h3⟩ := h i (by simp)
    have := run_line Z stof (s := s) (s' := { s with infos := s.infos ++ [infoLine i] }) (l := infoLine i)
      (by simp [infoLine, h1, h3]) rfl hs ((is.flatMap fun i => '$' :: (i.1 ++ ':' :: (i.2 ++ ['\n']))) ++ rest)
    rw [ih (fun i hi => h i (by simp [hi])) { s with infos := s.infos ++ [infoLine i] } (show Quiet s from hs)] at this
    refine Eq.trans ?_ (this.trans ?_)
    · simp [infoLine]
    · simp

theorem run_header {h : Header} {ls : List (List Char)} (hh : FineHeader h ls) (rest : List Char) :
    run Z stof (lines (writeHeader h ++ rest)) {} = run Z stof (lines rest) (headState h ls) := by
  have hq : ∀ s : State, s.turnSeen = false → Quiet s := by
    intro s hs h; rw [hs] at h; exact absurd h.2 (by decide)
  obtain ⟨ver, nam, com, inf⟩ := h
  have hv : ∀ rest, run Z stof (lines ((if ver = [] then [] else ver ++ ['\n']) ++ rest)) {} =
      run Z stof (lines rest) { version := ver } := by
    intro rest
    rcases hh.version with e | ⟨cs, e⟩
    · cases e; rfl
    · have hn := hh.versionLine
      cases e
      have := run_line Z stof (s := {}) (s' := { version := 'V' :: cs }) (l := 'V' :: cs) hn rfl (hq _ rfl) rest
      rw [← this, if_neg (by simp)]
      simp
  have hnm : ∀ rest, run Z stof (lines (namesText nam ++ rest)) { version := ver } =
      run Z stof (lines rest) { version := ver, names := nameOf nam } := by
    intro rest
    cases nam with
    | none => rfl
    | some n =>
      obtain ⟨h1, h2⟩ := hh.names n rfl
      have e1 := run_line Z stof (s := { version := ver }) (s' := { version := ver, names := fun c' => if c' = .black then n.1 else [] })
        (l := 'N' :: '+' :: n.1) (by simpa using h1) rfl (hq _ rfl) ('N' :: '-' :: (n.2 ++ '\n' :: rest))
      have e2 := run_line Z stof (s := { version := ver, names := fun c' => if c' = .black then n.1 else [] })
        (s' := { version := ver, names := fun c' => if c' = .white then n.2 else (if c' = .black then n.1 else []) })
        (l := 'N' :: '-' :: n.2) (by simpa using h2) rfl (hq _ rfl) rest
      have e3 : nameOf (some n) =
          fun c' => if c' = .white then n.2 else (if c' = .black then n.1 else []) := by
        funext c; cases c <;> rfl
      rw [e3, ← e2]
      refine Eq.trans ?_ e1
      simp [namesText]
  unfold writeHeader
  rw [List.append_assoc, hv, List.append_assoc, hnm, List.append_assoc]
  rw [comment_written hh.comment, run_comment Z stof ls hh.plain _ (hq _ rfl), run_infos Z stof inf hh.infos _ (hq _ rfl)]
  rfl

theorem takeWhile_colon {k v : List Char} (h : ':' ∉ k) : (infoLine (k, v)).takeWhile (· ≠ ':') = '$' :: k ∧
    (infoLine (k, v)).dropWhile (· ≠ ':') = ':' :: v := by
  have hk : ∀ c ∈ k, c ≠ ':' := fun c hc e => h (e ▸ hc)
  unfold infoLine
  refine ⟨?_, ?_⟩
  · rw [List.takeWhile_cons_of_pos (by decide), List.takeWhile_append_of_pos (by simpa using hk)]
    simp
  · rw [List.dropWhile_cons_of_pos (by decide), List.dropWhile_append_of_pos (by simpa using hk)]
    simp

theorem varInfo_lines (is : List (List Char × List Char)) (h : ∀ i ∈ is, ':' ∉ i.1) : ∀ d : List (List Char × List Char),
    ((d ++ is).map (·.1)).Nodup → varInfo (is.map infoLine) d = .ok (d ++ is) := by
  induction is with
  | nil => intro d _; simp [varInfo]
  | cons i is ih =>
    intro d hd
    obtain ⟨k, v⟩ := i
    obtain ⟨h1, h2⟩ := takeWhile_colon (v := v) (h (k, v) (by simp))
    rw [List.map_cons, varInfo, if_pos (by simp [infoLine]), h1, h2]
    simp only [List.drop_succ_cons, List.drop_zero]
    have hk : ¬ (d.any fun x => decide (x.1 = k)) = true := by
      rw [List.any_eq_true]
      rintro ⟨x, hx, e⟩
      rw [List.map_append, List.nodup_append] at hd
      exact hd.2.2 x.1 (List.mem_map_of_mem hx) k (by simp) (by simpa using e)
    rw [insertKey, if_neg hk, ih (fun i hi => h i (by simp [hi])) (d ++ [(k, v)]) (by simpa using hd)]
    simp

/-! ### The position -/

theorem run_start {s : State} (h1 : s.turnSeen = false) (h2 : s.lines = []) (h3 : s.pos = none) {p : Position}
    (hcode : ∀ s, p.piece s = pieceCode ((absPos p).board s)) (hhand : ∀ c h, (absPos p).hand c h ≤ h.total) :
    ∃ t q ls, ReadAs Z p q t ∧ ∀ rest, run Z stof (lines (exportInfo p ++ rest)) s =
      run Z stof (lines rest) { s with lines := ls, turnSeen := true, sfen := t, pos := some q } := by
  have hblock : ∀ (ls : List (List Char)), (∀ l ∈ ls, PLine l) → ∀ (c : Color) {t : List Char} {q : Position},
      parsePosition (ls ++ [[signChar c]]) = .ok t → setSfen Z t = .ok q → ∀ rest,
      run Z stof (ls ++ ([signChar c] :: rest)) s =
        run Z stof rest { s with lines := ls ++ [[signChar c]], turnSeen := true, sfen := t, pos := some q } := by
    intro ls hls c t q g1 g2 rest
    rw [run_plines Z stof ls hls _ h1, run, h2, List.nil_append]
    have : dispatch Z stof { s with lines := ls } [signChar c] = .ok { s with lines := ls ++ [[signChar c]], turnSeen := true } := by
      cases c <;> rfl
    rw [step, this, Out.bind_ok, if_pos ⟨by simp [h3], rfl⟩, g1, Out.bind_ok, g2, Out.bind_ok, Out.bind_ok]
  unfold exportInfo
  split
  · next h =>
    have hs := start_shows hcode h
    obtain ⟨t, q, e1, hq⟩ := shows_read Z hcode hhand hs
    refine ⟨t, q, [['P', 'I'], ['+']], hq, fun rest => ?_⟩
    have el : lines ("PI\n+\n".toList ++ rest) = [['P', 'I']] ++ ([signChar .black] :: lines rest) := by
      show lines (['P', 'I'] ++ '\n' :: (['+'] ++ '\n' :: rest)) = _
      rw [lines_cons _ _ (by decide), lines_cons _ _ (by decide)]; rfl
    rw [el]
    exact hblock [['P', 'I']] (by intro l hl; rw [List.mem_singleton.mp hl]; exact ⟨_, rfl⟩) .black (t := t) e1 hq.text _
  · obtain ⟨b, e, hb⟩ := dump_shows hcode
    obtain ⟨t, q, e1, hq⟩ := shows_read Z hcode hhand hb
    refine ⟨t, q, dumpHead p ++ [[signChar p.turn]], hq, fun rest => ?_⟩
    rw [toCsaPos_lines, lines_join _ _ (dump_noNewline hcode), dumpLines_head, List.append_assoc]
    refine hblock (dumpHead p) (dumpHead_p p) p.turn ?_ hq.text _
    rw [← dumpLines_head, parsePosition, e]
    exact e1

/-! ### The end -/

theorem step_end {s : State} {q : Position} (hq : s.pos = some q) (hlose : s.lose = none) (e : String)
    (he : ∃ cs, e.toList = '%' :: cs) (hn : ',' ∉ e.toList) :
    ∃ l, step Z stof s e.toList = .ok { s with endgame := e.toList, lose := l } ∧
      ∀ s' : State, s'.lose = l → s'.win = winOf (resultOf e q.turn) := by
  obtain ⟨cs, hcs⟩ := he
  have htw : e.toList.takeWhile (· ≠ ',') = e.toList := by
    apply takeWhile_all
    intro c hc
    have : c ≠ ',' := fun h => hn (h ▸ hc)
    simpa using this
  have hd : dispatch Z stof s e.toList = endLine s e.toList := by rw [hcs]; rfl
  rw [step, hd]
  unfold endLine
  rw [hq]
  simp only [htw]
  rw [Out.bind_ok, if_neg (by simp)]
  refine ⟨_, rfl, fun s' hs' => ?_⟩
  unfold State.win resultOf
  rw [hs']
  simp only [String.toList_inj, hlose]
  by_cases h1 : e = "%TORYO" ∨ e = "%TIME_UP" ∨ e = "%ILLEGAL_MOVE"
  · rw [if_pos h1, if_pos h1]; cases q.turn <;> rfl
  · rw [if_neg h1, if_neg h1]
    by_cases h2 : e = "%+ILLEGAL_ACTION"
    · rw [if_pos h2, if_pos h2]; rfl
    · rw [if_neg h2, if_neg h2]
      by_cases h3 : e = "%-ILLEGAL_ACTION"
      · rw [if_pos h3, if_pos h3]; rfl
      · rw [if_neg h3, if_neg h3]
        by_cases h4 : e = "%KACHI"
        · rw [if_pos h4, if_pos h4]; cases q.turn <;> rfl
        · rw [if_neg h4, if_neg h4]; rfl

theorem lines_single {l : List Char} (h : '\n' ∉ l) : lines l = [l] := by
  induction l with
  | nil => rfl
  | cons a l ih =>
    rw [lines, if_neg (fun e => h (by simp [e])), ih fun h' => h (by simp [h'])]

/-- The end of a record with or without the last newline. -/
theorem run_finish {s : State} {q : Position} (hq : s.pos = some q) (hlose : s.lose = none) (e : String)
    (he : ∃ cs, e.toList = '%' :: cs) (hn : '\n' ∉ e.toList ∧ ',' ∉ e.toList) (t : Option Nat) (ht : ∀ n ∈ t, n ≤ 2147483647) :
    ∃ l, (∀ s' : State, s'.lose = l → s'.win = winOf (resultOf e q.turn)) ∧
      ∀ text, (text = exportEnd e.toList t ∨ text ++ ['\n'] = exportEnd e.toList t) → run Z stof (lines text) s =
        .ok { s with endgame := e.toList, lose := l, times := s.times ++ t.toList.map (fun n : Nat => (n : Int)) } := by
  obtain ⟨l, e1, e2⟩ := step_end Z stof hq hlose e he hn.2
  refine ⟨l, e2, fun text htext => ?_⟩
  have hlast : ∀ s : State, s.pos = some q → run Z stof [[]] s = .ok s := by
    intro s hs
    have : dispatch Z stof s [] = .ok s := rfl
    rw [run, step, this, Out.bind_ok, if_neg (quiet_of_pos hs)]; rfl
  cases t with
  | none =>
    have e0 : exportEnd e.toList none = e.toList ++ ['\n'] := rfl
    rw [e0] at htext
    rcases htext with rfl | h
    · rw [lines_cons _ _ hn.1, run, e1, Out.bind_ok]
      refine (hlast { s with endgame := e.toList, lose := l } hq).trans ?_
      simp
    · rw [List.append_cancel_right h, lines_single hn.1, run, e1, Out.bind_ok]
      simp [run]
  | some n =>
    have hT : '\n' ∉ 'T' :: natChars n := by
      intro h
      rcases List.mem_cons.mp h with h | h
      · exact absurd h (by decide)
      · exact absurd (natChars_isDigit _ h) (by decide)
    have e0 : exportEnd e.toList (some n) = (e.toList ++ '\n' :: ('T' :: natChars n)) ++ ['\n'] := by simp [exportEnd, timeText]
    have e4 : step Z stof { s with endgame := e.toList, lose := l } ('T' :: natChars n) =
        .ok { s with endgame := e.toList, lose := l, times := s.times ++ [(n : Int)] } := by
      obtain ⟨cs, hcs⟩ := he
      have hd : dispatch Z stof { s with endgame := e.toList, lose := l } ('T' :: natChars n) =
        timeLine { s with endgame := e.toList, lose := l } ('T' :: natChars n) := rfl
      have ht' : timeLine { s with endgame := e.toList, lose := l } ('T' :: natChars n) =
          .ok { s with endgame := e.toList, lose := l, times := s.times ++ [(n : Int)] } := by
        unfold timeLine
        rw [if_neg (by rw [hcs]; simp)]
        show (match stoi (natChars n) with | .val n => _ | _ => _) = _
        rw [stoi_natChars (ht n rfl)]
      rw [step, hd, ht', Out.bind_ok, if_neg (quiet_of_pos (q := q) hq)]
    rw [e0] at htext
    rcases htext with rfl | h
    · rw [List.append_assoc, List.cons_append, lines_cons _ _ hn.1, lines_cons _ _ hT, run, e1, Out.bind_ok, run, e4, Out.bind_ok]
      exact hlast _ hq
    · rw [List.append_cancel_right h, lines_cons _ _ hn.1, lines_single hT, run, e1, Out.bind_ok, run, e4, Out.bind_ok]
      rfl

/-! ### Several games -/

/-- Whole lines none of which begins with a slash. -/
def Whole (x : List Char) : Prop := ∃ L, x = joinLines L ∧ ∀ l ∈ L, '\n' ∉ l ∧ l.head? ≠ some '/'

theorem Whole.append {x y : List Char} (hx : Whole x) (hy : Whole y) : Whole (x ++ y) := by
  obtain ⟨L, rfl, h1⟩ := hx
  obtain ⟨M, rfl, h2⟩ := hy
  refine ⟨L ++ M, (joinLines_append _ _).symm, fun l hl => ?_⟩
  rcases List.mem_append.mp hl with hl | hl
  · exact h1 l hl
  · exact h2 l hl

theorem Whole.nil : Whole [] := ⟨[], rfl, by simp⟩

theorem Whole.line {l : List Char} (h : '\n' ∉ l) (h' : l.head? ≠ some '/') : Whole (l ++ ['\n']) :=
  ⟨[l], by simp [joinLines], by intro x hx; rw [List.mem_singleton.mp hx]; exact ⟨h, h'⟩⟩

theorem Whole.flatMap {α : Type} (as : List α) (f : α → List Char) (h : ∀ a ∈ as, Whole (f a)) : Whole (as.flatMap f) := by
  induction as with
  | nil => exact Whole.nil
  | cons a as ih => rw [List.flatMap_cons]; exact (h a (by simp)).append (ih fun b hb => h b (by simp [hb]))

theorem splitGames_cons {c : Char} {cs : List Char} (h : ∀ r, c :: cs ≠ '\n' :: '/' :: '\n' :: r) :
    splitGames (c :: cs) = match splitGames cs with
      | [] => [[c]]
      | l :: ls => (c :: l) :: ls := by
  rw [splitGames]
  · rfl
  · intro r e1 e2
    exact h r (by rw [e1, e2])

theorem splitGames_ne (t : List Char) : splitGames t ≠ [] := by
  cases t with
  | nil => simp [splitGames]
  | cons c cs =>
    by_cases h : ∃ r, c :: cs = '\n' :: '/' :: '\n' :: r
    · obtain ⟨r, h⟩ := h; rw [h, splitGames]; simp
    · rw [splitGames_cons fun r e => h ⟨r, e⟩]
      split <;> simp

theorem splitGames_line {l : List Char} (h : '\n' ∉ l) {t y : List Char} {ys : List (List Char)} (ht : ∀ r, t ≠ '/' :: '\n' :: r)
    (e : splitGames t = y :: ys) : splitGames (l ++ '\n' :: t) = (l ++ '\n' :: y) :: ys := by
  induction l with
  | nil =>
    rw [List.nil_append, splitGames_cons, e]
    · rfl
    · intro r h; exact ht r (List.cons.inj h).2
  | cons a l ih =>
    rw [List.cons_append, splitGames_cons, ih fun h' => h (by simp [h'])]
    · rfl
    · intro r h'; exact h (by simp [(List.cons.inj h').1])

theorem splitGames_slash {l : List Char} (h : '\n' ∉ l) (r : List Char) : splitGames (l ++ '\n' :: '/' :: '\n' :: r) = l :: splitGames r := by
  induction l with
  | nil => rw [List.nil_append, splitGames]
  | cons a l ih =>
    rw [List.cons_append, splitGames_cons, ih fun h' => h (by simp [h'])]
    intro r h'; exact h (by simp [(List.cons.inj h').1])

theorem join_head {L : List (List Char)} (h : ∀ l ∈ L, '\n' ∉ l ∧ l.head? ≠ some '/') (hL : L ≠ []) (rest : List Char) :
    ∀ r, joinLines L ++ rest ≠ '/' :: '\n' :: r := by
  intro r e
  cases L with
  | nil => exact hL rfl
  | cons a L =>
    have ha := (h a (by simp)).2
    cases a with
    | nil => simp [joinLines] at e
    | cons c a => simp [joinLines] at e; exact ha (by simp [e.1])

theorem splitGames_join {L : List (List Char)} (h : ∀ l ∈ L, '\n' ∉ l ∧ l.head? ≠ some '/') : splitGames (joinLines L) = [joinLines L] := by
  induction L with
  | nil => rfl
  | cons a L ih =>
    have e : joinLines (a :: L) = a ++ '\n' :: joinLines L := by simp [joinLines]
    have hh := ih fun l hl => h l (by simp [hl])
    rw [e]
    cases L with
    | nil => exact splitGames_line (h a (by simp)).1 (by intro r h; cases h) hh
    | cons b L =>
      refine splitGames_line (h a (by simp)).1 ?_ hh
      have := join_head (L := b :: L) (fun l hl => h l (by simp [hl])) (by simp) []
      simpa using this

theorem splitGames_next {L : List (List Char)} (h : ∀ l ∈ L, '\n' ∉ l ∧ l.head? ≠ some '/') (hL : L ≠ []) (r : List Char) :
    ∃ y, y ++ ['\n'] = joinLines L ∧ splitGames (joinLines L ++ '/' :: '\n' :: r) = y :: splitGames r := by
  induction L with
  | nil => exact absurd rfl hL
  | cons a L ih =>
    have e : joinLines (a :: L) = a ++ '\n' :: joinLines L := by simp [joinLines]
    rw [e, List.append_assoc, List.cons_append]
    cases L with
    | nil => exact ⟨a, rfl, splitGames_slash (h a (by simp)).1 r⟩
    | cons b L =>
      obtain ⟨y, h1, h2⟩ := ih (fun l hl => h l (by simp [hl])) (by simp)
      refine ⟨a ++ '\n' :: y, by simp [h1], ?_⟩
      exact splitGames_line (h a (by simp)).1 (join_head (fun l hl => h l (by simp [hl])) (by simp) _) h2

end Csa
end Verif
