import Verif.Model.MatchCsa
import Verif.Spec.MatchCsa
import Verif.Props.Opening
import Verif.Props.CsaFile
import Verif.Props.PgnFile

/-! # Lemmas on the records of a match -/

namespace Verif.Match
open Spec Bitboard Position Usi

/-! ### What the listener hears -/

theorem heard_two (h : Heard) (l : List (List Char)) (a b : List Char) : (l ++ [a, b]).foldl Heard.hear h = ⟨a, b⟩ := by
  rw [List.foldl_append]; rfl

/-- The text of the last line. -/
def toldText (t : Told) : List Char := infoText (movesLine t.before t.score t.after t.first (t.rest ++ t.bad))

/-- A turn as it comes from the engine. -/
def turnOf (s : Spoken) : Turn :=
  ⟨match s.last with
    | none => []
    | some t => t.earlier ++ [toldText t], answerText s.answer, s.ponder.map usiText, s.micros⟩

theorem heard_turn (h : Heard) (cmd : List Char) (s : Spoken) : (h.after cmd (turnOf s)).info = match s.last with
    | none => cmd
    | some t => toldText t := by
  unfold Heard.after turnOf
  cases s.last with
  | none => rfl
  | some t =>
    dsimp only
    rw [List.append_assoc]
    show Heard.info (List.foldl _ _ (cmd :: t.earlier ++ [_, _])) = _
    rw [heard_two]

theorem score_absent : ∀ {l : List Char}, 's' ∉ l → greedy scoreGroups l = none
  | [], _ => by
    rw [greedy]; rfl
  | c :: l, h => by
    refine greedy_cons_none ?_ (score_absent fun hx => h (List.mem_cons_of_mem _ hx))
    unfold scoreGroups
    dsimp only
    cases e : afterText "score ".toList (c :: l) with
    | none => rfl
    | some r =>
      have := afterText_eq e
      exact absurd (by rw [this]; exact List.mem_append_left _ (by decide)) h

theorem intChars_no_s (n : Int) : 's' ∉ intChars n := by
  intro h
  have := intChars_signs n _ h
  revert this; decide

theorem argText_no_s {name : String} (hn : 's' ∉ name.toList) (x : Option Int) : 's' ∉ argText name x := by
  cases x with
  | none => simp [argText]
  | some n =>
    unfold argText
    simp only [List.mem_cons, List.mem_append, not_or]
    exact ⟨by decide, hn, by decide, intChars_no_s n⟩

theorem go_absent (T : Terms) (byoyomi : Color → Option Int) (st : State) : usiInfo (goCommand T byoyomi st) = none := by
  unfold usiInfo
  rw [score_absent]
  · rfl
  · unfold goCommand goLine
    simp only [List.mem_append, not_or]
    refine ⟨by decide, by simp, argText_no_s (by decide) _, argText_no_s (by decide) _, ?_, by simp [argText]⟩
    cases byoyomi st.board.pos.turn with
    | none =>
      simp only [List.mem_append, not_or]
      exact ⟨argText_no_s (by decide) _, argText_no_s (by decide) _⟩
    | some n => exact argText_no_s (by decide) _

theorem number_of_is {s : Score} (h : s ≠ .mate 0) {v : Int} (hv : s.Is 100000 v) : v = s.number := by
  cases s with
  | cp n => exact hv
  | mate n =>
    have h0 : n ≠ 0 := fun e => h (by rw [e])
    have hv : ((if n > 0 then some true else if n < 0 then some false else none) = some true → v = 100000) ∧
      ((if n > 0 then some true else if n < 0 then some false else none) = some false → v = -100000) := hv
    show v = if n < 0 then -100000 else 100000
    by_cases hn : n > 0
    · rw [if_neg (by omega)]; exact hv.1 (by rw [if_pos hn])
    · rw [if_pos (by omega)]; exact hv.2 (by rw [if_neg hn, if_pos (by omega)])
  | mateSoon lost =>
    cases lost
    · exact hv.1 rfl
    · exact hv.2 rfl

/-- The line can be read. -/
def Spoken.Readable (s : Spoken) : Prop := ∀ t, s.last = some t → (∀ x ∈ t.after, NumberName x.1) ∧ t.score ≠ .mate 0

theorem score_heard {s : Spoken} (hs : Spoken.Readable s) (h : Heard) (T : Terms) (byoyomi : Color → Option Int) (st : State) :
    infoScore (h.after (goCommand T byoyomi st) (turnOf s)).info = .ok (s.last.map fun t => t.score.number) := by
  rw [heard_turn]
  cases hl : s.last with
  | none =>
    dsimp only
    unfold infoScore
    rw [go_absent]; rfl
  | some t =>
    dsimp only
    obtain ⟨h1, h2⟩ := hs t hl
    obtain ⟨v, e, hv⟩ := C84_score (before := t.before) h1 t.score t.first (t.rest ++ t.bad)
    rw [toldText, e, number_of_is h2 hv]; rfl

theorem intercalate_two (w v : List Char) (ws : List (List Char)) : [' '].intercalate (w :: v :: ws) = w ++ ' ' :: [' '].intercalate (v :: ws) := by
  simp [List.intercalate]

theorem flat_intercalate {w : List Char} : ∀ {ws : List (List Char)}, flat (w :: ws) = ' ' :: [' '].intercalate (w :: ws)
  | [] => by simp
  | v :: ws => by
    have := flat_intercalate (w := v) (ws := ws)
    rw [flat_cons, this, intercalate_two]

theorem csaMove_solid (P : Pos) (mv : Mv) : csaMove P mv ≠ [] := by
  unfold csaMove
  cases mv <;> simp

/-- The comment is the text of the note. -/
theorem comment_heard {Z : Zobrist} {p : Position} (hg : Csa.Good Z p) {s : Spoken} {mv : Mv} (hf : ∀ t, s.last = some t → t.Fine (absPos p) mv)
    (h : Heard) (T : Terms) (byoyomi : Color → Option Int) (st : State) :
    ∃ c, infoComment Z p (h.after (goCommand T byoyomi st) (turnOf s)).info = .ok c ∧ c.getD [] = (s.note (absPos p)).text := by
  rw [heard_turn]
  unfold Spoken.note
  cases hl : s.last with
  | none =>
    dsimp only
    refine ⟨none, ?_, rfl⟩
    unfold infoComment
    rw [go_absent]
  | some t =>
    dsimp only
    have hf := hf t hl
    obtain ⟨v, hv, e⟩ := C84_comment_partial Z hg (before := t.before) hf.after t.score t.first t.rest t.bad hf.line (by
      cases hb : t.bad with
      | nil => trivial
      | cons m l => exact hf.bad m l hb)
    refine ⟨_, e, ?_⟩
    rw [number_of_is hf.nonzero hv]
    have hfb : fromBlack p.turn t.score.number = forBlack (absPos p).turn t.score.number := rfl
    rw [hfb]
    cases hm : csaMoves ((absPos p).play t.first) t.rest with
    | nil => rw [flat_nil, List.append_nil]; rfl
    | cons w ws =>
      rw [flat_intercalate]
      obtain ⟨x, hx⟩ : ∃ x, x = [' '].intercalate (w :: ws) := ⟨_, rfl⟩
      have hne : x ≠ [] := by
        rw [hx]
        intro h0
        have hw : w ≠ [] := by
          cases hr : t.rest with
          | nil => rw [hr] at hm; cases hm
          | cons m l =>
            rw [hr] at hm
            have := List.cons.inj hm
            rw [← this.1]; exact csaMove_solid _ _
        have : w <+: [' '].intercalate (w :: ws) := by
          cases ws with
          | nil => exact ⟨[], by simp [List.intercalate]⟩
          | cons v ws => exact ⟨_, (intercalate_two w v ws).symm⟩
        rw [h0] at this
        exact hw (List.prefix_nil.mp this)
      rw [← hx]
      obtain ⟨c, l, hc⟩ := List.exists_cons_of_ne_nil hne
      rw [hc]; rfl

/-! ### The course of a game -/

theorem charge_board (T : Terms) (st : State) (n : Int) : (charge T st n).2.board = st.board := by
  unfold charge
  dsimp only
  cases st.remain st.board.pos.turn with
  | none => rfl
  | some t =>
    dsimp only
    split
    · split <;> rfl
    · rfl

theorem afterMove_board {st st' : State} {f : Option Flag} (h : afterMove st = .ok (f, st')) : st'.board = st.board := by
  unfold afterMove at h
  dsimp only at h
  split at h
  · cases hd : st.board.pos.isDraw 2147483647 with
    | none => rw [hd] at h; cases h
    | some v => rw [hd] at h; cases h; rfl
  · cases hd : st.board.pos.isGameOver with
    | none => rw [hd] at h; cases h
    | some v => rw [hd] at h; cases h; rfl

/-- The turns are as they should be from `P` on: information can be read, a mate that decides the game is announced with a legal move, no move
promotes where this is not allowed, and the information with a legal move is in order; the whole seconds fit into 32 bits. -/
def Clean (R : Rules) : Pos → List Spoken → Prop
  | _, [] => True
  | P, s :: ss => Spoken.Readable s ∧ s.micros / 1000000 ≤ 2147483647 ∧ (R.Announces s.said → ∃ mv, s.answer = .move mv ∧ P.Legal mv) ∧
    ∀ mv, s.answer = .move mv → PromotionOK P mv ∧ (P.Legal mv → (∀ t, s.last = some t → t.Fine P mv) ∧ Clean R (P.play mv) ss)

/-- What a turn leaves behind. -/
inductive Left (Z : Zobrist) (s : Spoken) (st : State) : List Row → Option Flag → State → Prop
  | none (f : Flag) (st' : State) : st'.board = st.board → Left Z s st [] (some f) st'
  | move (mv : Mv) (f : Option Flag) (p' : Position) (st' : State) : s.answer = .move mv → (absPos st.board.pos).Legal mv →
      doMove Z st.board.pos (encode st.board.pos mv) = some p' → Csa.Good Z p' → absPos p' = (absPos st.board.pos).play mv →
      st'.board = ⟨p', .move (encode st.board.pos mv) :: st.board.hist⟩ →
      Left Z s st [(encode st.board.pos mv, some (s.micros / 1000000), (s.note (absPos st.board.pos)).text)] f st'

theorem turn_left {Z : Zobrist} {R : Rules} {byoyomi : Color → Option Int} {h : Heard} {st : State} (hg : Csa.Good Z st.board.pos) {s : Spoken}
    {ss : List Spoken} (hc : Clean R (absPos st.board.pos) (s :: ss)) {f : Option Flag} {st' : State}
    (hr : round Z (termsOf R) st (replyOf s.said) = .ok (f, st')) :
    ∃ rows, recordTurn Z (termsOf R) st (h.after (goCommand (termsOf R) byoyomi st) (turnOf s)).info (turnOf s) = .ok (rows, f, st') ∧
      Left Z s st rows f st' := by
  obtain ⟨hread, -, hann, hmove⟩ := hc
  have hsc := score_heard hread h (termsOf R) byoyomi st
  obtain ⟨info, hinfo⟩ : ∃ i, i = (h.after (goCommand (termsOf R) byoyomi st) (turnOf s)).info := ⟨_, rfl⟩
  have hcm : ∀ mv, s.answer = .move mv → (absPos st.board.pos).Legal mv → exported Z st.board.pos info (turnOf s) (encode st.board.pos mv) =
      .ok [(encode st.board.pos mv, some (s.micros / 1000000), (s.note (absPos st.board.pos)).text)] := by
    intro mv ha hm
    obtain ⟨c, e1, e2⟩ := comment_heard hg ((hmove mv ha).2 hm).1 h (termsOf R) byoyomi st
    unfold exported
    rw [hinfo, e1, Out.bind_ok, e2]; rfl
  have hpush : ∀ mv, (absPos st.board.pos).Legal mv → ∃ p', doMove Z st.board.pos (encode st.board.pos mv) = some p' ∧ Csa.Good Z p' ∧
      absPos p' = (absPos st.board.pos).play mv ∧ st.board.pos.isLegal (encode st.board.pos mv) = some true ∧
      st.board.push Z (encode st.board.pos mv) = some ⟨p', .move (encode st.board.pos mv) :: st.board.hist⟩ := by
    intro mv hm
    obtain ⟨p', e, g, a⟩ := hg.doMove hm
    refine ⟨p', e, g, a, ?_, by unfold Board.push; rw [e]; rfl⟩
    obtain ⟨b, -, j1, -, -, j2⟩ := C27_is_legal_partial _ hg.inv.views hg.check hg.regular mv (Legal.promotionOK hm)
    rw [j1, j2.mpr hm]
  rw [← hinfo] at hsc ⊢
  obtain ⟨r, hrr⟩ : ∃ r, r = replyOf s.said := ⟨_, rfl⟩
  rw [← hrr] at hr
  obtain ⟨up, st0, hch⟩ : ∃ up st0, charge (termsOf R) st (turnOf s).millis = (up, st0) := ⟨_, _, rfl⟩
  have hch' : charge (termsOf R) st r.millis = (up, st0) := by rw [hrr]; exact hch
  have hb : st0.board = st.board := by
    have := charge_board (termsOf R) st (turnOf s).millis
    rw [hch] at this; exact this
  cases up with
  | true =>
    have hround : ∀ r' : Reply, r'.millis = (turnOf s).millis → round Z (termsOf R) st r' = .ok (some .timeup, st0) := by
      intro r' hr'
      unfold round
      rw [hr', hch]; rfl
    rw [hround r (by rw [hrr]; rfl)] at hr
    cases hr
    refine ⟨[], ?_, .none _ _ hb⟩
    unfold recordTurn scoreRead
    simp only [hch, if_true, Out.bind_ok]
    rw [hround _ rfl]; rfl
  | false =>
    have hrec : ∀ rows, wrote Z (termsOf R) st.board.pos info (turnOf s) r = .ok rows →
        recordTurn Z (termsOf R) st info (turnOf s) = .ok (rows, f, st') := by
      intro rows hw
      have hre : (⟨(turnOf s).bestmove, s.last.map fun t => t.score.number, (turnOf s).millis⟩ : Reply) = r := by rw [hrr]; rfl
      unfold recordTurn scoreRead
      simp only [hch, Bool.false_eq_true, if_false, hsc, Out.bind_ok, hre, hw, hr]
    unfold round at hr
    rw [hch'] at hr
    simp only [Bool.false_eq_true, if_false] at hr
    have hbest : r.bestmove = answerText s.answer := by rw [hrr]; rfl
    by_cases hbt : belowThreshold (termsOf R) r = true
    · rw [if_pos hbt] at hr
      cases hr
      exact ⟨[], hrec _ (by unfold wrote; rw [if_pos hbt]), .none _ _ hb⟩
    · rw [if_neg hbt] at hr
      by_cases han : announcesMate (termsOf R) r = true
      · rw [if_pos han] at hr
        rw [hrr, announcesMate_iff] at han
        obtain ⟨mv, ha, hm⟩ := hann han
        obtain ⟨p', e1, e2, e3, e4, e5⟩ := hpush mv hm
        have hu : st.board.pos.usiToMove r.bestmove = some (encode st.board.pos mv) := by rw [hbest, ha]; exact usi_text e4
        unfold pushAnnounced at hr
        rw [hb, hu] at hr
        dsimp only at hr
        rw [e5] at hr
        cases hr
        refine ⟨_, hrec _ ?_, .move mv _ p' _ ha hm e1 e2 e3 rfl⟩
        unfold wrote
        rw [if_neg hbt, if_pos (by rw [hrr, announcesMate_iff]; exact han), hu]
        exact hcm mv ha hm
      · rw [if_neg han] at hr
        cases ha : s.answer with
        | resign =>
          rw [if_pos (by rw [hbest, ha]; rfl)] at hr
          cases hr
          exact ⟨[], hrec _ (by unfold wrote; rw [if_neg hbt, if_neg han, if_pos (by rw [hbest, ha]; rfl)]), .none _ _ hb⟩
        | declare =>
          have h1 : r.bestmove ≠ "resign".toList := by rw [hbest, ha]; decide
          rw [if_neg h1, if_pos (by rw [hbest, ha]; rfl)] at hr
          cases hr
          exact ⟨[], hrec _ (by unfold wrote; rw [if_neg hbt, if_neg han, if_neg h1, if_pos (by rw [hbest, ha]; rfl)]), .none _ _ hb⟩
        | move mv =>
          have h1 : r.bestmove ≠ "resign".toList := by rw [hbest, ha]; exact usiText_ne_resign mv
          have h2 : r.bestmove ≠ "win".toList := by rw [hbest, ha]; exact usiText_ne_win mv
          rw [if_neg h1, if_neg h2] at hr
          unfold tryMove at hr
          rw [hb] at hr
          by_cases hm : (absPos st.board.pos).Legal mv
          · obtain ⟨p', e1, e2, e3, e4, e5⟩ := hpush mv hm
            have hu : st.board.pos.usiToMove r.bestmove = some (encode st.board.pos mv) := by rw [hbest, ha]; exact usi_text e4
            rw [hu] at hr
            dsimp only at hr
            rw [e4] at hr
            dsimp only at hr
            rw [e5] at hr
            dsimp only at hr
            refine ⟨_, hrec _ ?_, .move mv _ p' _ ha hm e1 e2 e3 (afterMove_board hr)⟩
            unfold wrote
            rw [if_neg hbt, if_neg han, if_neg h1, if_neg h2, hu]
            dsimp only
            rw [e4]
            exact hcm mv ha hm
          · have hnot : st.board.pos.isLegal (encode st.board.pos mv) = some false := by
              obtain ⟨b, -, j1, -, -, j2⟩ := C27_is_legal_partial _ hg.inv.views hg.check hg.regular mv (hmove mv ha).1
              cases b with
              | true => exact absurd (j2.mp rfl) hm
              | false => exact j1
            have hu : st.board.pos.usiToMove r.bestmove = some 0#32 := by rw [hbest, ha]; exact usi_text_not hnot
            rw [hu] at hr
            dsimp only at hr
            rw [isLegal_zero] at hr
            cases hr
            refine ⟨[], hrec _ ?_, .none _ _ hb⟩
            unfold wrote
            rw [if_neg hbt, if_neg han, if_neg h1, if_neg h2, hu]
            dsimp only
            rw [isLegal_zero]

/-- How the rows handed to the exporter tell a course of moves. -/
structure Rows (Z : Zobrist) (b b' : Board) (ks : List (Mv × Nat × Note)) (xs : List (Move × Option Nat × Note)) : Prop where
  legal : Always LegalOp Z b (xs.map fun x => .push x.1)
  ran : Board.run Z b (xs.map fun x => .push x.1) = some b'
  codes : Pgn.Codes Z b.pos (ks.map (·.1)) (xs.map (·.1))
  notes : xs.map (·.2) = ks.map fun k => (some k.2.1, k.2.2)
  history : b'.history = b.history ++ xs.map (·.1)

theorem kept_nil (P : Pos) (ss : List Spoken) : Kept P ss [] := by cases ss <;> trivial

theorem loop_recorded {Z : Zobrist} {R : Rules} {byoyomi : Color → Option Int} : ∀ (ss : List Spoken) {h : Heard} {st : State},
    Csa.Good Z st.board.pos → Clean R (absPos st.board.pos) ss → ∀ {f : Flag} {st' : State},
    loop Z (termsOf R) st (ss.map fun s => replyOf s.said) = .ok (some (f, st')) →
    ∃ ks xs, recordLoop Z (termsOf R) byoyomi h st (ss.map turnOf) = .ok (some (xs.map Csa.noted, f, st')) ∧
      Kept (absPos st.board.pos) ss ks ∧ Rows Z st.board st'.board ks xs
  | [], h, st, hg, _, f, st', hl => by
    rw [List.map_nil, loop] at hl
    refine ⟨[], [], ?_, trivial, ?_⟩
    · rw [List.map_nil, recordLoop]
      split at hl
      · rename_i hc; cases hl; rw [if_pos hc]; rfl
      · cases hl
    · split at hl
      · cases hl; exact ⟨trivial, rfl, .nil _, rfl, by simp⟩
      · cases hl
  | s :: ss, h, st, hg, hc, f, st', hl => by
    rw [List.map_cons, loop] at hl
    rw [List.map_cons, recordLoop]
    by_cases hd : st.board.pos.gamePly > (termsOf R).draw
    · rw [if_pos hd] at hl ⊢
      cases hl
      exact ⟨[], [], rfl, trivial, trivial, rfl, .nil _, rfl, by simp⟩
    · rw [if_neg hd] at hl ⊢
      dsimp only
      cases hr : round Z (termsOf R) st (replyOf s.said) with
      | error => rw [hr] at hl; cases hl
      | ub => rw [hr] at hl; cases hl
      | ok y =>
        obtain ⟨f1, st1⟩ := y
        rw [hr, Out.bind_ok] at hl
        obtain ⟨rows, e, hleft⟩ := turn_left (byoyomi := byoyomi) (h := h) hg hc hr
        rw [e, Out.bind_ok]
        cases hleft with
        | none f2 _ hb =>
          replace hl : Out.ok (some (f2, st1)) = Out.ok (some (f, st')) := hl
          cases hl
          refine ⟨[], [], rfl, trivial, trivial, ?_, .nil _, rfl, by simp [hb]⟩
          rw [hb]; rfl
        | move mv _ p' _ ha hm e1 e2 e3 hb =>
          have hbp : st1.board.pos = p' := by rw [hb]
          have hcl := ((hc.2.2.2 mv ha).2 hm).2
          have hstep : st.board.push Z (encode st.board.pos mv) = some st1.board := by
            unfold Board.push; rw [e1, hb]; rfl
          have hlo : LegalOp st.board (.push (encode st.board.pos mv)) := ⟨mv, rfl, hm⟩
          have hk : s.micros / 1000000 * 1000000 ≤ s.micros ∧ s.micros < (s.micros / 1000000 + 1) * 1000000 := by omega
          have hhist : st1.board.history = st.board.history ++ [encode st.board.pos mv] := by
            rw [hb]; unfold Board.history; simp
          have hrest : ∀ {ks xs}, Kept ((absPos st.board.pos).play mv) ss ks → Rows Z st1.board st'.board ks xs →
              Kept (absPos st.board.pos) (s :: ss) ((mv, s.micros / 1000000, s.note (absPos st.board.pos)) :: ks) ∧
              Rows Z st.board st'.board ((mv, s.micros / 1000000, s.note (absPos st.board.pos)) :: ks)
                ((encode st.board.pos mv, some (s.micros / 1000000), s.note (absPos st.board.pos)) :: xs) := by
            intro ks xs k1 k2
            refine ⟨⟨ha, hm, hk.1, hk.2, rfl, k1⟩, ⟨hlo, fun b'' eb => ?_⟩, ?_, ?_, ?_, ?_⟩
            · have : b'' = st1.board := by
                have eb : st.board.push Z (encode st.board.pos mv) = some b'' := eb
                rw [hstep] at eb; exact (Option.some.inj eb).symm
              rw [this]; exact k2.legal
            · show (st.board.push Z _).bind _ = _
              rw [hstep]; exact k2.ran
            · exact .cons e1 (by rw [← hbp]; exact k2.codes)
            · rw [List.map_cons, List.map_cons, k2.notes]
            · rw [k2.history, hhist]; simp
          cases f1 with
          | some f2 =>
            replace hl : Out.ok (some (f2, st1)) = Out.ok (some (f, st')) := hl
            cases hl
            obtain ⟨k1, k2⟩ := hrest (ks := []) (xs := []) (kept_nil _ _) ⟨trivial, rfl, .nil _, rfl, by simp⟩
            exact ⟨_, _, rfl, k1, k2⟩
          | none =>
            replace hl : loop Z (termsOf R) st1 (ss.map fun s => replyOf s.said) = .ok (some (f, st')) := hl
            obtain ⟨ks, xs, i1, i2, i3⟩ := loop_recorded ss (h := h.after (goCommand (termsOf R) byoyomi st) (turnOf s)) (st := st1)
              (by rw [hbp]; exact e2) (by rw [hbp, e3]; exact hcl) hl
            obtain ⟨k1, k2⟩ := hrest (by rw [← e3, ← hbp]; exact i2) i3
            refine ⟨_, _, ?_, k1, k2⟩
            show (recordLoop _ _ _ _ _ _).bind _ = _
            rw [i1]; rfl

/-- The moves of an opening. -/
theorem opening_rows {Z : Zobrist} {limit : Int} : ∀ (mvs : List Mv) {st st' : State} {ms : List Move} {texts : List (List Char)},
    Csa.Good Z st.board.pos → (absPos st.board.pos).Line mvs → playOpening Z limit st (mvs.map usiText) = .ok (st', ms, texts) →
    ∃ k, Always LegalOp Z st.board (ms.map .push) ∧ Board.run Z st.board (ms.map .push) = some st'.board ∧ Pgn.Codes Z st.board.pos (mvs.take k) ms ∧
      Csa.Good Z st'.board.pos ∧ absPos st'.board.pos = (absPos st.board.pos).after (mvs.take k) ∧ st'.board.history = st.board.history ++ ms ∧
      texts = (mvs.take k).map usiText
  | [], st, st', ms, texts, hg, _, h => by
    rw [List.map_nil, playOpening] at h
    cases h
    exact ⟨0, trivial, rfl, .nil _, hg, rfl, by simp, rfl⟩
  | mv :: mvs, st, st', ms, texts, hg, hl, h => by
    obtain ⟨p', e, g1, a1⟩ := hg.doMove hl.1
    obtain ⟨b, d1, d2, d3, d4⟩ := C97_push Z st.board hg mv hl.1
    have hpu : st.board.pushUsi Z (usiText mv) = some (b, encode st.board.pos mv) := d1 .usi
    have hpush : st.board.push Z (encode st.board.pos mv) = some ⟨p', .move (encode st.board.pos mv) :: st.board.hist⟩ := by
      unfold Board.push; rw [e]; rfl
    have hbb : b = ⟨p', .move (encode st.board.pos mv) :: st.board.hist⟩ := by
      have := d1 .int
      unfold Board.hand at this
      rw [hpush] at this
      simpa using this.symm
    rw [← hbb] at hpush
    have hbp : b.pos = p' := by rw [hbb]
    have hlo : LegalOp st.board (.push (encode st.board.pos mv)) := ⟨mv, rfl, hl.1⟩
    have hstep : ∀ {os}, Always LegalOp Z b os → Always LegalOp Z st.board (.push (encode st.board.pos mv) :: os) := by
      intro os ho
      refine ⟨hlo, fun b'' eb => ?_⟩
      have eb : st.board.push Z (encode st.board.pos mv) = some b'' := eb
      rw [hpush] at eb
      rw [← Option.some.inj eb]; exact ho
    rw [List.map_cons, playOpening, hpu] at h
    dsimp only at h
    split at h
    · cases h
      refine ⟨1, hstep trivial, ?_, ?_, d4, ?_, d3, ?_⟩
      · show (st.board.push Z _).bind _ = _
        rw [hpush]; rfl
      · rw [List.take_succ_cons, List.take_zero]; exact .cons e (.nil _)
      · rw [List.take_succ_cons, List.take_zero]; exact d2
      · rw [List.take_succ_cons, List.take_zero]; rfl
    · cases hx : playOpening Z limit { st with board := b, counts := Env.count st.counts b.pos.getKey } (mvs.map usiText) with
      | error => rw [hx] at h; cases h
      | ub => rw [hx] at h; cases h
      | ok x =>
        obtain ⟨st2, ms2, texts2⟩ := x
        rw [hx, Out.bind_ok] at h
        cases h
        obtain ⟨k, i1, i2, i3, i4, i5, i6, i7⟩ := opening_rows mvs (st := { st with board := b, counts := Env.count st.counts b.pos.getKey }) d4
          (by show (absPos b.pos).Line mvs; rw [d2]; exact hl.2) hx
        refine ⟨k + 1, hstep i1, ?_, ?_, i4, ?_, ?_, ?_⟩
        · show (st.board.push Z _).bind _ = _
          rw [hpush]; exact i2
        · rw [List.take_succ_cons]; exact .cons e (by rw [← hbp]; exact i3)
        · rw [i5, List.take_succ_cons]
          show (absPos b.pos).after _ = _
          rw [d2]; rfl
        · rw [i6]
          show b.history ++ ms2 = _
          rw [d3]; simp
        · rw [List.take_succ_cons, List.map_cons, i7]

theorem always_append {P : Board → Op → Prop} {Z : Zobrist} {b b' : Board} {xs ys : List Op} (h : Always P Z b xs) (hr : b.run Z xs = some b')
    (h' : Always P Z b' ys) : Always P Z b (xs ++ ys) := by
  induction xs generalizing b with
  | nil => simp only [Board.run, Option.some.injEq] at hr; subst hr; exact h'
  | cons x xs ih =>
    refine ⟨h.1, fun b1 e => ih (h.2 b1 e) ?_⟩
    rw [Board.run, e] at hr; exact hr

theorem codes_append {Z : Zobrist} {b' : Board} : ∀ {as : List Mv} {ms : List Move} {b : Board}, Pgn.Codes Z b.pos as ms →
    Board.run Z b (ms.map .push) = some b' → ∀ {as' : List Mv} {ms' : List Move}, Pgn.Codes Z b'.pos as' ms' →
    Pgn.Codes Z b.pos (as ++ as') (ms ++ ms')
  | [], _, b, .nil _, hr, _, _, h' => by
    simp only [List.map_nil, Board.run, Option.some.injEq] at hr; subst hr; exact h'
  | mv :: as, _, b, .cons (p' := p') e c, hr, _, _, h' => by
    rw [List.map_cons, Board.run] at hr
    have hs : b.step Z (.push (encode b.pos mv)) = some ⟨p', .move (encode b.pos mv) :: b.hist⟩ := by
      show Board.push Z _ _ = _
      unfold Board.push; rw [e]; rfl
    rw [hs] at hr
    exact .cons e (codes_append (b := ⟨p', .move (encode b.pos mv) :: b.hist⟩) c hr h')

end Verif.Match
