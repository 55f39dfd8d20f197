import Verif.Model.WebCsa
import Verif.Props.Web
import Verif.Props.Replay
import Verif.Lemmas.MatchCsaRecord

/-!
# The record of a game on the web page: the loop
-/

namespace Verif.Web
open Spec Bitboard Position Usi
open Match (Rows Clean turnOf toldText answerText termsOf upTo Flag)

/-- A turn of a player who says `x.1`, at the page if `x.2`. -/
def webTurn (x : Spoken × Bool) : Turn := ⟨turnOf x.1, x.2⟩

/-- The same, as the page takes it. -/
def infoOf (t : Spec.Told) : Info := ⟨t.before, t.score, t.after, t.first, t.rest, t.bad⟩

/-- What the page takes from a turn: the seconds begun. -/
def pageTold (s : Spoken) : Told := ⟨s.answer, s.last.map infoOf, (((s.micros + 999999) / 1000000 : Nat) : Int)⟩

/-- The line that was heard: one without a score, or the last one of an engine. -/
theorem heard_is (cmd : List Char) (hc : usiInfo cmd = none) (x : Spoken × Bool) (hx : x.2 = true → x.1.last = none) :
    (x.1.last = none → usiInfo ((webTurn x).heard cmd) = none) ∧ ∀ t, x.1.last = some t → (webTurn x).heard cmd = toldText t := by
  unfold Turn.heard webTurn
  dsimp only
  cases hb : x.2 with
  | true =>
    rw [if_pos rfl]
    refine ⟨fun _ => by decide +kernel, fun t ht => ?_⟩
    rw [hx hb] at ht; cases ht
  | false =>
    rw [if_neg (by decide), Match.heard_turn]
    refine ⟨fun h => by rw [h]; exact hc, fun t ht => by rw [ht]⟩

theorem web_go_absent (byoyomi time inc : Option Int) : usiInfo (webCommand byoyomi time inc) = none := by
  unfold usiInfo
  rw [Match.score_absent]
  · rfl
  · unfold webCommand goLine
    simp only [List.mem_append, not_or]
    refine ⟨by decide, by simp, Match.argText_no_s (by decide) _, Match.argText_no_s (by decide) _, ?_, by simp [argText]⟩
    cases byoyomi with
    | none =>
      simp only [List.mem_append, not_or]
      exact ⟨Match.argText_no_s (by decide) _, Match.argText_no_s (by decide) _⟩
    | some n => exact Match.argText_no_s (by decide) _

/-- Only what can be read of the line matters for the entry. -/
theorem entry_info (Z : Zobrist) (b : Board) (m : Move) {r r' : Reply} (hi : usiInfo r.info = usiInfo r'.info) (hs : r.secs = r'.secs) :
    entry Z b m r = entry Z b m r' := by
  unfold entry infoScore pvText
  rw [hi, hs]

theorem info_ok {P : Pos} {mv : Mv} {t : Spec.Told} (h : t.Fine P mv) : (infoOf t).OK P := by
  refine ⟨h.after, h.line, ?_⟩
  show Usi.Ends _ t.bad
  cases hb : t.bad with
  | nil => trivial
  | cons m l => exact h.bad m l hb

/-- What is handed to the exporter. -/
theorem exported_web {Z : Zobrist} {p : Position} (hg : Csa.Good Z p) {cmd : List Char} (hc : usiInfo cmd = none) {x : Spoken × Bool}
    (hx : x.2 = true → x.1.last = none) {mv : Mv} (hf : ∀ t, x.1.last = some t → t.Fine (absPos p) mv) (m : Move) :
    Match.exported Z p ((webTurn x).heard cmd) (webTurn x).toTurn m =
      .ok [(m, some (x.1.micros / 1000000), (x.1.note (absPos p)).text)] := by
  obtain ⟨h1, h2⟩ := heard_is cmd hc x hx
  have hcm : ∃ c, infoComment Z p ((webTurn x).heard cmd) = .ok c ∧ c.getD [] = (x.1.note (absPos p)).text := by
    cases hl : x.1.last with
    | none =>
      refine ⟨none, ?_, ?_⟩
      · unfold infoComment
        rw [h1 hl]
      · unfold Spoken.note
        rw [hl]; rfl
    | some t =>
      obtain ⟨c, e1, e2⟩ := Match.comment_heard hg hf ⟨[], []⟩ (termsOf (upTo 0)) (fun _ => none) (Match.start p fun _ => none)
      rw [Match.heard_turn, hl] at e1
      exact ⟨c, by rw [h2 t hl]; exact e1, e2⟩
  obtain ⟨c, e1, e2⟩ := hcm
  unfold Match.exported
  rw [e1, Out.bind_ok, e2]; rfl

/-- What the page shows for a move. -/
theorem entry_web {Z : Zobrist} {b : Board} (hg : Csa.Good Z b.pos) {last : Option Square} (hl : LastIs b last) {cmd : List Char}
    (hc : usiInfo cmd = none) {x : Spoken × Bool} (hx : x.2 = true → x.1.last = none) {mv : Mv} (hm : (absPos b.pos).Legal mv)
    (hf : ∀ t, x.1.last = some t → t.Fine (absPos b.pos) mv) {n : Nat} (hn : b.pos.gamePly = n) (ht : b.pos.turn = if n % 2 = 1 then .black else .white) :
    ∃ e, entry Z b (encode b.pos mv) ((webTurn x).reply cmd) = .ok e ∧ Right (absPos b.pos) last n mv (pageTold x.1).info (pageTold x.1).secs e := by
  obtain ⟨h1, h2⟩ := heard_is cmd hc x hx
  have hi : ∀ i, (pageTold x.1).info = some i → i.OK (absPos b.pos) := by
    intro i hi
    obtain ⟨t, t1, rfl⟩ := Option.map_eq_some_iff.mp hi
    exact info_ok (hf t t1)
  obtain ⟨e, e1, e2⟩ := entry_right hg hl hm hn ht (pageTold x.1) hi
  refine ⟨e, ?_, e2⟩
  rw [← e1]
  refine entry_info Z b _ ?_ rfl
  show usiInfo ((webTurn x).heard cmd) = usiInfo (infoChars (x.1.last.map infoOf))
  cases hlast : x.1.last with
  | none => rw [h1 hlast]; decide +kernel
  | some t => rw [h2 t hlast]; rfl

/-- The rows of a file belong to what was said. -/
def Wrote : Pos → List Spoken → List (Move × Option Nat × Note) → Prop
  | _, [], [] => True
  | P, s :: ss, x :: xs => ∃ mv, s.answer = .move mv ∧ P.Legal mv ∧ Codes x.1 mv ∧ x.2 = (some (s.micros / 1000000), s.note P) ∧
    (∀ t, s.last = some t → t.Fine P mv) ∧ Wrote (P.play mv) ss xs
  | _, _, _ => False

/-- What the loop leaves behind. -/
structure Course (Z : Zobrist) (st st' : State) (last : Option Square) (n : Nat) (ss made rest : List Spoken) (ks : List (Mv × Nat × Note))
    (rows : List (Move × Option Nat × Note)) (es : List Entry) : Prop where
  split : ss = made ++ rest
  shown : st'.shown = st.shown ++ es
  shows : Shows (absPos st.game.board.pos) last n (made.map pageTold) es
  kept : Kept (absPos st.game.board.pos) ss ks
  told : Wrote (absPos st.game.board.pos) made rows
  rows : Rows Z st.game.board st'.game.board ks rows
  ply : st'.game.board.pos.gamePly = ((n + made.length : Nat) : Int)
  turn : st'.game.board.pos.turn = if (n + made.length) % 2 = 1 then .black else .white

theorem course_stop {Z : Zobrist} {st : State} {last : Option Square} {n : Nat} (ss : List Spoken) (hn : st.game.board.pos.gamePly = n)
    (ht : st.game.board.pos.turn = if n % 2 = 1 then .black else .white) : Course Z st st last n ss [] ss [] [] [] :=
  ⟨rfl, by simp, rfl, Match.kept_nil _ _, trivial, ⟨trivial, rfl, .nil _, rfl, by simp⟩, by rw [hn]; simp, by simpa using ht⟩

theorem round_none {Z : Zobrist} {cmd : List Char} {st : State} {t : Turn} {y : Option Flag × State} (h : round Z st (t.reply cmd) = .ok y) :
    st.game.remain st.game.board.pos.turn = none := by
  unfold round at h
  cases hr : st.game.remain st.game.board.pos.turn with
  | none => rfl
  | some _ => rw [hr] at h; cases h

theorem doMove_number {Z : Zobrist} {p p' : Position} {m : Move} (he : doMove Z p m = some p') : p'.gamePly = p.gamePly + 1 := by
  unfold doMove at he
  split at he
  · split at he <;> (cases he; rfl)
  · cases he

/-- With the exporter the loop does the same. -/
theorem save_loop {Z : Zobrist} {R : Rules} {cmd : List Char} (hcmd : usiInfo cmd = none) {draw : Int} : ∀ (xs : List (Spoken × Bool)) {st : State}
    {last : Option Square} {n : Nat}, Csa.Good Z st.game.board.pos → LastIs st.game.board last → st.game.board.pos.gamePly = n →
    st.game.board.pos.turn = (if n % 2 = 1 then .black else .white) → Clean R (absPos st.game.board.pos) (xs.map Prod.fst) →
    (∀ x ∈ xs, x.2 = true → x.1.last = none) → ∀ {f : Option Flag} {st' : State},
    loop Z draw st (xs.map fun x => (webTurn x).reply cmd) = .ok (f, st') →
    ∃ made rest ks rows es, saveLoop Z cmd draw st (xs.map webTurn) = .ok (rows.map Csa.noted, f, st') ∧
      Course Z st st' last n (xs.map Prod.fst) made rest ks rows es
  | [], st, last, n, hg, hl, hn, ht, hc, hx, f, st', h => by
    rw [List.map_nil, loop] at h
    cases h
    exact ⟨_, _, _, _, _, rfl, course_stop _ hn ht⟩
  | x :: xs, st, last, n, hg, hl, hn, ht, hc, hx, f, st', h => by
    rw [List.map_cons, loop] at h
    rw [List.map_cons, saveLoop]
    by_cases hd : st.game.board.pos.gamePly > draw
    · rw [if_pos hd] at h ⊢
      cases h
      exact ⟨_, _, _, _, _, rfl, course_stop _ hn ht⟩
    rw [if_neg hd] at h ⊢
    cases hr : round Z st ((webTurn x).reply cmd) with
    | error => rw [hr] at h; cases h
    | ub => rw [hr] at h; cases h
    | ok y =>
      have hrem := round_none hr
      rw [hr, Out.bind_ok] at h
      unfold saveRound
      rw [hrem]
      dsimp only
      unfold round at hr
      rw [hrem] at hr
      dsimp only at hr
      have hbest : ((webTurn x).reply cmd).bestmove = answerText x.1.answer := rfl
      have hbest' : (webTurn x).bestmove = answerText x.1.answer := rfl
      rw [hbest] at hr
      rw [hbest']
      have hstop : ∀ g : Flag, y = (some g, st) → f = some g ∧ st' = st := by
        rintro g rfl
        cases h; exact ⟨rfl, rfl⟩
      cases ha : x.1.answer with
      | resign =>
        rw [ha, if_pos (show answerText .resign = "resign".toList from rfl)] at hr
        rw [if_pos (show answerText .resign = "resign".toList from rfl)]
        obtain ⟨rfl, rfl⟩ := hstop _ (Out.ok.inj hr).symm
        exact ⟨_, _, _, _, _, rfl, course_stop _ hn ht⟩
      | declare =>
        rw [ha, if_neg (by decide), if_pos (show answerText .declare = "win".toList from rfl)] at hr
        rw [if_neg (by decide), if_pos (show answerText .declare = "win".toList from rfl)]
        obtain ⟨rfl, rfl⟩ := hstop _ (Out.ok.inj hr).symm
        exact ⟨_, _, _, _, _, rfl, course_stop _ hn ht⟩
      | move mv =>
        have h1 : answerText (.move mv) ≠ "resign".toList := Match.usiText_ne_resign mv
        have h2 : answerText (.move mv) ≠ "win".toList := Match.usiText_ne_win mv
        rw [ha, if_neg h1, if_neg h2] at hr
        rw [if_neg h1, if_neg h2]
        unfold tryMove at hr
        unfold saveMove
        rw [hbest, ha] at hr
        rw [hbest', ha]
        have hc0 := hc
        obtain ⟨-, -, -, hmove⟩ := hc
        by_cases hm : (absPos st.game.board.pos).Legal mv
        · obtain ⟨p', e1, g1, a1⟩ := hg.doMove hm
          have hleg := legal_true hg hm
          have hu : st.game.board.pos.usiToMove (answerText (.move mv)) = some (encode st.game.board.pos mv) := usi_text hleg
          have hpush : st.game.board.push Z (encode st.game.board.pos mv) = some ⟨p', .move (encode st.game.board.pos mv) :: st.game.board.hist⟩ := by
            unfold Board.push; rw [e1]; rfl
          obtain ⟨hf, hcl⟩ := (hmove mv ha).2 hm
          have hx0 := hx x List.mem_cons_self
          have hex := exported_web hg hcmd hx0 hf (encode st.game.board.pos mv)
          obtain ⟨e, he1, he2⟩ := entry_web hg hl hcmd hx0 hm hf hn ht
          rw [hu] at hr ⊢
          dsimp only at hr ⊢
          rw [hleg] at hr ⊢
          dsimp only at hr ⊢
          rw [he1, Out.bind_ok, hpush] at hr
          rw [hex, Out.bind_ok, he1, Out.bind_ok, hpush]
          dsimp only at hr ⊢
          cases hafter : Match.afterMove { st.game with board := ⟨p', .move (encode st.game.board.pos mv) :: st.game.board.hist⟩ } with
          | error => rw [hafter] at hr; cases hr
          | ub => rw [hafter] at hr; cases hr
          | ok w =>
            obtain ⟨f1, g'⟩ := w
            rw [hafter, Out.bind_ok] at hr
            rw [Out.bind_ok, Out.bind_ok]
            dsimp only at hr ⊢
            cases hr
            have hb : g'.board = ⟨p', .move (encode st.game.board.pos mv) :: st.game.board.hist⟩ := Match.afterMove_board hafter
            have hbp : g'.board.pos = p' := by rw [hb]
            have hstep : st.game.board.push Z (encode st.game.board.pos mv) = some g'.board := by rw [hpush, hb]
            have hlo : LegalOp st.game.board (.push (encode st.game.board.pos mv)) := ⟨mv, rfl, hm⟩
            have hk : x.1.micros / 1000000 * 1000000 ≤ x.1.micros ∧ x.1.micros < (x.1.micros / 1000000 + 1) * 1000000 := by omega
            have hhist : g'.board.history = st.game.board.history ++ [encode st.game.board.pos mv] := by
              rw [hb]; unfold Board.history; simp
            have hn' : g'.board.pos.gamePly = ((n + 1 : Nat) : Int) := by
              rw [hbp, doMove_number e1, hn]; push_cast; rfl
            have ht' : g'.board.pos.turn = if (n + 1) % 2 = 1 then .black else .white := by
              have : p'.turn = st.game.board.pos.turn.opp := by
                have := congrArg Pos.turn a1
                rw [play_turn] at this; exact this
              rw [hbp, this, ht]
              by_cases hp : n % 2 = 1
              · rw [if_pos hp, if_neg (by omega)]; rfl
              · rw [if_neg hp, if_pos (by omega)]; rfl
            have hla : absPos g'.board.pos = (absPos st.game.board.pos).play mv := by rw [hbp, a1]
            have hcons : ∀ {made rest ks rows es}, Course Z ⟨g', st.shown ++ [e]⟩ st' (some (Spec.Web.dest mv)) (n + 1) (xs.map Prod.fst) made rest ks rows es →
                Course Z st st' last n ((x :: xs).map Prod.fst) (x.1 :: made) rest ((mv, x.1.micros / 1000000, x.1.note (absPos st.game.board.pos)) :: ks)
                  ((encode st.game.board.pos mv, some (x.1.micros / 1000000), x.1.note (absPos st.game.board.pos)) :: rows) (e :: es) := by
              intro made rest ks rows es k
              have k2 := k.rows
              refine ⟨by rw [List.map_cons, k.split]; rfl, by rw [k.shown]; simp, ⟨mv, e, es, ha, hm, rfl, he2, hla ▸ k.shows⟩, ⟨ha, hm, hk.1, hk.2, rfl, hla ▸ k.kept⟩,
                ⟨mv, ha, hm, codes_encode _ _, rfl, hf, hla ▸ k.told⟩, ⟨⟨hlo, fun b'' eb => ?_⟩, ?_, ?_, ?_, ?_⟩, ?_, ?_⟩
              · have : b'' = g'.board := by
                  have eb : st.game.board.push Z (encode st.game.board.pos mv) = some b'' := eb
                  rw [hstep] at eb; exact (Option.some.inj eb).symm
                rw [this]; exact k2.legal
              · show (st.game.board.push Z _).bind _ = _
                rw [hstep]; exact k2.ran
              · exact .cons e1 (by rw [← hbp]; exact k2.codes)
              · rw [List.map_cons, List.map_cons, k2.notes]
              · rw [k2.history]
                show g'.board.history ++ _ = _
                rw [hhist]; simp
              · rw [k.ply, List.length_cons]; push_cast; omega
              · rw [k.turn, List.length_cons]
                congr 2
                omega
            cases f1 with
            | some f1 =>
              cases h
              exact ⟨_, _, _, _, _, rfl, hcons (course_stop _ hn' ht')⟩
            | none =>
              replace h : loop Z draw ⟨g', st.shown ++ [e]⟩ (xs.map fun x => (webTurn x).reply cmd) = .ok (f, st') := h
              obtain ⟨made, rest, ks, rows, es, i1, i2⟩ := save_loop hcmd xs (st := ⟨g', st.shown ++ [e]⟩) (last := some (Spec.Web.dest mv)) (n := n + 1)
                (by show Csa.Good Z g'.board.pos; rw [hbp]; exact g1) (lastIs_push hm.1.1 hstep) hn' ht' (by show Clean R (absPos g'.board.pos) _; rw [hla]; exact hcl)
                (fun y hy => hx y (List.mem_cons_of_mem _ hy)) h
              refine ⟨_, _, _, _, _, ?_, hcons i2⟩
              show (saveLoop _ _ _ _ _).bind _ = _
              rw [i1]; rfl
        · have hnot : st.game.board.pos.isLegal (encode st.game.board.pos mv) = some false := by
            obtain ⟨b, -, j1, -, -, j2⟩ := C27_is_legal_partial _ hg.inv.views hg.check hg.regular mv (hmove mv ha).1
            cases b with
            | true => exact absurd (j2.mp rfl) hm
            | false => exact j1
          have hu : st.game.board.pos.usiToMove (answerText (.move mv)) = some 0#32 := usi_text_not hnot
          rw [hu] at hr ⊢
          dsimp only at hr ⊢
          rw [Match.isLegal_zero] at hr ⊢
          dsimp only at hr ⊢
          obtain ⟨rfl, rfl⟩ := hstop _ (Out.ok.inj hr).symm
          exact ⟨_, _, _, _, _, rfl, course_stop _ hn ht⟩

/-- The rows of the file are ones that the page can show. -/
theorem Wrote.informs : ∀ {ss : List Spoken} {P : Pos} {xs : List (Move × Option Nat × Note)}, Wrote P ss xs → Informs false P xs
  | [], P, [], _ => .nil P
  | [], _, _ :: _, h => h.elim
  | _ :: _, _, [], h => h.elim
  | s :: ss, P, (m, time, note) :: xs, h => by
    obtain ⟨mv, h1, h2, h3, h4, h5, h6⟩ := h
    cases h4
    refine .cons h3 (.inl ?_) h6.informs
    unfold Spoken.note
    cases hl : s.last with
    | none => trivial
    | some t =>
      have hf := h5 t hl
      refine ⟨t.rest, ?_, ?_⟩
      · rw [← hf.first]; exact hf.line.2
      · rw [← hf.first]

theorem Wrote.length : ∀ {ss : List Spoken} {P : Pos} {xs : List (Move × Option Nat × Note)}, Wrote P ss xs → xs.length = ss.length
  | [], _, [], _ => rfl
  | [], _, _ :: _, h => h.elim
  | _ :: _, _, [], h => h.elim
  | s :: ss, P, x :: xs, h => by
    obtain ⟨mv, -, -, -, -, -, h6⟩ := h
    rw [List.length_cons, List.length_cons, h6.length]

end Verif.Web
