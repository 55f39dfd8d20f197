import Verif.Props.CsaFile
import Verif.Lemmas.Web
import Verif.Model.Replay
import Verif.Spec.Replay

/-!
# Lemmas about CSA records on the web page
-/

namespace Verif.Web
open Spec Bitboard Position

/-! ### Texts -/

/-- `move_to_kif` with the last move given. -/
theorem kif_text_prev {p : Position} (hp : Consistent p) {mv : Mv} (hm : (absPos p).Pseudo mv) {last : Option Square} {prev : Move}
    (hl : LastIs ⟨p, [.move prev]⟩ last) : Kif.moveToKif (encode p mv) prev = some (Spec.Web.kifMove (absPos p) last mv) :=
  kif_text (b := ⟨p, [.move prev]⟩) hp hm hl

theorem lastIs_none (p : Position) : LastIs ⟨p, [.move 0#32]⟩ none := rfl

theorem lastIs_encode (p q : Position) {mv : Mv} (hm : (absPos p).Pseudo mv) : LastIs ⟨q, [.move (encode p mv)]⟩ (some (Spec.Web.dest mv)) := by
  refine ⟨encode_ne_zero hm, ?_⟩
  show (encode p mv).dst = _
  cases mv with
  | move f t pro => exact (src_eq p f t pro).2.1
  | drop k t => exact (drop_fields k t).2.1

theorem csaMove_read {Z : Zobrist} {p : Position} (hg : Csa.Good Z p) {mv : Mv} (hm : (absPos p).Legal mv) :
    p.csaToMove ((csaMove (absPos p) mv).drop 1) = some (encode p mv) ∧
      (csaMove (absPos p) mv).head?.bind csaSymbol = some (Spec.Web.sign p.turn) := by
  obtain ⟨l, e, hl⟩ := C06_round_trip p hg.inv.views hg.check hg.regular
  obtain ⟨l', e', -, hmem⟩ := genLegal_spec hg.inv.views hg.check hg.regular
  rw [e] at e'; cases e'
  obtain ⟨s, s1, s2⟩ := hl _ ((hmem _).mpr ⟨mv, rfl, hm⟩)
  obtain ⟨k, k1, k2⟩ := Usi.toCSA_encode hg.inv.views hm.1.1
  rw [s1] at k1; cases k1
  rw [← k2]
  refine ⟨s2, ?_⟩
  cases p.turn <;> rfl

theorem replayPv_line {Z : Zobrist} : ∀ (mvs : List Mv) {p : Position}, Csa.Good Z p → (absPos p).Line mvs →
    replayPv Z p (csaMoves (absPos p) mvs) = .ok (some (Spec.Web.plainLine (absPos p) mvs))
  | [], p, hg, _ => rfl
  | mv :: mvs, p, hg, hl => by
    obtain ⟨hm, hl⟩ := hl
    obtain ⟨p', e1, g1, a1⟩ := hg.doMove hm
    obtain ⟨c1, c2⟩ := csaMove_read hg hm
    have ih := replayPv_line mvs g1 (by rw [a1]; exact hl)
    show replayPv Z p (csaMove (absPos p) mv :: csaMoves ((absPos p).play mv) mvs) = _
    rw [replayPv, c1]
    dsimp only
    rw [legal_true hg hm]
    dsimp only
    rw [c2, kif_text_prev hg.inv.views hm.1.1 (lastIs_none p)]
    dsimp only
    rw [e1]
    dsimp only
    rw [← a1, ih]
    show Out.ok _ = _
    rw [a1]
    rfl

/-! ### Comments -/

theorem csaMove_word (P : Pos) (mv : Mv) : ' ' ∉ csaMove P mv := by
  have hd : ∀ s : Square, ' ' ∉ squareDigits s := by decide
  have hn : ∀ k : Kind, ' ' ∉ csaName k := by intro k; cases k <;> decide
  have hs : ∀ c : Color, (if c = .black then '+' else '-') ≠ ' ' := by intro c; cases c <;> decide
  unfold csaMove
  rw [List.mem_cons]
  rintro (h | h)
  · exact hs _ h.symm
  cases mv with
  | move f t pro =>
    simp only [List.mem_append] at h
    rcases h with (h | h) | h
    · exact hd f h
    · exact hd t h
    · cases hb : (P.play (.move f t pro)).board t with
      | none => rw [hb] at h; cases h
      | some x => rw [hb] at h; exact hn x.2 h
  | drop k t =>
    simp only [List.mem_append] at h
    rcases h with (h | h) | h
    · revert h; decide
    · exact hd t h
    · exact hn _ h

theorem csaMoves_word : ∀ (mvs : List Mv) (P : Pos), ∀ w ∈ csaMoves P mvs, ' ' ∉ w
  | [], _, w, h => by cases h
  | mv :: mvs, P, w, h => by
    rcases List.mem_cons.mp h with rfl | h
    · exact csaMove_word P mv
    · exact csaMoves_word mvs _ w h

theorem csaMove_ascii (P : Pos) (mv : Mv) : ∀ c ∈ csaMove P mv, c.toNat < 128 := by
  have hd : ∀ s : Square, ∀ c ∈ squareDigits s, c.toNat < 128 := by decide
  have hn : ∀ k : Kind, ∀ c ∈ csaName k, c.toNat < 128 := by intro k; cases k <;> decide
  have hs : ∀ c : Color, (if c = .black then '+' else '-').toNat < 128 := by intro c; cases c <;> decide
  intro c h
  unfold csaMove at h
  rcases List.mem_cons.mp h with rfl | h
  · exact hs _
  cases mv with
  | move f t pro =>
    simp only [List.mem_append] at h
    rcases h with (h | h) | h
    · exact hd f c h
    · exact hd t c h
    · cases hb : (P.play (.move f t pro)).board t with
      | none => rw [hb] at h; cases h
      | some x => rw [hb] at h; exact hn x.2 c h
  | drop k t =>
    simp only [List.mem_append] at h
    rcases h with (h | h) | h
    · have : ∀ c ∈ ['0', '0'], c.toNat < 128 := by decide
      exact this c h
    · exact hd t c h
    · exact hn _ c h

theorem csaMoves_ascii : ∀ (mvs : List Mv) (P : Pos), ∀ w ∈ csaMoves P mvs, ∀ c ∈ w, c.toNat < 128
  | [], _, w, h => by cases h
  | mv :: mvs, P, w, h => by
    rcases List.mem_cons.mp h with rfl | h
    · exact csaMove_ascii P mv
    · exact csaMoves_ascii mvs _ w h

/-- The comments that the page can show, `Q` being the position after the move: none, or a number with a variation. (Remarks are not
kept with the move.) -/
def NoteOK (Q : Pos) : Note → Prop
  | .silent => True
  | .remark _ => True
  | .line l => l = []
  | .score _ ws => ∃ mvs, Q.Line mvs ∧ ws = [' '].intercalate (csaMoves Q mvs)

/-- The number that is shown. -/
def noteEval : Note → Option Int
  | .score n _ => some n
  | _ => none

/-- The variation that is shown. -/
def NotePv (Q : Pos) (pv : List Char) : Note → Prop
  | .score _ ws => ∀ mvs, Q.Line mvs → ws = [' '].intercalate (csaMoves Q mvs) → pv = [' '].intercalate (Spec.Web.plainLine Q mvs)
  | _ => pv = []

/-- The words of a comment. -/
theorem stored_words {Q : Pos} {n : Int} {ws : List Char} {mvs : List Mv} (h : ws = [' '].intercalate (csaMoves Q mvs)) :
    Kif.splitAt ' ' (Note.score n ws).stored = intChars n :: csaMoves Q mvs := by
  rw [← joined_intercalate] at h
  have hst : (Note.score n ws).stored = intChars n ++ Usi.flat (csaMoves Q mvs) := by
    cases mvs with
    | nil =>
      have : ws = [] := h
      subst this
      show intChars n = intChars n ++ []
      rw [List.append_nil]
    | cons mv mvs =>
      have e : ws = csaMove Q mv ++ Usi.flat (csaMoves (Q.play mv) mvs) := by
        rw [h]
        exact (List.cons.inj (Usi.joined_words (csaMoves (Q.play mv) mvs) (csaMove Q mv))).2
      have hne : ∃ c cs, ws = c :: cs := ⟨_, _, by rw [e]; rfl⟩
      obtain ⟨c, cs, hc⟩ := hne
      rw [hc]
      show intChars n ++ ' ' :: (c :: cs) = _
      rw [← hc, e]
      rfl
  rw [hst, Usi.splitAt_words]
  intro w hw
  rcases List.mem_cons.mp hw with rfl | hw
  · exact (Usi.plain_int n).blank
  · exact csaMoves_word mvs Q w hw

theorem note_ascii {Q : Pos} {note : Note} (h : NoteOK Q note) : ∀ c ∈ note.stored, c.toNat < 128 := by
  have hi : ∀ n : Int, ∀ c ∈ intChars n, c.toNat < 128 := by
    intro n c hc
    have hd : ∀ c : Char, c.isDigit = true → c.toNat < 128 := by
      intro c h
      simp only [Char.isDigit, Bool.and_eq_true, decide_eq_true_eq] at h
      have h2 : c.val ≤ 57 := h.2
      have := UInt32.le_iff_toNat_le.mp h2
      show c.val.toNat < 128
      have e : (57 : UInt32).toNat = 57 := rfl
      omega
    unfold intChars at hc
    split at hc
    · rcases List.mem_cons.mp hc with rfl | hc
      · decide
      · exact hd c (natChars_isDigit c hc)
    · exact hd c (natChars_isDigit c hc)
  have hj : ∀ (l : List (List Char)), (∀ w ∈ l, ∀ c ∈ w, c.toNat < 128) → ∀ c ∈ Usi.joined l, c.toNat < 128 := by
    intro l
    induction l with
    | nil => intro _ c hc; cases hc
    | cons w l ih =>
      intro hl c hc
      cases l with
      | nil =>
        have : Usi.joined [w] = w := rfl
        rw [this] at hc
        exact hl w (by simp) c hc
      | cons v l =>
        rw [Usi.joined] at hc
        · rcases List.mem_append.mp hc with hc | hc
          · exact hl w (by simp) c hc
          · rcases List.mem_cons.mp hc with rfl | hc
            · decide
            · exact ih (fun w hw => hl w (List.mem_cons_of_mem _ hw)) c hc
        · simp
  intro c hc
  cases note with
  | silent => cases hc
  | remark l => cases hc
  | line l => have : l = [] := h
              subst this; cases hc
  | score n ws =>
    obtain ⟨mvs, -, rfl⟩ := h
    rw [← joined_intercalate] at hc
    have hw := hj _ (csaMoves_ascii mvs Q)
    cases hx : Usi.joined (csaMoves Q mvs) with
    | nil => rw [hx] at hc; exact hi n c hc
    | cons d ds =>
      rw [hx] at hc
      replace hc : c ∈ intChars n ++ ' ' :: d :: ds := hc
      rw [← hx] at hc
      rcases List.mem_append.mp hc with hc | hc
      · exact hi n c hc
      · rcases List.mem_cons.mp hc with rfl | hc
        · decide
        · exact hw c hc

/-- The entry for a recorded move: `who` gives the side whose sign is shown. -/
structure Recorded (who : Color → Color) (P : Pos) (last : Option Square) (n : Nat) (mv : Mv) (time : Option Nat) (note : Note) (e : Entry) : Prop where
  number : e.number = n
  text : e.text = Spec.Web.sign (who P.turn) :: Spec.Web.kifMove P last mv
  secs : e.secs = time.getD 0
  move : Codes e.move mv
  eval : e.eval = noteEval note
  pv : NotePv (P.play mv) e.pv note

theorem replayMove_ok {Z : Zobrist} {p : Position} (hg : Csa.Good Z p) {last : Option Square} {prev : Move} (hl : LastIs ⟨p, [.move prev]⟩ last)
    {mv : Mv} (hm : (absPos p).Legal mv) {i : Nat} {who : Color → Color} (hs : indexSymbol i = Spec.Web.sign (who p.turn)) (time : Option Nat)
    {note : Note} (hn : NoteOK ((absPos p).play mv) note) :
    ∃ e p', replayMove Z p i prev (encode p mv) ((time.getD 0 : Nat) : Int) note.stored = .ok (e, p') ∧ p.doMove Z (encode p mv) = some p' ∧
      Csa.Good Z p' ∧ absPos p' = (absPos p).play mv ∧ Recorded who (absPos p) last (i + 1) mv time note e := by
  obtain ⟨p', e1, g1, a1⟩ := hg.doMove hm
  have key : ∀ eval r, replayEval (Kif.splitAt ' ' note.stored) = .ok eval → replayPv Z p' ((Kif.splitAt ' ' note.stored).drop 1) = .ok r →
      replayMove Z p i prev (encode p mv) ((time.getD 0 : Nat) : Int) note.stored =
        .ok (⟨i + 1, Spec.Web.sign (who p.turn) :: Spec.Web.kifMove (absPos p) last mv, ((time.getD 0 : Nat) : Int), encode p mv, eval,
          Usi.joined (r.getD ((Kif.splitAt ' ' note.stored).drop 1))⟩, p') := by
    intro eval r h1 h2
    unfold replayMove
    dsimp only
    rw [legal_true hg hm]
    dsimp only
    rw [e1]
    dsimp only
    rw [h1, Out.bind, h2, Out.bind, kif_text_prev hg.inv.views hm.1.1 hl, hs]
  have none_ok : note.stored = [] → noteEval note = none → (∀ pv, pv = [] → NotePv ((absPos p).play mv) pv note) → _ := fun h0 h1 h2 =>
    (⟨_, p', key none (some []) (by rw [h0]; rfl) (by rw [h0]; rfl), e1, g1, a1, rfl, rfl, rfl, codes_encode p mv, h1.symm, h2 _ rfl⟩ :
      ∃ e p', replayMove Z p i prev (encode p mv) ((time.getD 0 : Nat) : Int) note.stored = .ok (e, p') ∧ p.doMove Z (encode p mv) = some p' ∧
        Csa.Good Z p' ∧ absPos p' = (absPos p).play mv ∧ Recorded who (absPos p) last (i + 1) mv time note e)
  cases note with
  | silent => exact none_ok rfl rfl (fun _ h => h)
  | remark l => exact none_ok rfl rfl (fun _ h => h)
  | line l => exact none_ok hn rfl (fun _ h => h)
  | score n ws =>
    obtain ⟨mvs, n1, n2⟩ := hn
    have hw := stored_words (n := n) n2
    refine ⟨_, p', key (some n) (some (Spec.Web.plainLine ((absPos p).play mv) mvs)) ?_ ?_, e1, g1, a1, rfl, rfl, rfl, codes_encode p mv, rfl, ?_⟩
    · rw [hw]
      unfold replayEval
      dsimp only
      rw [if_neg (Usi.plain_int n).1, Usi.pyInt_intChars]
    · rw [hw, ← a1]
      exact replayPv_line mvs g1 (by rw [a1]; exact n1)
    · intro mvs' m1 m2
      show Usi.joined (Spec.Web.plainLine ((absPos p).play mv) mvs) = _
      have hw' := stored_words (n := n) m2
      rw [hw] at hw'
      have h1 := replayPv_line (Z := Z) mvs g1 (by rw [a1]; exact n1)
      have h2 := replayPv_line (Z := Z) mvs' g1 (by rw [a1]; exact m1)
      rw [a1] at h1 h2
      rw [(List.cons.inj hw').2, h2] at h1
      rw [joined_intercalate, Option.some.inj (Out.ok.inj h1)]

theorem codes_unique {m : Move} {mv mv' : Mv} (h : Codes m mv) (h' : Codes m mv') : mv = mv' := by
  have hk : ∀ k k' : HKind, k.kind.code = k'.kind.code → k = k' := by intro k k'; cases k <;> cases k' <;> decide
  have hd : (Spec.Web.dest mv).val = (Spec.Web.dest mv').val := by rw [← h.1, ← h'.1]
  cases mv with
  | move f t pro =>
    cases mv' with
    | move f' t' pro' =>
      have e1 : f = f' := Fin.ext (h.2.2.1.symm.trans h'.2.2.1)
      have e2 : pro = pro' := h.2.2.2.symm.trans h'.2.2.2
      have e3 : t = t' := Fin.ext hd
      rw [e1, e2, e3]
    | drop k' t' => exact absurd (h.2.1.symm.trans h'.2.1) (by decide)
  | drop k t =>
    cases mv' with
    | move f' t' pro' => exact absurd (h.2.1.symm.trans h'.2.1) (by decide)
    | drop k' t' =>
      have e1 : k = k' := hk _ _ (h.2.2.symm.trans h'.2.2)
      have e3 : t = t' := Fin.ext hd
      rw [e1, e3]

/-- The moves of a record, with comments that the page can show (or, with `odd`, also words without a number). -/
inductive Informs (odd : Bool) : Pos → List (Move × Option Nat × Note) → Prop
  | nil (P : Pos) : Informs odd P []
  | cons {P : Pos} {m : Move} {mv : Mv} {time : Option Nat} {note : Note} {xs : List (Move × Option Nat × Note)} : Codes m mv →
      (NoteOK (P.play mv) note ∨ odd = true ∧ ∃ l, note = .line l ∧ ∀ c ∈ l.head?, Kif.isSpace c = false) → Informs odd (P.play mv) xs → Informs odd P ((m, time, note) :: xs)

/-- The entries for the moves of a record, the last of them leading to `Q`. -/
inductive Shown (who : Color → Color) : Pos → Option Square → Nat → List (Move × Option Nat × Note) → List Entry → Pos → Prop
  | nil (P : Pos) (last : Option Square) (n : Nat) : Shown who P last n [] [] P
  | cons {P Q : Pos} {last : Option Square} {n : Nat} {m : Move} {mv : Mv} {time : Option Nat} {note : Note}
      {xs : List (Move × Option Nat × Note)} {e : Entry} {es : List Entry} : Codes m mv → P.Legal mv → Recorded who P last n mv time note e →
      Shown who (P.play mv) (some (Spec.Web.dest mv)) (n + 1) xs es Q → Shown who P last n ((m, time, note) :: xs) (e :: es) Q

theorem Shown.length {who : Color → Color} {P Q : Pos} {last : Option Square} {n : Nat} {xs : List (Move × Option Nat × Note)} {es : List Entry}
    (h : Shown who P last n xs es Q) : es.length = xs.length := by
  induction h with
  | nil => rfl
  | cons _ _ _ _ ih => rw [List.length_cons, List.length_cons, ih]

/-- One row of the loop. -/
def row (x : Move × Option Nat × Note) : Move × Int × List Char := (x.1, ((x.2.1.getD 0 : Nat) : Int), x.2.2.stored)

theorem symbol_next {who : Color → Color} (hw : who = id ∨ who = Color.opp) {i : Nat} {c : Color} (h : indexSymbol i = Spec.Web.sign (who c)) :
    indexSymbol (i + 1) = Spec.Web.sign (who c.opp) := by
  have e1 : i % 2 = 0 → (i + 1) % 2 = 1 := by omega
  have e2 : ¬ i % 2 = 0 → (i + 1) % 2 = 0 := by omega
  unfold indexSymbol at *
  by_cases hi : i % 2 = 0
  · rw [e1 hi]; rw [if_pos hi] at h
    rcases hw with rfl | rfl <;> cases c <;> revert h <;> decide
  · rw [e2 hi]; rw [if_neg hi] at h
    rcases hw with rfl | rfl <;> cases c <;> revert h <;> decide

theorem replayLoop_ok {Z : Zobrist} {who : Color → Color} (hw : who = id ∨ who = Color.opp) (xs : List (Move × Option Nat × Note)) :
    ∀ {q b : Position} {hist : List HistEntry} {i : Nat} {last : Option Square} {prev : Move}, Csa.Good Z q → Csa.Good Z b → absPos q = absPos b →
      LastIs ⟨q, [.move prev]⟩ last → indexSymbol i = Spec.Web.sign (who q.turn) → Always LegalOp Z ⟨b, hist⟩ (xs.map fun x => .push x.1) →
      Informs false (absPos q) xs → ∃ es Q, replayLoop Z q i prev (xs.map row) = .ok es ∧ Shown who (absPos q) last (i + 1) xs es Q ∧
        indexSymbol (i + xs.length) = Spec.Web.sign (who Q.turn) := by
  induction xs with
  | nil =>
    intro q b hist i last prev hq _ _ _ hs _ _
    exact ⟨[], _, rfl, .nil _ _ _, hs⟩
  | cons x xs ih =>
    intro q b hist i last prev hq hb hqb hl hs ha hi
    obtain ⟨⟨mv, hmv, hm⟩, ha'⟩ := ha
    cases hi with
    | @cons _ m mv' time note _ hc hn hi =>
      have he : encode b mv = encode q mv := Csa.encode_same hq.inv.views hb.inv.views hqb.symm mv
      replace hmv : m = encode b mv := hmv
      replace hm : (absPos b).Legal mv := hm
      have hc' : Codes m mv := hmv ▸ codes_encode b mv
      cases codes_unique hc hc'
      rcases hn with hn | ⟨h, -⟩
      swap
      · cases h
      have hmq : (absPos q).Legal mv := by rw [hqb]; exact hm
      obtain ⟨e, q', r1, r2, r3, r4, r5⟩ := replayMove_ok hq hl hmq hs time hn
      obtain ⟨b', s1, s2, s3⟩ := hb.doMove hm
      have hstep : (⟨b, hist⟩ : Board).step Z (.push m) = some ⟨b', .move m :: hist⟩ := by
        show Board.push Z ⟨b, hist⟩ m = _
        unfold Board.push
        rw [hmv]
        dsimp only
        rw [s1]
        rfl
      have hturn : q'.turn = q.turn.opp := by
        have : (absPos q').turn = (absPos q).turn.opp := by rw [r4]; exact play_turn mv
        exact this
      obtain ⟨es, Q, t1, t2, t3⟩ := ih (prev := m) (last := some (Spec.Web.dest mv)) (i := i + 1) r3 s2 (by rw [r4, s3, hqb])
        (by rw [hmv]; exact lastIs_encode b q' hm.1.1) (by rw [hturn]; exact symbol_next hw hs) (ha' _ hstep) (by rw [r4]; exact hi)
      refine ⟨e :: es, Q, ?_, .cons hc hmq r5 (by rw [← r4]; exact t2), by rw [List.length_cons, ← t3]; congr 1; omega⟩
      show (replayMove Z q i prev m ((time.getD 0 : Nat) : Int) note.stored).bind _ = _
      rw [← he, ← hmv] at r1
      rw [r1, Out.bind]
      show (replayLoop Z q' (i + 1) m (xs.map row)).bind _ = _
      rw [t1]
      rfl

/-- Words that do not begin with a number raise. -/
theorem replayEval_words {l : List Char} (hl : l ≠ []) (hf : (Note.line l).Fine) : replayEval (Kif.splitAt ' ' l) = .error := by
  obtain ⟨c, cs, rfl⟩ := List.exists_cons_of_ne_nil hl
  obtain ⟨h1, h2, h3, h4⟩ := hf.2 c rfl
  have hb : c ≠ ' ' := by rintro rfl; exact absurd h4 (by decide)
  have key : ∀ w : List Char, Usi.pyInt (c :: w) = none := by
    intro w
    have hr : readSign (c :: w) = (false, c :: w) := by
      unfold readSign
      split
      · rename_i h; exact absurd (List.cons.inj h).1 h3
      · rename_i h; exact absurd (List.cons.inj h).1 h2
      · rfl
    unfold Usi.pyInt
    dsimp only
    rw [hr, if_pos (.inr (by simp [h1]))]
  have hw : ∃ w ws, Kif.splitAt ' ' (c :: cs) = (c :: w) :: ws := by
    rw [Kif.splitAt, if_neg hb]
    cases Kif.splitAt ' ' cs with
    | nil => exact ⟨_, _, rfl⟩
    | cons w ws => exact ⟨_, _, rfl⟩
  obtain ⟨w, ws, hw⟩ := hw
  rw [hw]
  unfold replayEval
  dsimp only
  rw [if_neg (by simp), key]

theorem replayLoop_error {Z : Zobrist} {who : Color → Color} (hw : who = id ∨ who = Color.opp) (xs : List (Move × Option Nat × Note)) :
    ∀ {q b : Position} {hist : List HistEntry} {i : Nat} {last : Option Square} {prev : Move}, Csa.Good Z q → Csa.Good Z b → absPos q = absPos b →
      LastIs ⟨q, [.move prev]⟩ last → indexSymbol i = Spec.Web.sign (who q.turn) → Always LegalOp Z ⟨b, hist⟩ (xs.map fun x => .push x.1) →
      Informs true (absPos q) xs → (∀ x ∈ xs, x.2.2.Fine) → (∃ x ∈ xs, ∃ l, x.2.2 = .line l ∧ l ≠ []) →
      replayLoop Z q i prev (xs.map row) = .error := by
  induction xs with
  | nil =>
    intro q b hist i last prev _ _ _ _ _ _ _ _ h
    obtain ⟨x, hx, -⟩ := h
    cases hx
  | cons x xs ih =>
    intro q b hist i last prev hq hb hqb hl hs ha hi hf hex
    obtain ⟨⟨mv, hmv, hm⟩, ha'⟩ := ha
    cases hi with
    | @cons _ m mv' time note _ hc hn hi =>
      have he : encode b mv = encode q mv := Csa.encode_same hq.inv.views hb.inv.views hqb.symm mv
      replace hmv : m = encode b mv := hmv
      replace hm : (absPos b).Legal mv := hm
      have hc' : Codes m mv := hmv ▸ codes_encode b mv
      cases codes_unique hc hc'
      have hmq : (absPos q).Legal mv := by rw [hqb]; exact hm
      show (replayMove Z q i prev m ((time.getD 0 : Nat) : Int) note.stored).bind _ = _
      by_cases hn' : NoteOK ((absPos q).play mv) note
      · obtain ⟨e, q', r1, r2, r3, r4, r5⟩ := replayMove_ok hq hl hmq hs time hn'
        obtain ⟨b', s1, s2, s3⟩ := hb.doMove hm
        have hstep : (⟨b, hist⟩ : Board).step Z (.push m) = some ⟨b', .move m :: hist⟩ := by
          show Board.push Z ⟨b, hist⟩ m = _
          unfold Board.push
          rw [hmv]
          dsimp only
          rw [s1]
          rfl
        have hturn : q'.turn = q.turn.opp := by
          have : (absPos q').turn = (absPos q).turn.opp := by rw [r4]; exact play_turn mv
          exact this
        have hex' : ∃ x ∈ xs, ∃ l, x.2.2 = .line l ∧ l ≠ [] := by
          obtain ⟨x, hx, l, h1, h2⟩ := hex
          rcases List.mem_cons.mp hx with rfl | hx
          · replace h1 : note = .line l := h1
            rw [h1] at hn'
            exact absurd hn' h2
          · exact ⟨x, hx, l, h1, h2⟩
        have t1 := ih (prev := m) (last := some (Spec.Web.dest mv)) (i := i + 1) r3 s2 (by rw [r4, s3, hqb])
          (by rw [hmv]; exact lastIs_encode b q' hm.1.1) (by rw [hturn]; exact symbol_next hw hs) (ha' _ hstep) (by rw [r4]; exact hi)
          (fun x hx => hf x (List.mem_cons_of_mem _ hx)) hex'
        rw [← he, ← hmv] at r1
        rw [r1, Out.bind]
        show (replayLoop Z q' (i + 1) m (xs.map row)).bind _ = _
        rw [t1]
        rfl
      · obtain ⟨l, hl', -⟩ : ∃ l, note = .line l ∧ ∀ c ∈ l.head?, Kif.isSpace c = false := by
          rcases hn with hn | hn
          · exact absurd hn hn'
          · exact hn.2
        subst hl'
        obtain ⟨p', e1, -, -⟩ := hq.doMove hmq
        have hne : l ≠ [] := fun h => hn' h
        have hev := replayEval_words hne (hf _ List.mem_cons_self)
        unfold replayMove
        dsimp only
        rw [hmv, he, legal_true hq hmq]
        dsimp only
        rw [e1]
        dsimp only
        show Out.bind (Out.bind (replayEval (Kif.splitAt ' ' l)) _) _ = _
        rw [hev]
        rfl

theorem rows_zip {α β γ δ : Type} (f : α → β) (g : α → γ) (h : α → δ) (l : List α) (t : List γ) :
    (l.map f).zip ((l.map g ++ t).zip (l.map h)) = l.map fun x => (f x, g x, h x) := by
  induction l with
  | nil => rfl
  | cons x l ih => simp [ih]

theorem decodeAll_total (cs : List (List Char)) : Csa.decodeAll cs = .ok cs ∨ Csa.decodeAll cs = .error := by
  by_cases h : ∀ c ∈ cs, ∀ x ∈ c, x.toNat < 128
  · exact .inl (Csa.decodeAll_ok cs h)
  · refine .inr (Csa.decodeAll_error cs ?_)
    push Not at h
    exact h

theorem Informs.ascii {P : Pos} {xs : List (Move × Option Nat × Note)} (h : Informs false P xs) : ∀ x ∈ xs, ∀ c ∈ x.2.2.stored, c.toNat < 128 := by
  induction h with
  | nil => intro x hx; cases hx
  | cons _ hn _ ih =>
    intro x hx
    rcases List.mem_cons.mp hx with rfl | hx
    · rcases hn with hn | hn
      · exact note_ascii hn
      · cases hn.1
    · exact ih x hx

end Verif.Web
