import Verif.Model.UsiSession
import Verif.Spec.UsiSession
import Verif.Props.UsiCommands

/-!
# C98: a session with an engine keeps in step

Every call of an `Engine` object is heard by the engine as the command that was meant, and returns the engine's answer to it.
-/

namespace Verif.Usi
open Spec Position Spec.Session

theorem fields_eq (l : List Char) : fields l = Kif.splitAt ' ' l := by
  induction l with
  | nil => rfl
  | cons c cs ih =>
    unfold fields Kif.splitAt
    rw [ih]
    cases Kif.splitAt ' ' cs <;> rfl

theorem fields_ne (l : List Char) : fields l ≠ [] := by
  induction l with
  | nil => intro h; cases h
  | cons c cs ih =>
    unfold fields
    split
    · intro h; cases h
    · split <;> intro h <;> cases h

theorem fields_append (a b : List Char) : fields (a ++ ' ' :: b) = fields a ++ fields b := by
  induction a with
  | nil => rfl
  | cons c cs ih =>
    rw [List.cons_append, fields, ih]
    conv => rhs; rw [fields]
    split
    · rfl
    · obtain ⟨w, ws, h⟩ := List.exists_cons_of_ne_nil (fields_ne cs)
      rw [h]; rfl

theorem fields_word {a : List Char} (h : ' ' ∉ a) : fields a = [a] := by
  rw [fields_eq, Kif.splitAt_none _ _ h]

theorem unfields_fields (l : List Char) : unfields (fields l) = l := by
  induction l with
  | nil => rfl
  | cons c cs ih =>
    obtain ⟨w, ws, h⟩ := List.exists_cons_of_ne_nil (fields_ne cs)
    rw [h] at ih
    rw [fields, h]
    split
    · rename_i hc
      subst hc
      show [] ++ ' ' :: unfields (w :: ws) = _
      rw [ih]; rfl
    · cases ws with
      | nil => show c :: w = _; rw [← ih]; rfl
      | cons v vs =>
        show (c :: w) ++ ' ' :: unfields (v :: vs) = _
        rw [← ih]; rfl

theorem fields_joined : ∀ (w : List Char) (ws : List (List Char)), (∀ v ∈ w :: ws, ' ' ∉ v) → fields (joined (w :: ws)) = w :: ws
  | w, [], h => fields_word (h w (by simp))
  | w, v :: vs, h => by
    show fields (w ++ ' ' :: joined (v :: vs)) = _
    rw [fields_append, fields_word (h w (by simp)), fields_joined v vs fun x hx => h x (List.mem_cons_of_mem _ hx)]
    rfl

theorem cut_append {w : List Char} {a : List (List Char)} (b : List (List Char)) (h : w ∉ a) : cut w (a ++ w :: b) = (a, b) := by
  unfold cut
  have h1 : ∀ x ∈ a, (fun x => decide (x ≠ w)) x = true := fun x hx => decide_eq_true fun e => h (e ▸ hx)
  rw [List.takeWhile_append_of_pos h1, List.dropWhile_append_of_pos h1]
  simp

theorem cut_none {w : List Char} {a : List (List Char)} (h : w ∉ a) : cut w a = (a, []) := by
  unfold cut
  have h1 : ∀ x ∈ a, (fun x => decide (x ≠ w)) x = true := fun x hx => decide_eq_true fun e => h (e ▸ hx)
  have h2 := List.takeWhile_append_of_pos (l₂ := []) h1
  rw [List.append_nil, List.takeWhile_nil, List.append_nil] at h2
  have h3 := List.takeWhile_append_dropWhile (p := fun x => decide (x ≠ w)) (l := a)
  rw [h2] at h3 ⊢
  rw [List.append_right_eq_self.mp h3]
  rfl

theorem behind_eq : ∀ (ws : List (List Char)) (name : List Char), behind ws name = paramOf ws name
  | [], _ => rfl
  | [_], _ => rfl
  | a :: b :: ws, name => by rw [behind, paramOf, behind_eq (b :: ws) name]

theorem decimal_natChars (n : Nat) : decimal (natChars n) = n := by
  have h := readNat_natChars n
  unfold readNat at h
  rw [takeWhile_all natChars_isDigit] at h
  exact h

theorem integer_intChars (n : Int) : integer (intChars n) = n := by
  unfold intChars
  split
  · show -(decimal (natChars n.natAbs) : Int) = n
    rw [decimal_natChars]; omega
  · obtain ⟨d, l, hd, e⟩ := natChars_head n.natAbs
    have hne : natChars n.natAbs ≠ [] := natChars_ne_nil _
    have : integer (natChars n.natAbs) = (decimal (natChars n.natAbs) : Int) := by
      unfold integer
      split
      · rename_i ds h
        have := natChars_isDigit (n := n.natAbs) '-' (by rw [h]; simp)
        exact absurd this (by decide)
      · rfl
    rw [this, decimal_natChars]; omega

/-! ### The commands -/

/-- The value of an option as the protocol writes it. -/
def OptValue.word : OptValue → List Char
  | .text t => t
  | .int n => intChars n
  | .bool true => "true".toList
  | .bool false => "false".toList

/-- The limits given to `go`. -/
def GoArgs.limits (a : GoArgs) : Limits := ⟨a.ponder, a.btime, a.wtime, a.byoyomi, a.binc, a.winc, a.nodes⟩

/-- The command that a call stands for. -/
def Call.command : Call → Command
  | .connect => .usi
  | .usi => .usi
  | .setoption name value => .setoption name value.word
  | .isready => .isready
  | .usinewgame => .usinewgame
  | .position moves sfen => .position sfen (moves.getD [])
  | .go a => .go a.limits
  | .goMate b => .mate b
  | .ponderhit => .ponderhit
  | .stop => .stop
  | .gameover r => .gameover (r.getD [])
  | .quit => .quit

/-- The calls of which C98 is true: option names without the word `value`, no truth values, starting positions without the word `moves`, moves
without blanks, no `byoyomi` together with increments. (Line breaks in texts are excluded because the model takes every command for one line.) -/
def Call.Plain : Call → Prop
  | .setoption name value => "value".toList ∉ fields name ∧ (∀ b, value ≠ .bool b) ∧ '\n' ∉ name ∧ '\n' ∉ value.str
  | .position moves sfen => "moves".toList ∉ fields sfen ∧ '\n' ∉ sfen ∧ ∀ ws ∈ moves, ∀ w ∈ ws, ' ' ∉ w ∧ '\n' ∉ w
  | .go a => a.byoyomi = none ∨ (a.binc = none ∧ a.winc = none)
  | .gameover r => ∀ t ∈ r, '\n' ∉ t
  | _ => True

theorem read_setoption (name v : List Char) (h : "value".toList ∉ fields name) :
    readCommand ("setoption name ".toList ++ (name ++ (" value ".toList ++ v))) = some (.setoption name v) := by
  have e : fields ("setoption name ".toList ++ (name ++ (" value ".toList ++ v))) =
      "setoption".toList :: "name".toList :: (fields name ++ "value".toList :: fields v) := by
    show fields ("setoption".toList ++ ' ' :: ("name".toList ++ ' ' :: (name ++ ' ' :: ("value".toList ++ ' ' :: v)))) = _
    rw [fields_append, fields_append, fields_append, fields_append, fields_word (by decide), fields_word (by decide), fields_word (a := "value".toList) (by decide)]
    rfl
  unfold readCommand
  rw [e]
  dsimp only
  rw [if_neg (by decide), if_neg (by decide), if_neg (by decide), if_neg (by decide), if_neg (by decide), if_neg (by decide), if_neg (by decide),
    if_pos rfl, List.tail_cons, cut_append _ h]
  dsimp only
  rw [unfields_fields, unfields_fields]

theorem read_position (sfen : List Char) (moves : Option (List (List Char))) (h : "moves".toList ∉ fields sfen)
    (hm : ∀ ws ∈ moves, ∀ w ∈ ws, ' ' ∉ w) : readCommand (positionLine moves sfen) = some (.position sfen (moves.getD [])) := by
  have key : ∀ ws, fields (positionLine moves sfen) = "position".toList :: ws → cut "moves".toList ws = (fields sfen, moves.getD []) →
      readCommand (positionLine moves sfen) = some (.position sfen (moves.getD [])) := by
    intro ws e hc
    unfold readCommand
    rw [e]
    dsimp only
    rw [if_neg (by decide), if_neg (by decide), if_neg (by decide), if_neg (by decide), if_neg (by decide), if_neg (by decide), if_neg (by decide),
      if_neg (by decide), if_pos rfl, hc]
    dsimp only
    rw [unfields_fields]
  have none_case : moves.getD [] = [] → positionLine moves sfen = "position".toList ++ ' ' :: sfen →
      readCommand (positionLine moves sfen) = some (.position sfen (moves.getD [])) := by
    intro h0 e
    refine key (fields sfen) ?_ ?_
    · rw [e, fields_append, fields_word (by decide)]; rfl
    · rw [cut_none h, h0]
  cases moves with
  | none => exact none_case rfl (by show "position ".toList ++ (sfen ++ []) = _; rw [List.append_nil]; rfl)
  | some ws =>
    cases ws with
    | nil => exact none_case rfl (by show "position ".toList ++ (sfen ++ []) = _; rw [List.append_nil]; rfl)
    | cons w ws =>
      refine key (fields sfen ++ "moves".toList :: w :: ws) ?_ (cut_append _ h)
      show fields ("position".toList ++ ' ' :: (sfen ++ ' ' :: ("moves".toList ++ ' ' :: joined (w :: ws)))) = _
      rw [fields_append, fields_append, fields_append, fields_word (by decide), fields_word (a := "moves".toList) (by decide),
        fields_joined w ws (hm _ rfl)]
      rfl

theorem argWords_noMate (name : String) (x : Option Int) (h : name.toList ≠ "mate".toList) : "mate".toList ∉ argWords name x :=
  argWords_mem (name := "mate") h ⟨'m', by decide⟩

theorem read_go (a : GoArgs) (h : a.byoyomi = none ∨ (a.binc = none ∧ a.winc = none)) : readCommand (goLine a) = some (.go a.limits) := by
  obtain ⟨h1, h2, h3, h4, h5, h6, h7, h8⟩ := C82_go_partial a h
  have hw := goLine_words a
  rw [hw] at h2 h3 h4 h5 h6 h7 h8
  have hm : "mate".toList ∉ goWords a := by
    unfold goWords
    simp only [List.mem_cons, List.mem_append, not_or]
    refine ⟨by decide, ?_, argWords_noMate _ _ (by decide), argWords_noMate _ _ (by decide), ?_, argWords_noMate _ _ (by decide)⟩
    · cases a.ponder <;> decide
    · cases a.byoyomi with
      | some n => exact argWords_noMate _ _ (by decide)
      | none =>
        rw [List.mem_append, not_or]
        exact ⟨argWords_noMate _ _ (by decide), argWords_noMate _ _ (by decide)⟩
  have hmap : ∀ x : Option Int, (x.map intChars).map integer = x := by
    intro x
    cases x with
    | none => rfl
    | some n => simp [integer_intChars]
  obtain ⟨ws, e⟩ : ∃ ws, goWords a = "go".toList :: ws := ⟨_, rfl⟩
  rw [e] at h2 h3 h4 h5 h6 h7 h8 hm
  unfold readCommand
  rw [fields_eq, hw, e]
  dsimp only
  rw [if_neg (by decide), if_neg (by decide), if_neg (by decide), if_neg (by decide), if_neg (by decide), if_neg (by decide), if_neg (by decide),
    if_neg (by decide), if_neg (by decide), if_pos rfl, if_neg]
  · unfold readLimits GoArgs.limits
    simp only [behind_eq, h3, h4, h5, h6, h7, h8, hmap]
    congr 2
    cases hp : a.ponder
    · rw [hp] at h2; simpa using h2
    · rw [hp] at h2; simpa using h2
  · intro hh
    exact hm (List.mem_cons_of_mem _ (List.mem_of_mem_head? hh))

theorem read_mate (b : Option Int) : readCommand (mateLine b) = some (.mate b) := by
  obtain ⟨w, e, hw, hr⟩ : ∃ w, mateLine b = "go".toList ++ ' ' :: ("mate".toList ++ ' ' :: w) ∧ ' ' ∉ w ∧
      (if w = "infinite".toList then none else some (integer w)) = b := by
    cases b with
    | none => exact ⟨"infinite".toList, rfl, by decide, if_pos rfl⟩
    | some n =>
      refine ⟨intChars n, rfl, intChars_blank n, ?_⟩
      rw [if_neg (intChars_ne n ⟨'i', by decide⟩), integer_intChars]
  unfold readCommand
  rw [e, fields_append, fields_append, fields_word (by decide), fields_word (a := "mate".toList) (by decide), fields_word hw]
  dsimp only [List.cons_append, List.nil_append]
  rw [if_neg (by decide), if_neg (by decide), if_neg (by decide), if_neg (by decide), if_neg (by decide), if_neg (by decide), if_neg (by decide),
    if_neg (by decide), if_neg (by decide), if_pos rfl, if_pos (show ["mate".toList, w].head? = some "mate".toList from rfl)]
  show some (Command.mate _) = _
  rw [hr]

theorem read_gameover (r : Option (List Char)) : readCommand (gameoverLine r) = some (.gameover (r.getD [])) := by
  have h0 : readCommand "gameover".toList = some (.gameover []) := by decide
  cases r with
  | none => exact h0
  | some t =>
    cases t with
    | nil => exact h0
    | cons c t =>
      have e : fields (gameoverLine (some (c :: t))) = "gameover".toList :: fields (c :: t) := by
        show fields ("gameover".toList ++ ' ' :: (c :: t)) = _
        rw [fields_append, fields_word (by decide)]; rfl
      unfold readCommand
      rw [e]
      dsimp only
      rw [if_neg (by decide), if_neg (by decide), if_neg (by decide), if_neg (by decide), if_neg (by decide), if_neg (by decide), if_pos rfl,
        unfields_fields]
      rfl

/-- **C98**: the engine hears the command that the call stands for. -/
theorem C98_heard (c : Call) (h : c.Plain) : readCommand c.line = some c.command := by
  cases c with
  | connect => decide
  | usi => decide
  | setoption name value =>
    have hv : value.str = value.word := by
      cases value with
      | text t => rfl
      | int n => rfl
      | bool b => exact absurd rfl (h.2.1 b)
    show readCommand ("setoption name ".toList ++ (name ++ (" value ".toList ++ value.str))) = _
    rw [read_setoption _ _ h.1, hv]; rfl
  | isready => decide
  | usinewgame => decide
  | position moves sfen => exact read_position sfen moves h.1 fun ws hw w hm => (h.2.2 ws hw w hm).1
  | go a => exact read_go a h
  | goMate b => exact read_mate b
  | ponderhit => decide
  | stop => decide
  | gameover r => exact read_gameover r
  | quit => decide

/-! ### The answers -/

theorem readTo_at {α : Type} {want : List Char → Option α} {l : List Char} {a : α} (rest : List (List Char)) (hl : want l = some a) :
    ∀ {before : List (List Char)}, (∀ x ∈ before, want x = none) → readTo want (before ++ l :: rest) = some (before, a, rest)
  | [], _ => by rw [List.nil_append, readTo, hl]
  | b :: bs, h => by
    rw [List.cons_append, readTo, h b List.mem_cons_self, readTo_at rest hl fun x hx => h x (List.mem_cons_of_mem _ hx)]
    rfl

theorem readTo_never {α : Type} {want : List Char → Option α} : ∀ {ls : List (List Char)}, (∀ x ∈ ls, want x = none) → readTo want ls = none
  | [], _ => rfl
  | b :: bs, h => by
    rw [readTo, h b List.mem_cons_self, readTo_never fun x hx => h x (List.mem_cons_of_mem _ hx)]
    rfl

theorem readName_options {n : Option (List Char)} : ∀ {ls : List (List Char)}, (∀ l ∈ ls, l ≠ "usiok".toList ∧ l.take 7 ≠ "id name".toList) →
    readName n (ls ++ ["usiok".toList]) = .returns (n, [])
  | [], _ => by rw [List.nil_append, readName, if_neg (by decide), if_pos rfl]
  | l :: ls, h => by
    obtain ⟨h1, h2⟩ := h l List.mem_cons_self
    rw [List.cons_append, readName, if_neg h2, if_neg h1, readName_options fun x hx => h x (List.mem_cons_of_mem _ hx)]

variable {σ : Type}

/-- The program that an engine is. -/
def program (P : Player σ) : Program σ := ⟨P.start, P.hear⟩

theorem program_hear (P : Player σ) (s : σ) {c : Call} (h : c.Plain) :
    (program P).hear s c.line = (P.next s c.command, P.writes s c.command) := by
  show P.hear s c.line = _
  unfold Player.hear
  rw [C98_heard c h]

/-- What a call is to return, from an engine in state `s`. -/
def dueReply (P : Player σ) (s : σ) : Call → Reply
  | .usi => .lines (("id name ".toList ++ P.name) :: P.options)
  | .go a => .best (P.best s a.limits).1 (P.best s a.limits).2
  | .goMate b => .mate (P.mates s b)
  | _ => .none

/-- A session as it should go: the state of the engine, `none` without one. The replies, and where it ends; `none` if a call without an engine
raises. -/
def due (P : Player σ) : Option σ → List Call → List Reply × Option (Option σ)
  | s, [] => ([], some s)
  | _, .connect :: cs => let x := due P (some (P.next P.start .usi)) cs; (.none :: x.1, x.2)
  | none, _ :: _ => ([], none)
  | some _, .quit :: cs => let x := due P none cs; (.none :: x.1, x.2)
  | some s, c :: cs => let x := due P (some (P.next s c.command)) cs; (dueReply P s c :: x.1, x.2)

/-- Calls of `go` that wait for a move. -/
def Call.Waits : Call → Prop
  | .go a => a.ponder = false
  | _ => True

theorem bestOf_line {x : List Char × Option (List Char)} (h1 : ' ' ∉ x.1) (h2 : ∀ y ∈ x.2, ' ' ∉ y) : bestOf (bestLine x) = some x := by
  obtain ⟨m, o⟩ := x
  have e : bestLine (m, o) = answerText m o := by
    cases o with
    | none => show "bestmove ".toList ++ m ++ [] = _; rw [List.append_nil]; rfl
    | some y => show "bestmove ".toList ++ m ++ (" ponder ".toList ++ y) = _; rw [List.append_assoc]; rfl
  rw [e, bestOf_answer h1 h2]

theorem call_connect (P : Player σ) (hP : P.Polite) (c : Client σ) :
    c.call (program P) .connect = .returns (⟨some ⟨P.next P.start .usi, []⟩, some P.name⟩, .none) := by
  unfold Client.call
  have e : (program P).hear (program P).start Call.connect.line = (P.next P.start .usi, P.writes P.start .usi) := program_hear P P.start (c := .connect) trivial
  rw [e]
  have : readName c.name (P.writes P.start .usi) = .returns (some P.name, []) := by
    show readName c.name (("id name ".toList ++ P.name) :: (P.options ++ ["usiok".toList])) = _
    have t : ("id name ".toList ++ P.name).take 7 = "id name".toList := rfl
    have d : ("id name ".toList ++ P.name).drop 8 = P.name := rfl
    rw [readName, if_pos t, d, if_pos, readName_options hP.options]
    rw [List.all_eq_true]
    exact fun c hc => decide_eq_true (hP.name c hc)
  dsimp only
  rw [this]

theorem call_talk (P : Player σ) (hP : P.Polite) (c : Client σ) (s : σ) (hs : c.proc = some ⟨s, []⟩) {call : Call} (h : call.Plain)
    (hw : call.Waits) (h1 : call ≠ .connect) (h2 : call ≠ .quit) :
    c.call (program P) call = .returns ({ c with proc := some ⟨P.next s call.command, []⟩ }, dueReply P s call) := by
  have e := program_hear P s h
  have hcall : c.call (program P) call = talk (program P) c ⟨s, []⟩ call := by
    unfold Client.call
    cases call <;> first | exact absurd rfl h1 | rw [hs]
  rw [hcall]
  unfold talk
  rw [e]
  dsimp only
  rw [List.nil_append]
  cases call with
  | connect => exact absurd rfl h1
  | quit => exact absurd rfl h2
  | usi =>
    show answered c _ (readTo _ ((("id name ".toList ++ P.name) :: P.options) ++ "usiok".toList :: [])) _ = _
    rw [readTo_at (a := ()) [] (by decide)]
    · rfl
    · intro x hx
      unfold exactly
      rw [if_neg]
      rcases List.mem_cons.mp hx with rfl | hx
      · intro h
        have := congrArg List.head? h
        cases this
      · exact (hP.options x hx).1
  | isready =>
    show answered c _ (readTo _ (P.chat s .isready ++ "readyok".toList :: [])) _ = _
    rw [readTo_at (a := ()) [] (by decide)]
    · rfl
    · intro x hx
      unfold exactly
      rw [if_neg (hP.ready s x hx)]
  | go a =>
    have hp : a.limits.ponder = false := hw
    show answered c _ (readTo _ (P.chat s (.go a.limits) ++ (if a.limits.ponder then [] else [bestLine (P.best s a.limits)]))) _ = _
    rw [hp, if_neg (by decide), readTo_at (a := P.best s a.limits) [] (bestOf_line (hP.move _ _) (hP.ponder _ _))]
    · rfl
    · exact fun x hx => bestOf_other (hP.search _ _ x hx)
  | goMate b =>
    show answered c _ (readTo _ (P.chat s (.mate b) ++ ("checkmate ".toList ++ P.mates s b) :: [])) _ = _
    rw [readTo_at (a := P.mates s b) []]
    · rfl
    · have t : ("checkmate ".toList ++ P.mates s b).take 9 = "checkmate".toList := rfl
      unfold mateOf
      rw [if_pos t]; rfl
    · intro x hx
      unfold mateOf
      rw [if_neg (hP.mate _ _ x hx)]
  | setoption name value => rfl
  | usinewgame => rfl
  | position moves sfen => rfl
  | ponderhit => rfl
  | stop => rfl
  | gameover r => rfl

/-- **C98** (partial: see `Call.Plain` and `Call.Waits`). With an engine that keeps to the protocol, every session goes as it should: each
call returns the engine's answer to that very call, whatever was said before, nothing the engine has written is left unread, the calls made
without an engine raise, and once connected `name` is the engine's name. -/
theorem C98_session_partial (P : Player σ) (hP : P.Polite) (c : Client σ) (s : Option σ) (hs : c.proc = s.map fun s => ⟨s, []⟩) (calls : List Call)
    (h : ∀ x ∈ calls, x.Plain ∧ x.Waits) :
    (c.session (program P) calls).1 = (due P s calls).1 ∧
    match (due P s calls).2 with
    | none => (c.session (program P) calls).2 = .raises
    | some s' => ∃ c', (c.session (program P) calls).2 = .returns c' ∧ c'.proc = (s'.map fun s => ⟨s, []⟩) ∧
        (Call.connect ∈ calls ∨ c.name = some P.name → c'.name = some P.name) := by
  induction calls generalizing c s with
  | nil => exact ⟨rfl, c, rfl, hs, fun h => h.elim (fun h => by cases h) id⟩
  | cons call calls ih =>
    have hr : ∀ x ∈ calls, x.Plain ∧ x.Waits := fun x hx => h x (List.mem_cons_of_mem _ hx)
    obtain ⟨hp, hw⟩ := h call List.mem_cons_self
    have step : ∀ (c1 : Client σ) (s1 : Option σ) (r : Reply), c.call (program P) call = .returns (c1, r) → c1.proc = (s1.map fun s => ⟨s, []⟩) →
        (Call.connect = call ∨ c.name = some P.name → c1.name = some P.name) →
        due P s (call :: calls) = (r :: (due P s1 calls).1, (due P s1 calls).2) →
        (c.session (program P) (call :: calls)).1 = (due P s (call :: calls)).1 ∧
        match (due P s (call :: calls)).2 with
        | none => (c.session (program P) (call :: calls)).2 = .raises
        | some s' => ∃ c', (c.session (program P) (call :: calls)).2 = .returns c' ∧ c'.proc = (s'.map fun s => ⟨s, []⟩) ∧
            (Call.connect ∈ call :: calls ∨ c.name = some P.name → c'.name = some P.name) := by
      intro c1 s1 r e hc1 hn hd
      obtain ⟨i1, i2⟩ := ih c1 s1 hc1 hr
      have es : c.session (program P) (call :: calls) = (r :: (c1.session (program P) calls).1, (c1.session (program P) calls).2) := by
        rw [Client.session, e]
      rw [es, hd]
      refine ⟨by rw [i1], ?_⟩
      dsimp only
      rcases hd2 : (due P s1 calls).2 with _ | s'
      · rw [hd2] at i2; exact i2
      · rw [hd2] at i2
        obtain ⟨c', j1, j2, j3⟩ := i2
        refine ⟨c', j1, j2, fun h => ?_⟩
        rcases h with h | h
        · rcases List.mem_cons.mp h with h | h
          · exact j3 (.inr (hn (.inl h)))
          · exact j3 (.inl h)
        · exact j3 (.inr (hn (.inr h)))
    by_cases h1 : call = .connect
    · subst h1
      refine step _ (some (P.next P.start .usi)) _ (call_connect P hP c) rfl (fun _ => rfl) ?_
      cases s <;> rfl
    cases s with
    | none =>
      have e : c.call (program P) call = .raises := by
        unfold Client.call
        rw [show c.proc = none from hs]
        cases call <;> first | exact absurd rfl h1 | rfl
      have hd : due P none (call :: calls) = ([], none) := by
        cases call <;> first | exact absurd rfl h1 | rfl
      rw [hd, Client.session, e]
      exact ⟨rfl, rfl⟩
    | some s =>
      by_cases h2 : call = .quit
      · subst h2
        refine step { c with proc := none } none .none ?_ rfl (fun h => h.elim (fun h => by cases h) id) rfl
        unfold Client.call
        rw [show c.proc = some ⟨s, []⟩ from hs]
        rfl
      · refine step _ (some (P.next s call.command)) _ (call_talk P hP c s hs hp hw h1 h2) rfl (fun h => h.elim (fun h => absurd h.symm h1) id) ?_
        cases call <;> first | exact absurd rfl h1 | exact absurd rfl h2 | rfl

/-- **C98 fails** for pondering: `go(ponder=True)` waits for a move which the engine gives only after `stop` or `ponderhit`, and these cannot be
sent before `go` has returned. -/
theorem C98_fails_ponder (P : Player σ) (hP : P.Polite) (c : Client σ) (s : σ) (hs : c.proc = some ⟨s, []⟩) (a : GoArgs) (h : (Call.go a).Plain)
    (hp : a.ponder = true) : c.call (program P) (.go a) = .never := by
  have e := program_hear P s h
  show (match c.proc with | none => Outcome.raises | some p => talk (program P) c p (.go a)) = _
  rw [hs]
  dsimp only
  unfold talk
  rw [e]
  dsimp only
  have hw : P.writes s (Call.go a).command = P.chat s (.go a.limits) := by
    show P.chat s (.go a.limits) ++ (if a.limits.ponder then [] else _) = _
    rw [show a.limits.ponder = true from hp, if_pos rfl, List.append_nil]
  rw [List.nil_append, hw, readTo_never fun x hx => bestOf_other (hP.search _ _ x hx)]
  rfl

/-- **C98 fails** for truth values: an option set to `True` is set to `True`, and not to `true` as the protocol has it. -/
theorem C98_fails_bool (name : List Char) (h : "value".toList ∉ fields name) (b : Bool) :
    readCommand (Call.setoption name (.bool b)).line = some (.setoption name (if b then "True".toList else "False".toList)) ∧
    readCommand (Call.setoption name (.bool b)).line ≠ some (Call.setoption name (.bool b)).command := by
  have e : readCommand (Call.setoption name (.bool b)).line = some (.setoption name (OptValue.bool b).str) := read_setoption _ _ h
  rw [e]
  cases b
  · exact ⟨rfl, fun h => absurd (Command.setoption.inj (Option.some.inj h)).2 (by decide)⟩
  · exact ⟨rfl, fun h => absurd (Command.setoption.inj (Option.some.inj h)).2 (by decide)⟩

/-- **C98 fails** for engines whose name is not ASCII: connecting to them raises. -/
theorem C98_fails_name (P : Player σ) (h : ∃ c ∈ P.name, 128 ≤ c.toNat) (c : Client σ) : c.call (program P) .connect = .raises := by
  unfold Client.call
  have e : (program P).hear (program P).start Call.connect.line = (P.next P.start .usi, P.writes P.start .usi) := program_hear P P.start (c := .connect) trivial
  rw [e]
  have : readName c.name (P.writes P.start .usi) = .raises := by
    show readName c.name (("id name ".toList ++ P.name) :: (P.options ++ ["usiok".toList])) = _
    have t : ("id name ".toList ++ P.name).take 7 = "id name".toList := rfl
    have d : ("id name ".toList ++ P.name).drop 8 = P.name := rfl
    rw [readName, if_pos t, d, if_neg]
    intro hall
    obtain ⟨x, hx, hx'⟩ := h
    have := of_decide_eq_true (List.all_eq_true.mp hall x hx)
    omega
  dsimp only
  rw [this]

/-- **C98 fails** for a program that ends, or is no USI engine: without the line `usiok` connecting does not raise `EOFError`, it never returns. -/
theorem C98_fails_eof (G : Program σ) (c : Client σ) (h : ∀ l ∈ (G.hear G.start "usi".toList).2, l ≠ "usiok".toList ∧ l.take 7 ≠ "id name".toList) :
    c.call G .connect = .never := by
  have key : ∀ (n : Option (List Char)) (ls : List (List Char)), (∀ l ∈ ls, l ≠ "usiok".toList ∧ l.take 7 ≠ "id name".toList) → readName n ls = .never := by
    intro n ls
    induction ls with
    | nil => intro _; rfl
    | cons l ls ih =>
      intro h
      obtain ⟨h1, h2⟩ := h l List.mem_cons_self
      rw [readName, if_neg h2, if_neg h1, ih fun x hx => h x (List.mem_cons_of_mem _ hx)]
  unfold Client.call
  have e : readName c.name (G.hear G.start Call.connect.line).2 = .never := key _ _ h
  dsimp only
  rw [e]

/-- The line that ends the answer to a call begins with this word, if there is an answer; the words `usiok` and `readyok` are the whole line. -/
def Call.ending : Call → Option (List Char → Prop)
  | .connect => some fun l => l = "usiok".toList
  | .usi => some fun l => l = "usiok".toList
  | .isready => some fun l => l = "readyok".toList
  | .go _ => some fun l => "bestmove".toList <+: l
  | .goMate _ => some fun l => "checkmate".toList <+: l
  | _ => none

/-- The lines that are there to be read after a call has written its command. -/
def Call.there (G : Program σ) (c : Client σ) : Call → List (List Char)
  | .connect => (G.hear G.start "usi".toList).2
  | call => match c.proc with
    | none => []
    | some p => p.unread ++ (G.hear p.eng call.line).2

theorem readTo_split {α : Type} {want : List Char → Option α} : ∀ {ls before rest : List (List Char)} {a : α},
    readTo want ls = some (before, a, rest) → ∃ l, ls = before ++ l :: rest ∧ want l = some a ∧ ∀ x ∈ before, want x = none
  | [], _, _, _, h => by cases h
  | l :: ls, before, rest, a, h => by
    rw [readTo] at h
    rcases hl : want l with _ | b <;> rw [hl] at h <;> simp only at h
    · obtain ⟨y, hy, e⟩ := Option.map_eq_some_iff.mp h
      obtain ⟨b', a', r'⟩ := y
      cases e
      obtain ⟨l', h1, h2, h3⟩ := readTo_split hy
      refine ⟨l', by rw [h1]; rfl, h2, fun x hx => ?_⟩
      rcases List.mem_cons.mp hx with rfl | hx
      · exact hl
      · exact h3 x hx
    · cases h
      exact ⟨l, rfl, hl, fun x hx => by cases hx⟩

theorem readName_split : ∀ {ls rest : List (List Char)} {n n' : Option (List Char)}, readName n ls = .returns (n', rest) →
    ∃ before, ls = before ++ "usiok".toList :: rest ∧ "usiok".toList ∉ before
  | [], _, _, _, h => by cases h
  | l :: ls, rest, n, n', h => by
    rw [readName] at h
    have next : l ≠ "usiok".toList → ∀ m, readName m ls = .returns (n', rest) →
        ∃ before, l :: ls = before ++ "usiok".toList :: rest ∧ "usiok".toList ∉ before := by
      intro hl m hm
      obtain ⟨before, h1, h2⟩ := readName_split hm
      refine ⟨l :: before, by rw [h1]; rfl, fun hx => ?_⟩
      rcases List.mem_cons.mp hx with e | hx
      · exact hl e.symm
      · exact h2 hx
    split at h
    · split at h
      · rename_i hl _
        refine next (fun e => ?_) _ h
        rw [e] at hl
        exact absurd hl (by decide)
      · cases h
    · split at h
      · rename_i hl
        cases h
        exact ⟨[], by rw [hl]; rfl, fun h => by cases h⟩
      · rename_i hl
        exact next hl _ h

theorem bestOf_isSome (l : List Char) : (bestOf l).isSome = true ↔ "bestmove".toList <+: l := by
  have key : "bestmove".toList <+: l ↔ l.take 8 = "bestmove".toList := by
    rw [List.prefix_iff_eq_take]; exact eq_comm
  rw [key]
  unfold bestOf
  split
  · rename_i h
    refine iff_of_true ?_ h
    have hne := fields_ne (l.drop 9)
    rw [fields_eq] at hne
    split
    · split <;> rfl
    · rfl
    · rename_i e; exact absurd e hne
  · rename_i h
    exact iff_of_false (by simp) h

theorem mateOf_isSome (l : List Char) : (mateOf l).isSome = true ↔ "checkmate".toList <+: l := by
  have key : "checkmate".toList <+: l ↔ l.take 9 = "checkmate".toList := by
    rw [List.prefix_iff_eq_take]; exact eq_comm
  rw [key]
  unfold mateOf
  split <;> simp_all

theorem exactly_isSome (t l : List Char) : (exactly t l).isSome = true ↔ l = t := by
  unfold exactly
  split <;> simp_all

/-- **C98**, every program at the other end, polite or not: no line is lost and none is read twice. A call that returns has read the lines up to
the first one that ends its answer, in the order in which they were written, and the rest is there for the next call; a call without an
answer reads nothing. -/
theorem C98_lines (G : Program σ) (c c' : Client σ) (call : Call) (r : Reply) (h : c.call G call = .returns (c', r)) (hq : call ≠ .quit) :
    ∃ p', c'.proc = some p' ∧
      match call.ending with
      | none => call.there G c = p'.unread
      | some E => ∃ before l, call.there G c = before ++ l :: p'.unread ∧ E l ∧ (∀ x ∈ before, ¬ E x) ∧
          (call = .usi → r = .lines before) := by
  have hread : ∀ {α : Type} (want : List Char → Option α) (E : List Char → Prop) (f : List (List Char) → α → Reply) (p : Proc σ),
      (∀ l, (want l).isSome = true ↔ E l) → (call = .usi → ∀ b a, f b a = .lines b) → call.there G c = p.unread ++ (G.hear p.eng call.line).2 →
      answered c (G.hear p.eng call.line).1 (readTo want (p.unread ++ (G.hear p.eng call.line).2)) f = .returns (c', r) →
      ∃ p', c'.proc = some p' ∧ ∃ before l, call.there G c = before ++ l :: p'.unread ∧ E l ∧ (∀ x ∈ before, ¬ E x) ∧
          (call = .usi → r = .lines before) := by
    intro α want E f p hE hf ht ha
    unfold answered at ha
    rcases hx : readTo want (p.unread ++ (G.hear p.eng call.line).2) with _ | ⟨before, a, rest⟩ <;> rw [hx] at ha <;> simp only at ha
    · cases ha
    · obtain ⟨l, h1, h2, h3⟩ := readTo_split hx
      cases ha
      refine ⟨_, rfl, before, l, by rw [ht, h1], (hE l).mp (by rw [h2]; rfl), fun x hx' e => ?_, fun hu => hf hu before a⟩
      have := (hE x).mpr e
      rw [h3 x hx'] at this; cases this
  cases call with
  | connect =>
    simp only [Client.call] at h
    rcases hn : readName c.name (G.hear G.start Call.connect.line).2 with ⟨n, rest⟩ | _ | _ <;> rw [hn] at h <;> simp only at h
    · cases h
      obtain ⟨before, h1, h2⟩ := readName_split hn
      exact ⟨_, rfl, before, _, h1, rfl, fun x hx e => h2 (e ▸ hx), fun e => by cases e⟩
    · cases h
    · cases h
  | quit => exact absurd rfl hq
  | _ =>
    rcases hp : c.proc with _ | p <;> simp only [Client.call, hp] at h
    · cases h
    · first
      | exact hread _ _ _ p (exactly_isSome _) (fun _ _ _ => rfl) (by simp only [Call.there, hp]) h
      | exact hread _ _ _ p (exactly_isSome _) (fun e => by cases e) (by simp only [Call.there, hp]) h
      | exact hread _ _ _ p bestOf_isSome (fun e => by cases e) (by simp only [Call.there, hp]) h
      | exact hread _ _ _ p mateOf_isSome (fun e => by cases e) (by simp only [Call.there, hp]) h
      | (simp only [talk] at h
         cases h
         exact ⟨_, rfl, by simp only [Call.ending, Call.there, hp]⟩)

/-- A program that writes a line after `usiok`: it is there after `connect`. -/
example : (⟨none, none⟩ : Client Unit).call ⟨(), fun _ _ => ((), ["id name A".toList, "usiok".toList, "readyok".toList])⟩ .connect =
    .returns (⟨some ⟨(), ["readyok".toList]⟩, some "A".toList⟩, .none) := rfl

/-- An engine that counts the commands it hears and plays one of two moves. -/
def counting : Player Nat where
  start := 0
  name := "Counter 1".toList
  options := ["id author A. N. Other".toList, "option name USI_Hash type spin default 16".toList]
  next := fun n _ => n + 1
  chat := fun _ _ => ["info string thinking".toList]
  best := fun n _ => if n % 2 = 0 then ("7g7f".toList, some "3c3d".toList) else ("resign".toList, none)
  mates := fun _ l => if l = none then "nomate".toList else "timeout".toList

theorem counting_polite : counting.Polite where
  name := by decide
  options := by decide
  ready := fun _ => by show ∀ l ∈ ["info string thinking".toList], _; decide
  search := fun _ _ => by show ∀ l ∈ ["info string thinking".toList], _; decide
  mate := fun _ _ => by show ∀ l ∈ ["info string thinking".toList], _; decide
  move := fun s _ => by
    show ' ' ∉ (if s % 2 = 0 then ("7g7f".toList, some "3c3d".toList) else ("resign".toList, none)).1
    split <;> decide
  ponder := fun s _ => by
    show ∀ y ∈ (if s % 2 = 0 then ("7g7f".toList, some "3c3d".toList) else ("resign".toList, none)).2, ' ' ∉ y
    split <;> decide

/-- A session with it, with the replies that are due. -/
def shortSession : List Call := [.connect, .setoption "USI_Hash".toList (.int 64), .isready, .usinewgame,
  .position (some ["7g7f".toList, "3c3d".toList]) "startpos".toList, .go { byoyomi := some 1000 }, .goMate none, .gameover (some "win".toList), .quit, .stop]

example : (∀ x ∈ shortSession, x.Plain ∧ x.Waits) ∧
    (due counting none shortSession).1 = [.none, .none, .none, .none, .none, .best "resign".toList none, .mate "nomate".toList, .none, .none] ∧
    (due counting none shortSession).2 = none := by
  refine ⟨?_, by decide, by decide⟩
  intro x hx
  simp only [shortSession, List.mem_cons, List.not_mem_nil, or_false] at hx
  rcases hx with rfl | rfl | rfl | rfl | rfl | rfl | rfl | rfl | rfl | rfl
  · exact ⟨trivial, trivial⟩
  · exact ⟨⟨by decide, (fun b h => by cases h), by decide, by decide⟩, trivial⟩
  · exact ⟨trivial, trivial⟩
  · exact ⟨trivial, trivial⟩
  · exact ⟨⟨by decide, by decide, by intro ws h; cases h; decide⟩, trivial⟩
  · exact ⟨.inr ⟨rfl, rfl⟩, rfl⟩
  · exact ⟨trivial, trivial⟩
  · exact ⟨by intro t h; cases h; decide, trivial⟩
  · exact ⟨trivial, trivial⟩
  · exact ⟨trivial, trivial⟩

end Verif.Usi
