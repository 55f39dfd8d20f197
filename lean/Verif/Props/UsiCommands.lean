import Verif.Model.Usi
import Verif.Props.PositionText

/-!
# C81, C82: commands to a USI engine and its answer

`Engine.position` writes `Usi.positionLine`, `Engine.go` writes `Usi.goLine` and returns what `Usi.await` finds (Verif/Model/Usi.lean).
-/

namespace Verif.Usi
open Spec Position

/-! ### C81: the position command -/

theorem joined_words (ws : List (List Char)) (w : List Char) : ' ' :: joined (w :: ws) = (w :: ws).flatMap fun w => ' ' :: w := by
  induction ws generalizing w with
  | nil => simp [joined]
  | cons x xs ih => rw [joined, ← List.cons_append, ih]; simp; simp

theorem position_moves (start : List Char) (ws : List (List Char)) (h : ws ≠ []) :
    positionLine (some ws) start = "position ".toList ++ commandText start ws := by
  cases ws with
  | nil => exact absurd rfl h
  | cons w ws =>
    unfold positionLine commandText
    rw [← joined_words]
    rfl

theorem position_none (start : List Char) (ws : Option (List (List Char))) (h : ws = none ∨ ws = some []) :
    positionLine ws start = "position ".toList ++ start := by
  rcases h with rfl | rfl
  · show "position ".toList ++ (start ++ []) = _
    rw [List.append_nil]
  · show "position ".toList ++ (start ++ []) = _
    rw [List.append_nil]

/-- **C81**: the text `sfen <position>` and legal moves make a line `position …` whose rest `Board.set_position` reads as the same game:
the board on which exactly these moves have been pushed from that position. The list of moves may be empty or missing. -/
theorem C81_sfen (Z : Zobrist) (p : Position) (hp : Inv Z p) (hr : (absPos p).Regular) (hl : -2147483648 ≤ p.gamePly) (hu : p.gamePly ≤ 2147483647) :
    ∃ p0, setSfen Z (toSfen p p.gamePly) = .ok p0 ∧ absPos p0 = absPos p ∧ p0.gamePly = p.gamePly ∧ p0.getKey = p.getKey ∧
      (∀ ws, ws = none ∨ ws = some [] → ∃ rest, positionLine ws ("sfen ".toList ++ toSfen p p.gamePly) = "position ".toList ++ rest ∧
        Board.setPosition Z rest = .ok ⟨p0, []⟩) ∧
      ∀ mvs, (absPos p).Line mvs → ∃ rest ms b,
        positionLine (some (mvs.map usiText)) ("sfen ".toList ++ toSfen p p.gamePly) = "position ".toList ++ rest ∧
        Board.setPosition Z rest = .ok b ∧ Board.run Z ⟨p0, []⟩ (ms.map .push) = some b ∧ ms.mapM Move.toUSI = some (mvs.map usiText) ∧
        b.history = ms ∧ absPos b.pos = (absPos p).after mvs := by
  obtain ⟨p0, h1, h2, h3, h4, h5, h6⟩ := C75_sfen Z p hp hr hl hu
  refine ⟨p0, h1, h2, h3, h4, fun ws hw => ⟨_, position_none _ ws hw, h5⟩, fun mvs hm => ?_⟩
  cases mvs with
  | nil => exact ⟨_, [], ⟨p0, []⟩, position_none _ _ (.inr rfl), h5, rfl, rfl, rfl, h2⟩
  | cons mv mvs =>
    obtain ⟨ms, b, g⟩ := h6 _ hm
    exact ⟨_, ms, b, position_moves _ _ (by simp), g⟩

/-- **C81** for the default argument `startpos`. -/
theorem C81_startpos (Z : Zobrist) : ∃ p0, setSfen Z Board.startSfen = .ok p0 ∧ absPos p0 = startPos ∧ p0.gamePly = 1 ∧
    (∀ ws, ws = none ∨ ws = some [] → ∃ rest, positionLine ws "startpos".toList = "position ".toList ++ rest ∧
      Board.setPosition Z rest = .ok ⟨p0, []⟩) ∧
    ∀ mvs, startPos.Line mvs → ∃ rest ms b, positionLine (some (mvs.map usiText)) "startpos".toList = "position ".toList ++ rest ∧
      Board.setPosition Z rest = .ok b ∧ Board.run Z ⟨p0, []⟩ (ms.map .push) = some b ∧ ms.mapM Move.toUSI = some (mvs.map usiText) ∧
      b.history = ms ∧ absPos b.pos = startPos.after mvs := by
  obtain ⟨p0, h1, h2, h3, h5, h6⟩ := C75_startpos Z
  refine ⟨p0, h1, h2, h3, fun ws hw => ⟨_, position_none _ ws hw, h5⟩, fun mvs hm => ?_⟩
  cases mvs with
  | nil => exact ⟨_, [], ⟨p0, []⟩, position_none _ _ (.inr rfl), h5, rfl, rfl, rfl, h2⟩
  | cons mv mvs =>
    obtain ⟨ms, b, g⟩ := h6 _ hm
    exact ⟨_, ms, b, position_moves _ _ (by simp), g⟩

/-- **C81** fails for what `Board.sfen()` returns, though the argument is called "the SFEN string representing the starting position": the
line lacks the word `sfen`, and `set_position` refuses it. -/
theorem C81_fails (Z : Zobrist) (p : Position) (hp : Consistent p) (ply : Int) (ws : Option (List (List Char)))
    (h : ∀ l, ws = some l → ∀ w ∈ l, Solid w ∧ w ≠ []) :
    ∃ rest, positionLine ws (toSfen p ply) = "position ".toList ++ rest ∧ Board.setPosition Z rest = .error := by
  have key : ∀ vs : List (List Char), (∀ w ∈ vs, Solid w ∧ w ≠ []) → Board.setPosition Z (oneLine (sfenParts p ply ++ vs)) = .error := by
    intro vs hv
    unfold Board.setPosition
    rw [words_of (fun w hw => by
      rcases List.mem_append.mp hw with hw | hw
      · exact (sfenParts_ok hp.code hp.hand ply w hw).1
      · exact hv w hw)]
    have hs := sfenBoard_slash p.piece
    have n1 : sfenBoard p.piece ≠ "startpos".toList := fun e => by rw [e] at hs; revert hs; decide
    have n2 : sfenBoard p.piece ≠ "sfen".toList := fun e => by rw [e] at hs; revert hs; decide
    show (if sfenBoard p.piece = _ then _ else if sfenBoard p.piece = _ then _ else _) = _
    rw [if_neg n1, if_neg n2]
  rcases ws with _ | ws
  · refine ⟨_, position_none _ _ (.inl rfl), ?_⟩
    have := key [] (by simp)
    rwa [List.append_nil, sfenParts_line] at this
  cases ws with
  | nil =>
    refine ⟨_, position_none _ _ (.inr rfl), ?_⟩
    have := key [] (by simp)
    rwa [List.append_nil, sfenParts_line] at this
  | cons w ws =>
    refine ⟨_, position_moves _ _ (by simp), ?_⟩
    have := key ("moves".toList :: w :: ws) fun x hx => by
      rcases List.mem_cons.mp hx with rfl | hx
      · exact ⟨by unfold Solid; decide, by decide⟩
      · exact h _ rfl x hx
    rw [oneLine_append _ (vs := sfenParts p ply) (List.cons_ne_nil _ _), sfenParts_line] at this
    exact this

/-- The hypotheses of `C81_fails` and `C81_sfen` are met by the starting position and its moves (`fiveMoves_line`). -/
example : ∃ mvs, mvs.length = 5 ∧ startPos.Line mvs ∧ (∀ w ∈ mvs.map usiText, Solid w ∧ w ≠ []) :=
  ⟨fiveMoves, by decide, fiveMoves_line, mapText_ok _⟩

/-! ### C82: go -/

/-- The word that follows the first word `name`. -/
def paramOf : List (List Char) → List Char → Option (List Char)
  | a :: b :: ws, name => if a = name then some b else paramOf (b :: ws) name
  | _, _ => none

theorem paramOf_skip {name : List Char} : ∀ (A B : List (List Char)), name ∉ A → paramOf (A ++ B) name = paramOf B name
  | [], _, _ => rfl
  | a :: A, B, h => by
    have ih := paramOf_skip A B fun hm => h (List.mem_cons_of_mem _ hm)
    have hne : a ≠ name := fun e => h (e ▸ List.mem_cons_self)
    rw [List.cons_append]
    cases hAB : A ++ B with
    | nil =>
      have hB : B = [] := (List.append_eq_nil_iff.mp hAB).2
      subst hB; rfl
    | cons b ws => rw [paramOf, if_neg hne, ← hAB, ih]

theorem paramOf_none {name : List Char} (A : List (List Char)) (h : name ∉ A) : paramOf A name = none := by
  have := paramOf_skip A [] h
  rwa [List.append_nil] at this

/-- The words of an argument. -/
def argWords (name : String) : Option Int → List (List Char)
  | none => []
  | some n => [name.toList, intChars n]

theorem argText_words (name : String) (x : Option Int) : argText name x = (argWords name x).flatMap fun w => ' ' :: w := by
  cases x <;> simp [argText, argWords]

/-- A text with a letter is not a number. -/
theorem intChars_ne (n : Int) {w : List Char} (h : ∃ c ∈ w, c ≠ '-' ∧ c.isDigit = false) : intChars n ≠ w := by
  rintro rfl
  obtain ⟨c, hc, h1, h2⟩ := h
  unfold intChars at hc
  split at hc
  · rcases List.mem_cons.mp hc with rfl | hc
    · exact h1 rfl
    · rw [natChars_isDigit c hc] at h2; cases h2
  · rw [natChars_isDigit c hc] at h2; cases h2

theorem argWords_mem {name other : String} {x : Option Int} (h : other.toList ≠ name.toList)
    (hl : ∃ c ∈ name.toList, c ≠ '-' ∧ c.isDigit = false) : name.toList ∉ argWords other x := by
  cases x with
  | none => simp [argWords]
  | some n =>
    simp only [argWords, List.mem_cons, List.not_mem_nil, or_false, not_or]
    exact ⟨h.symm, (intChars_ne n hl).symm⟩

theorem paramOf_here (name : String) (x : Option Int) (B : List (List Char)) (h : name.toList ∉ B) :
    paramOf (argWords name x ++ B) name.toList = x.map intChars := by
  cases x with
  | none => exact paramOf_none B h
  | some n => simp [argWords, paramOf]

/-- The words of the command. -/
def goWords (a : GoArgs) : List (List Char) :=
  "go".toList :: ((if a.ponder then ["ponder".toList] else []) ++ (argWords "btime" a.btime ++ (argWords "wtime" a.wtime ++
    ((match a.byoyomi with
      | some n => argWords "byoyomi" (some n)
      | none => argWords "binc" a.binc ++ argWords "winc" a.winc) ++ argWords "nodes" a.nodes))))

theorem splitAt_flat (w : List Char) (ws : List (List Char)) (hw : ' ' ∉ w) (h : ∀ v ∈ ws, ' ' ∉ v) :
    Kif.splitAt ' ' (w ++ ws.flatMap fun w => ' ' :: w) = w :: ws := by
  induction ws generalizing w with
  | nil => rw [List.flatMap_nil, List.append_nil, Kif.splitAt_none _ _ hw]
  | cons v vs ih =>
    rw [List.flatMap_cons, List.cons_append, Kif.splitAt_cons _ _ _ hw, ih v (h v List.mem_cons_self) fun x hx => h x (List.mem_cons_of_mem _ hx)]

theorem intChars_blank (n : Int) : ' ' ∉ intChars n := by
  intro h
  have := (intChars_ok n).1 ' ' h
  revert this; decide

theorem argWords_blank (name : String) (hn : ' ' ∉ name.toList) (x : Option Int) : ∀ v ∈ argWords name x, ' ' ∉ v := by
  intro v hv
  cases x with
  | none => cases hv
  | some n =>
    simp only [argWords, List.mem_cons, List.not_mem_nil, or_false] at hv
    rcases hv with rfl | rfl
    · exact hn
    · exact intChars_blank n

theorem goLine_words (a : GoArgs) : Kif.splitAt ' ' (goLine a) = goWords a := by
  have e : goLine a = "go".toList ++ ((goWords a).drop 1).flatMap fun w => ' ' :: w := by
    unfold goLine goWords
    simp only [argText_words, List.drop_succ_cons, List.drop_zero, List.flatMap_append]
    congr 2
    · cases a.ponder <;> rfl
    · congr 2
      congr 1
      cases a.byoyomi <;> simp
  rw [e, splitAt_flat]
  · rfl
  · decide
  · intro v hv
    unfold goWords at hv
    simp only [List.drop_succ_cons, List.drop_zero, List.mem_append] at hv
    rcases hv with hv | hv | hv | hv | hv
    · split at hv
      · rw [List.mem_singleton.mp hv]; decide
      · cases hv
    · exact argWords_blank _ (by decide) _ v hv
    · exact argWords_blank _ (by decide) _ v hv
    · cases hb : a.byoyomi with
      | some n => rw [hb] at hv; exact argWords_blank _ (by decide) _ v hv
      | none =>
        rw [hb] at hv
        rcases List.mem_append.mp hv with hv | hv
        · exact argWords_blank _ (by decide) _ v hv
        · exact argWords_blank _ (by decide) _ v hv
    · exact argWords_blank _ (by decide) _ v hv

/-- **C82**, the part that holds: when `byoyomi` is not given together with `binc` or `winc`, the command is `go`, with the word
`ponder` exactly if it was asked for, and each number given stands behind its name; what was not given is not named. -/
theorem C82_go_partial (a : GoArgs) (h : a.byoyomi = none ∨ (a.binc = none ∧ a.winc = none)) :
    let ws := Kif.splitAt ' ' (goLine a)
    ws.head? = some "go".toList ∧ ("ponder".toList ∈ ws ↔ a.ponder = true) ∧
    paramOf ws "btime".toList = a.btime.map intChars ∧ paramOf ws "wtime".toList = a.wtime.map intChars ∧
    paramOf ws "byoyomi".toList = a.byoyomi.map intChars ∧ paramOf ws "binc".toList = a.binc.map intChars ∧
    paramOf ws "winc".toList = a.winc.map intChars ∧ paramOf ws "nodes".toList = a.nodes.map intChars := by
  intro ws
  have hw : ws = goWords a := goLine_words a
  rw [hw]
  have hp : ∀ name : String, name.toList ≠ "go".toList → name.toList ≠ "ponder".toList →
      name.toList ∉ "go".toList :: (if a.ponder then ["ponder".toList] else []) := by
    intro name h1 h2
    split
    · rw [List.mem_cons, List.mem_singleton, not_or]; exact ⟨h1, h2⟩
    · rw [List.mem_singleton]; exact h1
  have e : goWords a = ("go".toList :: (if a.ponder then ["ponder".toList] else [])) ++ (argWords "btime" a.btime ++ (argWords "wtime" a.wtime ++
      (argWords "byoyomi" a.byoyomi ++ (argWords "binc" a.binc ++ (argWords "winc" a.winc ++ argWords "nodes" a.nodes))))) := by
    unfold goWords
    rcases h with h | ⟨h1, h2⟩
    · rw [h]; simp [argWords]
    · rw [h1, h2]
      cases a.byoyomi <;> simp [argWords]
  have nm : ∀ (name other : String) (x : Option Int), other.toList ≠ name.toList → (∃ c ∈ name.toList, c ≠ '-' ∧ c.isDigit = false) →
      name.toList ∉ argWords other x := fun name other x h1 h2 => argWords_mem h1 h2
  have sk : ∀ (name other : String) (x : Option Int) (B : List (List Char)), other.toList ≠ name.toList →
      (∃ c ∈ name.toList, c ≠ '-' ∧ c.isDigit = false) → paramOf (argWords other x ++ B) name.toList = paramOf B name.toList :=
    fun name other x B h1 h2 => paramOf_skip _ _ (nm name other x h1 h2)
  rw [e]
  refine ⟨rfl, ?_, ?_, ?_, ?_, ?_, ?_, ?_⟩
  · have h0 : ∀ (other : String) (x : Option Int), other.toList ≠ "ponder".toList → "ponder".toList ∉ argWords other x :=
      fun other x h1 => nm "ponder" other x h1 ⟨'p', by decide, by decide⟩
    simp only [List.mem_append, h0 "btime" _ (by decide), h0 "wtime" _ (by decide), h0 "byoyomi" _ (by decide), h0 "binc" _ (by decide),
      h0 "winc" _ (by decide), h0 "nodes" _ (by decide), or_false]
    cases a.ponder <;> decide
  · rw [paramOf_skip _ _ (hp "btime" (by decide) (by decide)), paramOf_here "btime"]
    simp only [List.mem_append, not_or]
    exact ⟨nm _ _ _ (by decide) ⟨'b', by decide⟩, nm _ _ _ (by decide) ⟨'b', by decide⟩, nm _ _ _ (by decide) ⟨'b', by decide⟩,
      nm _ _ _ (by decide) ⟨'b', by decide⟩, nm _ _ _ (by decide) ⟨'b', by decide⟩⟩
  · rw [paramOf_skip _ _ (hp "wtime" (by decide) (by decide)), sk "wtime" _ _ _ (by decide) ⟨'w', by decide⟩, paramOf_here "wtime"]
    simp only [List.mem_append, not_or]
    exact ⟨nm _ _ _ (by decide) ⟨'w', by decide⟩, nm _ _ _ (by decide) ⟨'w', by decide⟩, nm _ _ _ (by decide) ⟨'w', by decide⟩,
      nm _ _ _ (by decide) ⟨'w', by decide⟩⟩
  · rw [paramOf_skip _ _ (hp "byoyomi" (by decide) (by decide)), sk "byoyomi" _ _ _ (by decide) ⟨'b', by decide⟩,
      sk "byoyomi" _ _ _ (by decide) ⟨'b', by decide⟩, paramOf_here "byoyomi"]
    simp only [List.mem_append, not_or]
    exact ⟨nm _ _ _ (by decide) ⟨'b', by decide⟩, nm _ _ _ (by decide) ⟨'b', by decide⟩, nm _ _ _ (by decide) ⟨'b', by decide⟩⟩
  · rw [paramOf_skip _ _ (hp "binc" (by decide) (by decide)), sk "binc" _ _ _ (by decide) ⟨'b', by decide⟩,
      sk "binc" _ _ _ (by decide) ⟨'b', by decide⟩, sk "binc" _ _ _ (by decide) ⟨'b', by decide⟩, paramOf_here "binc"]
    simp only [List.mem_append, not_or]
    exact ⟨nm _ _ _ (by decide) ⟨'b', by decide⟩, nm _ _ _ (by decide) ⟨'b', by decide⟩⟩
  · rw [paramOf_skip _ _ (hp "winc" (by decide) (by decide)), sk "winc" _ _ _ (by decide) ⟨'w', by decide⟩,
      sk "winc" _ _ _ (by decide) ⟨'w', by decide⟩, sk "winc" _ _ _ (by decide) ⟨'w', by decide⟩, sk "winc" _ _ _ (by decide) ⟨'w', by decide⟩,
      paramOf_here "winc"]
    exact nm _ _ _ (by decide) ⟨'w', by decide⟩
  · rw [paramOf_skip _ _ (hp "nodes" (by decide) (by decide)), sk "nodes" _ _ _ (by decide) ⟨'n', by decide⟩,
      sk "nodes" _ _ _ (by decide) ⟨'n', by decide⟩, sk "nodes" _ _ _ (by decide) ⟨'n', by decide⟩, sk "nodes" _ _ _ (by decide) ⟨'n', by decide⟩,
      sk "nodes" _ _ _ (by decide) ⟨'n', by decide⟩]
    have := paramOf_here "nodes" a.nodes [] (by simp)
    rwa [List.append_nil] at this

/-- **C82** fails when `byoyomi` is given: the increments are dropped without notice. -/
theorem C82_fails_increment (a : GoArgs) (n : Int) (h : a.byoyomi = some n) (b w : Option Int) :
    goLine a = goLine { a with binc := b, winc := w } := by
  unfold goLine
  simp only [h]

/-- Arguments that meet the hypothesis of `C82_go_partial`, with the command. -/
example : goLine { ponder := true, btime := some 60000, wtime := some (-5), binc := some 1000 } = "go ponder btime 60000 wtime -5 binc 1000".toList := by
  decide +kernel

/-- The text of an answer. -/
def answerText (m : List Char) : Option (List Char) → List Char
  | none => "bestmove ".toList ++ m
  | some x => "bestmove ".toList ++ (m ++ (" ponder ".toList ++ x))

theorem bestOf_answer {m : List Char} {x : Option (List Char)} (hm : ' ' ∉ m) (hx : ∀ y ∈ x, ' ' ∉ y) : bestOf (answerText m x) = some (m, x) := by
  unfold bestOf
  cases x with
  | none =>
    have e1 : (answerText m none).take 8 = "bestmove".toList := rfl
    have e2 : (answerText m none).drop 9 = m := rfl
    rw [if_pos e1, e2, Kif.splitAt_none _ _ hm]
  | some x =>
    have e1 : (answerText m (some x)).take 8 = "bestmove".toList := rfl
    have e2 : (answerText m (some x)).drop 9 = m ++ ' ' :: ("ponder".toList ++ ' ' :: x) := rfl
    rw [if_pos e1, e2, Kif.splitAt_cons _ _ _ hm, Kif.splitAt_cons _ _ _ (by decide), Kif.splitAt_none _ _ (hx x rfl)]
    simp

theorem await_from (ls : List (List Char)) : ∀ (fuel n k : Nat), n ≤ k → k < n + fuel → (∀ i, n ≤ i → i < k → bestOf (lineNo ls i) = none) →
    ∀ x, bestOf (lineNo ls k) = some x → await ls fuel n = some x
  | 0, n, k, h1, h2, _, _, _ => by omega
  | fuel + 1, n, k, h1, h2, h3, x, hx => by
    rw [await]
    rcases Nat.lt_or_ge n k with h | h
    · rw [h3 n (Nat.le_refl _) h]
      exact await_from ls fuel (n + 1) k h (by omega) (fun i a b => h3 i (by omega) b) x hx
    · have : n = k := by omega
      rw [this, hx]

theorem bestOf_other {l : List Char} (h : l.take 8 ≠ "bestmove".toList) : bestOf l = none := by
  unfold bestOf; rw [if_neg h]

/-- **C82**: `go` returns the move, and the move to ponder on if there is one, of the first line that begins with `bestmove`, whatever
the engine has written before and writes after it. -/
theorem C82_answer (before after : List (List Char)) (m : List Char) (x : Option (List Char)) (hm : ' ' ∉ m) (hx : ∀ y ∈ x, ' ' ∉ y)
    (hb : ∀ l ∈ before, l.take 8 ≠ "bestmove".toList) (fuel : Nat) (hf : before.length < fuel) :
    await (before ++ answerText m x :: after) fuel 0 = some (m, x) := by
  refine await_from _ fuel 0 before.length (Nat.zero_le _) (by omega) (fun i _ hi => ?_) _ ?_
  · have : lineNo (before ++ answerText m x :: after) i = before[i] := by
      unfold lineNo; rw [List.getElem?_append_left hi]; simp [hi]
    rw [this]
    exact bestOf_other (hb _ (List.getElem_mem hi))
  · have : lineNo (before ++ answerText m x :: after) before.length = answerText m x := by
      unfold lineNo; simp
    rw [this]
    exact bestOf_answer hm hx

/-- **C82** fails when the engine ends without an answer: however long one waits, `go` neither returns nor raises `EOFError`. -/
theorem C82_fails_eof (ls : List (List Char)) (hb : ∀ l ∈ ls, l.take 8 ≠ "bestmove".toList) (fuel n : Nat) : await ls fuel n = none := by
  induction fuel generalizing n with
  | zero => rfl
  | succ fuel ih =>
    have : bestOf (lineNo ls n) = none := by
      refine bestOf_other ?_
      unfold lineNo
      cases h : ls[n]? with
      | none => decide
      | some l => exact hb l (List.mem_of_getElem? h)
    rw [await, this]
    exact ih (n + 1)

/-- An answer after two lines of information. -/
example : await ["info depth 1 score cp 30 pv 7g7f".toList, "info string thinking".toList, "bestmove 7g7f ponder 3c3d".toList] 3 0 =
    some ("7g7f".toList, some "3c3d".toList) := by decide +kernel

end Verif.Usi
