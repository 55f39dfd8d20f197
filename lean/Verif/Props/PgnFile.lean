import Verif.Model.PgnFile
import Verif.Spec.PgnFile
import Verif.Props.Pgn
import Verif.Props.Tally
import Verif.Props.MatchCases
import Verif.Spec.Line

/-!
# C101: a PGN file of a match tells the match
-/

namespace Verif.Pgn
open Spec Position

/-! ### Lines -/

theorem pgnLines_ne_nil (t : List Char) : pgnLines t ≠ [] := by
  cases t with
  | nil => simp [pgnLines]
  | cons c cs =>
    by_cases hc : c = '\n'
    · subst hc; simp [pgnLines]
    · rw [pgnLines]
      · split <;> simp
      · exact hc

theorem pgnLines_cons {c : Char} (hc : c ≠ '\n') (cs : List Char) : ∃ l ls, pgnLines cs = l :: ls ∧ pgnLines (c :: cs) = (c :: l) :: ls := by
  rcases h : pgnLines cs with _ | ⟨l, ls⟩
  · exact absurd h (pgnLines_ne_nil cs)
  · refine ⟨l, ls, rfl, ?_⟩
    rw [pgnLines, h]
    exact hc

/-- A line ends with its line break. -/
theorem pgnLines_append : ∀ a b : List Char, pgnLines (a ++ '\n' :: b) = pgnLines a ++ pgnLines b
  | [], b => rfl
  | c :: a, b => by
    by_cases hc : c = '\n'
    · subst hc
      show [] :: pgnLines (a ++ '\n' :: b) = _
      rw [pgnLines_append a b]
      rfl
    · obtain ⟨l, ls, e1, e2⟩ := pgnLines_cons hc a
      obtain ⟨l', ls', f1, f2⟩ := pgnLines_cons hc (a ++ '\n' :: b)
      rw [List.cons_append, f2, e2]
      rw [pgnLines_append a b, e1, List.cons_append, List.cons.injEq] at f1
      rw [← f1.1, ← f1.2]
      rfl

theorem pgnLines_one : ∀ {a : List Char}, '\n' ∉ a → pgnLines a = [a]
  | [], _ => rfl
  | c :: a, h => by
    obtain ⟨l, ls, e1, e2⟩ := pgnLines_cons (c := c) (fun e => h (e ▸ List.mem_cons_self)) a
    rw [pgnLines_one (fun h' => h (List.mem_cons_of_mem _ h'))] at e1
    rw [e2, ← (List.cons.inj e1).1, ← (List.cons.inj e1).2]

/-- A text is the text of its lines. -/
theorem words_lines : ∀ t : List Char, ∃ ls, pgnLines t = ls ∧ words t = ls.flatMap words := by
  intro t
  refine ⟨_, rfl, ?_⟩
  obtain ⟨n, hn⟩ : ∃ n, t.length = n := ⟨_, rfl⟩
  induction n using Nat.strong_induction_on generalizing t with
  | _ n ih =>
    by_cases h : '\n' ∈ t
    · obtain ⟨a, b, rfl⟩ := List.append_of_mem h
      rw [pgnLines_append, words_append (Or.inr rfl), List.flatMap_append, ih a.length (by rw [← hn]; simp) a rfl,
        ih b.length (by rw [← hn]; simp; omega) b rfl]
    · rw [pgnLines_one h]; simp

/-! ### Tags -/

theorem quoted_plain : ∀ {v : List Char}, Unquoted v → quoted (v ++ ['"', ']']) = some v
  | [], _ => rfl
  | c :: v, h => by
    have h1 : c ≠ '"' := fun e => h.1 (e ▸ List.mem_cons_self)
    have h2 : c ≠ '\\' := fun e => h.2.1 (e ▸ List.mem_cons_self)
    have ih : quoted (v ++ ['"', ']']) = some v :=
      quoted_plain ⟨fun h' => h.1 (List.mem_cons_of_mem _ h'), fun h' => h.2.1 (List.mem_cons_of_mem _ h'), fun h' => h.2.2 (List.mem_cons_of_mem _ h')⟩
    rw [List.cons_append, quoted, ih]
    · rfl
    · intro h; exact absurd h h1
    · intro h; exact absurd h h1
    · intro _ _ h; exact absurd h h2

theorem tagRest_name {cs : List Char} : ∀ {name : List Char}, ' ' ∉ name → tagRest (name ++ ' ' :: '"' :: cs) = (quoted cs).map fun v => (name, v)
  | [], _ => rfl
  | c :: name, h => by
    have h1 : c ≠ ' ' := fun e => h (e ▸ List.mem_cons_self)
    rw [List.cons_append, tagRest, tagRest_name (fun h' => h (List.mem_cons_of_mem _ h'))]
    · cases quoted cs <;> rfl
    · intro _ h; exact absurd h h1
    · intro h; exact absurd h h1

/-- A tag behind another. -/
theorem games_tag {name : String} (hn : ' ' ∉ name.toList) (hl : '\n' ∉ name.toList) {v : List Char} (hv : Unquoted v) (gs : List PgnGame) (g : PgnGame) (rest : List Char) :
    gamesFrom (gs ++ [g]) true (pgnLines (tagLine name v ++ rest)) = gamesFrom (gs ++ [⟨g.tags ++ [(name.toList, v)], g.text⟩]) true (pgnLines rest) := by
  have e : tagLine name v ++ rest = ('[' :: (name.toList ++ ' ' :: '"' :: (v ++ ['"', ']']))) ++ '\n' :: rest := by simp [tagLine]
  rw [e, pgnLines_append, pgnLines_one]
  · rw [List.singleton_append, gamesFrom, tagRest_name hn, quoted_plain hv]
    simp
  · simp [hl, hv.2.2]

/-- The first tag of a game. -/
theorem games_first {name : String} (hn : ' ' ∉ name.toList) (hl : '\n' ∉ name.toList) {v : List Char} (hv : Unquoted v) (gs : List PgnGame) (rest : List Char) :
    gamesFrom gs false (pgnLines (tagLine name v ++ rest)) = gamesFrom (gs ++ [⟨[(name.toList, v)], []⟩]) true (pgnLines rest) := by
  have e : tagLine name v ++ rest = ('[' :: (name.toList ++ ' ' :: '"' :: (v ++ ['"', ']']))) ++ '\n' :: rest := by simp [tagLine]
  rw [e, pgnLines_append, pgnLines_one]
  · rw [List.singleton_append, gamesFrom, tagRest_name hn, quoted_plain hv]
    simp
  · simp [hl, hv.2.2]

/-- The lines of the moves. -/
theorem games_body (gs : List PgnGame) (rest : List (List Char)) : ∀ (ls : List (List Char)) (g : PgnGame), (∀ l ∈ ls, l.head? ≠ some '[') →
    gamesFrom (gs ++ [g]) false (ls ++ rest) = gamesFrom (gs ++ [⟨g.tags, g.text ++ ls.flatMap words⟩]) false rest
  | [], g, _ => by simp
  | [] :: ls, g, h => by
    rw [List.cons_append, gamesFrom, games_body gs rest ls g fun l hl => h l (List.mem_cons_of_mem _ hl)]
    simp [words, wordsFrom]
  | (c :: r) :: ls, g, h => by
    have hc : c ≠ '[' := fun e => h (c :: r) List.mem_cons_self (by rw [e]; rfl)
    rw [List.cons_append, gamesFrom]
    · simp only [List.getLast?_append, List.getLast?_singleton, Option.some_or, List.dropLast_concat]
      rw [games_body gs rest ls _ fun l hl => h l (List.mem_cons_of_mem _ hl)]
      simp
    · exact hc

/-! ### Moves -/

/-- The moves of a line as numbers. -/
inductive Codes (Z : Zobrist) : Position → List Mv → List Move → Prop
  | nil (p : Position) : Codes Z p [] []
  | cons {p p' : Position} {mv : Mv} {mvs : List Mv} {ms : List Move} : doMove Z p (encode p mv) = some p' → Codes Z p' mvs ms →
    Codes Z p (mv :: mvs) (encode p mv :: ms)

theorem Codes.texts {Z : Zobrist} : ∀ {mvs : List Mv} {p : Position} {ms : List Move}, Codes Z p mvs ms → Csa.Good Z p → (absPos p).Line mvs →
    (absPos p).NoProKnight mvs → ms.map moveToSan = ((absPos p).pgnTexts mvs).map some ∧
      (∀ w ∈ (absPos p).pgnTexts mvs, Solid w ∧ w.length ≤ 7) ∧ (ms = [] ↔ mvs = [])
  | [], _, _, .nil _, _, _, _ => ⟨rfl, by simp [Pos.pgnTexts], by simp⟩
  | mv :: mvs, p, _, .cons (p' := p') (ms := ms) e c, hg, hl, hk => by
    obtain ⟨p'', e1, g1, a1⟩ := hg.doMove hl.1
    rw [e] at e1; cases e1
    obtain ⟨h1, h2, -⟩ := c.texts g1 (by rw [a1]; exact hl.2) (by rw [a1]; exact hk.2)
    rw [a1] at h1 h2
    have h3 := C71_move_partial Z p hg.inv mv hl.1 hk.1
    have h4 : sanText (absPos p) mv = (absPos p).pgnMove mv := by
      have := moveToSan_text hg.inv.views hl.1.1.1
      rw [h3] at this
      exact (Option.some.inj this).symm
    refine ⟨?_, fun w hw => ?_, by simp⟩
    · rw [List.map_cons, h1, h3]; rfl
    · rcases List.mem_cons.mp hw with rfl | hw
      · rw [← h4]; exact sanText_solid hl.1.1.1
      · exact h2 w hw

theorem words_head {c : Char} (h1 : c ≠ ' ') (h2 : c ≠ '\n') (r : List Char) : ∃ w ∈ words (c :: r), w.head? = some c := by
  have : ∀ (r cur : List Char), cur.head? = some c → ∃ w ∈ wordsFrom cur r, w.head? = some c := by
    intro r
    induction r with
    | nil =>
      intro cur h
      rw [wordsFrom, if_neg (by rintro rfl; cases h)]
      exact ⟨cur, by simp, h⟩
    | cons d r ih =>
      intro cur h
      have hne : cur ≠ [] := by rintro rfl; cases h
      rw [wordsFrom, if_neg hne]
      split
      · exact ⟨cur, by simp, h⟩
      · refine ih _ ?_
        cases cur with
        | nil => exact absurd rfl hne
        | cons x xs => exact h
  unfold words
  rw [wordsFrom, if_neg (by simp [h1, h2])]
  exact this r _ rfl

theorem pgnMove_head {q : Pos} {mv : Mv} (hm : q.Pseudo mv) : (q.pgnMove mv).head? ≠ some '[' := by
  have hk : ∀ k : Kind, (pgnKind k).head? ≠ some '[' ∧ pgnKind k ≠ [] := by intro k; cases k <;> decide
  have happ : ∀ (k : Kind) (t : List Char), (pgnKind k ++ t).head? ≠ some '[' := by
    intro k t
    rcases h : pgnKind k with _ | ⟨c, cs⟩
    · exact absurd h (hk k).2
    · have := (hk k).1; rw [h] at this; exact this
  match mv, hm with
  | .drop h t, _ => exact happ _ _
  | .move s t pro, ⟨k, hb, _⟩ =>
    unfold Pos.pgnMove
    dsimp only
    rw [hb]
    dsimp only
    rw [List.append_assoc, List.append_assoc]
    exact happ _ _

theorem pgnTexts_head : ∀ {mvs : List Mv} {q : Pos}, q.Line mvs → ∀ w ∈ q.pgnTexts mvs, w.head? ≠ some '['
  | [], _, _, _, hw => by cases hw
  | mv :: mvs, q, hl, w, hw => by
    rcases List.mem_cons.mp hw with rfl | hw
    · exact pgnMove_head hl.1.1.1
    · exact pgnTexts_head hl.2 w hw

theorem pgnWords_head : ∀ {ws : List (List Char)} {i : Nat}, (∀ w ∈ ws, w.head? ≠ some '[') → ∀ w ∈ pgnWords i ws, w.head? ≠ some '['
  | [], _, _, _, hw => by cases hw
  | v :: ws, i, h, w, hw => by
    have hv := h v List.mem_cons_self
    rw [pgnWords] at hw
    rcases List.mem_append.mp hw with hw | hw
    · split at hw
      · rcases List.mem_cons.mp hw with rfl | hw
        · rw [← natChars_toString]
          obtain ⟨d, l, hd, e⟩ := natChars_head (i / 2 + 1)
          rw [e]
          intro h'
          have h'' : digitCh d = '[' := by simpa using h'
          interval_cases d <;> exact absurd h'' (by decide)
        · rw [List.mem_singleton.mp hw]; exact hv
      · rw [List.mem_singleton.mp hw]; exact hv
    · exact pgnWords_head (fun x hx => h x (List.mem_cons_of_mem _ hx)) w hw

theorem movetext_end {res : List Char} {n : Nat} : ∀ {ms : List Move} {i : Nat} {line out : List Char}, writeMoves res n i ms line = some out →
    ∃ t, out = t ++ ['\n']
  | [], i, line, out, h => by
    rw [writeMoves] at h
    exact ⟨line ++ ['\n'], by rw [← Option.some.inj h]; simp⟩
  | m :: ms, i, line, out, h => by
    rw [writeMoves] at h
    obtain ⟨p, -, h⟩ := Option.bind_eq_some_iff.mp h
    split at h
    · exact movetext_end h
    · obtain ⟨o, ho, rfl⟩ := Option.map_eq_some_iff.mp h
      obtain ⟨t, rfl⟩ := movetext_end ho
      exact ⟨line ++ '\n' :: t, by simp⟩

/-- The text of the moves, read in front of anything else. -/
theorem games_moves {Z : Zobrist} {p : Position} {mvs : List Mv} {ms : List Move} (hc : Codes Z p mvs ms) (hg : Csa.Good Z p) (hl : (absPos p).Line mvs)
    (hk : (absPos p).NoProKnight mvs) (hne : mvs ≠ []) (r : Option Result) (gs : List PgnGame) (g : PgnGame) :
    ∃ out, movetext ms (r.map Csa.winOf) = some out ∧ ∀ rest, gamesFrom (gs ++ [g]) false (pgnLines (out ++ rest)) =
      gamesFrom (gs ++ [⟨g.tags, g.text ++ (pgnWords 0 ((absPos p).pgnTexts mvs) ++ [pgnResult r])⟩]) false (pgnLines rest) := by
  obtain ⟨h1, h2, h3⟩ := hc.texts hg hl hk
  obtain ⟨out, o1, o2, -⟩ := writeMoves_words (win := r.map Csa.winOf) ms (i := 0) (line := []) h1 h2 (Nat.zero_add _) (by simp) (by simp)
  rw [if_neg (fun h => hne (h3.mp h))] at o2
  have hres : resultText (r.map Csa.winOf) = pgnResult r := by rcases r with _ | _ | _ | _ <;> rfl
  rw [hres, show words [] = [] from rfl, List.nil_append] at o2
  refine ⟨out, o1, fun rest => ?_⟩
  obtain ⟨t, ht⟩ := movetext_end o1
  have hwt : words t = pgnWords 0 ((absPos p).pgnTexts mvs) ++ [pgnResult r] := by
    rw [← o2, ht, words_append (Or.inr rfl)]
    simp [words, wordsFrom]
  obtain ⟨ls, hls, hw⟩ := words_lines t
  have e : out ++ rest = t ++ '\n' :: rest := by rw [ht]; simp
  rw [e, pgnLines_append, hls, games_body, ← hw, hwt]
  intro l hl' hh
  rcases l with _ | ⟨c, l⟩
  · cases hh
  · obtain rfl : c = '[' := by simpa using hh
    obtain ⟨w, hw1, hw2⟩ := words_head (c := '[') (by decide) (by decide) l
    have : w ∈ words t := by rw [hw]; exact List.mem_flatMap.mpr ⟨_, hl', hw1⟩
    rw [hwt] at this
    rcases List.mem_append.mp this with h | h
    · exact pgnWords_head (pgnTexts_head hl) w h hw2
    · rw [List.mem_singleton.mp h] at hw2
      rcases r with _ | _ | _ | _ <;> exact absurd hw2 (by decide)

theorem natChars_step {n : Nat} (h : 10 ≤ n) : natChars n = natChars (n / 10) ++ [digitCh (n % 10)] := by
  have e : natChars n = natCharsF n (n / 10) ++ [digitCh (n % 10)] := by
    unfold natChars
    rw [natCharsF, if_neg (by omega)]
  rw [e, natCharsF_digits n (n / 10) (by omega)]
  unfold natChars
  rw [natCharsF_digits _ _ (Nat.lt_succ_self _)]

theorem digitCh_digit {n : Nat} (h : n < 10) : digitCh n = digit n := by interval_cases n <;> rfl

theorem twoDigits_eq {n : Nat} (h : n < 100) : twoDigits n = [digit (n / 10), digit (n % 10)] := by
  unfold twoDigits
  split
  · rename_i h'
    rw [natChars_small h', digitCh_digit h', Nat.div_eq_of_lt h', Nat.mod_eq_of_lt h']; rfl
  · rw [natChars_step (by omega), natChars_small (by omega), digitCh_digit (by omega), digitCh_digit (by omega)]; rfl

theorem dateTag_eq {d : Nat × Nat × Nat} (h1 : 1000 ≤ d.1) (h2 : d.1 < 10000) (h3 : d.2.1 < 100) (h4 : d.2.2 < 100) : dateTag d = pgnDate d := by
  unfold dateTag pgnDate
  rw [twoDigits_eq h3, twoDigits_eq h4, natChars_step (by omega), natChars_step (by omega), natChars_step (by omega), natChars_small (by omega),
    digitCh_digit (by omega), digitCh_digit (by omega), digitCh_digit (by omega), digitCh_digit (by omega),
    show d.1 / 10 / 10 / 10 = d.1 / 1000 by omega, show d.1 / 10 / 10 % 10 = d.1 / 100 % 10 by omega]
  rfl

theorem pgnDate_unquoted {d : Nat × Nat × Nat} (h1 : d.1 < 10000) (h3 : d.2.1 < 100) (h4 : d.2.2 < 100) : Unquoted (pgnDate d) := by
  have hd : ∀ n, n < 10 → '"' ≠ digit n ∧ '\\' ≠ digit n ∧ '\n' ≠ digit n := by intro n hn; interval_cases n <;> decide
  have a1 := hd (d.1 / 1000) (by omega)
  have a2 := hd (d.1 / 100 % 10) (by omega)
  have a3 := hd (d.1 / 10 % 10) (by omega)
  have a4 := hd (d.1 % 10) (by omega)
  have a5 := hd (d.2.1 / 10) (by omega)
  have a6 := hd (d.2.1 % 10) (by omega)
  have a7 := hd (d.2.2 / 10) (by omega)
  have a8 := hd (d.2.2 % 10) (by omega)
  unfold Unquoted pgnDate
  simp [a1, a2, a3, a4, a5, a6, a7, a8]

theorem natChars_unquoted (n : Nat) : Unquoted (natChars n) :=
  ⟨Kif.natChars_noPro n (by decide), Kif.natChars_noPro n (by decide), Kif.natChars_noPro n (by decide)⟩

/-- A date that the writer can put down. -/
structure Dated (d : Nat × Nat × Nat) : Prop where
  old : 1000 ≤ d.1
  year : d.1 < 10000
  month : d.2.1 < 100
  day : d.2.2 < 100

/-- The tags of a game, read in front of anything else. -/
theorem games_tags {names : List Char × List Char} {event site : List Char} {date : Nat × Nat × Nat} (hn1 : Unquoted names.1) (hn2 : Unquoted names.2)
    (he : Unquoted event) (hs : Unquoted site) (hd : Dated date) (round : Nat) (r : Option Result) (gs : List PgnGame) (rest : List Char) :
    gamesFrom gs false (pgnLines (tagPair names (r.map Csa.winOf) event site date round ++ rest)) =
      gamesFrom (gs ++ [pgnGame names.1 names.2 event site date round r none]) false (pgnLines rest) := by
  have hres : resultText (r.map Csa.winOf) = pgnResult r := by rcases r with _ | _ | _ | _ <;> rfl
  have hr : Unquoted (pgnResult r) := by unfold Unquoted; rcases r with _ | _ | _ | _ <;> decide
  unfold tagPair
  simp only [List.append_assoc]
  rw [hres, dateTag_eq hd.old hd.year hd.month hd.day,
    games_first (by decide) (by decide) he, games_tag (by decide) (by decide) hs, games_tag (by decide) (by decide) (pgnDate_unquoted hd.year hd.month hd.day),
    games_tag (by decide) (by decide) (natChars_unquoted round), games_tag (by decide) (by decide) hn1, games_tag (by decide) (by decide) hn2,
    games_tag (by decide) (by decide) hr, natChars_toString]
  show gamesFrom _ true ([] :: pgnLines rest) = _
  rw [gamesFrom]
  rfl

/-! ### Files -/

/-- A game to be written: `mvs` is `none` if the moves are not wanted. -/
structure Entry where
  names : List Char × List Char
  result : Option Result
  event : List Char
  site : List Char
  date : Nat × Nat × Nat
  round : Nat
  mvs : Option (List Mv)
  codes : List Move

/-- What the calls of `tag_pair` and `movetext` write. -/
def Entry.write (e : Entry) : Option (List Char) :=
  let tags := tagPair e.names (e.result.map Csa.winOf) e.event e.site e.date e.round
  match e.mvs with
  | none => some tags
  | some _ => (movetext e.codes (e.result.map Csa.winOf)).map fun t => tags ++ t

def writeAll : List Entry → Option (List Char)
  | [] => some []
  | e :: es => e.write.bind fun a => (writeAll es).map fun b => a ++ b

/-- What a reader should find. -/
def Entry.wanted (q : Pos) (e : Entry) : PgnGame :=
  pgnGame e.names.1 e.names.2 e.event e.site e.date e.round e.result (e.mvs.map q.pgnTexts)

/-- Texts on one line without quotes and backslashes, a legal game with a move, none of them with a promoted knight. -/
structure Entry.Usual (Z : Zobrist) (p : Position) (e : Entry) : Prop where
  first : Unquoted e.names.1
  second : Unquoted e.names.2
  event : Unquoted e.event
  site : Unquoted e.site
  dated : Dated e.date
  game : ∀ mvs, e.mvs = some mvs → Codes Z p mvs e.codes ∧ (absPos p).Line mvs ∧ (absPos p).NoProKnight mvs ∧ mvs ≠ []

theorem entry_read {Z : Zobrist} {p : Position} (hg : Csa.Good Z p) {e : Entry} (h : e.Usual Z p) (gs : List PgnGame) :
    ∃ out, e.write = some out ∧ ∀ rest, gamesFrom gs false (pgnLines (out ++ rest)) = gamesFrom (gs ++ [e.wanted (absPos p)]) false (pgnLines rest) := by
  unfold Entry.write Entry.wanted
  rcases hm : e.mvs with _ | mvs
  · exact ⟨_, rfl, fun rest => games_tags h.first h.second h.event h.site h.dated _ _ _ _⟩
  · obtain ⟨h1, h2, h3, h4⟩ := h.game mvs hm
    obtain ⟨out, o1, o2⟩ := games_moves h1 hg h2 h3 h4 e.result gs (pgnGame e.names.1 e.names.2 e.event e.site e.date e.round e.result none)
    refine ⟨_, by dsimp only; rw [o1]; rfl, fun rest => ?_⟩
    rw [List.append_assoc, games_tags h.first h.second h.event h.site h.dated, o2]
    rfl

theorem entries_read {Z : Zobrist} {p : Position} (hg : Csa.Good Z p) : ∀ (es : List Entry), (∀ e ∈ es, e.Usual Z p) → ∀ gs,
    ∃ out, writeAll es = some out ∧ gamesFrom gs false (pgnLines out) = some (gs ++ es.map (Entry.wanted (absPos p)))
  | [], _, gs => ⟨[], rfl, by simp [pgnLines, gamesFrom]⟩
  | e :: es, h, gs => by
    obtain ⟨o, h1, h2⟩ := entry_read hg (h e List.mem_cons_self) gs
    obtain ⟨out, h3, h4⟩ := entries_read hg es (fun x hx => h x (List.mem_cons_of_mem _ hx)) (gs ++ [e.wanted (absPos p)])
    refine ⟨o ++ out, ?_, ?_⟩
    · rw [writeAll, h1, h3]; rfl
    · rw [h2, h4]; simp

/-- **C101** (partial: see `Entry.Usual`): whatever games are written to a file one after the other, a reader of PGN finds these games, with their
tags and their moves. -/
theorem C101_file_partial (Z : Zobrist) (p : Position) (hp : Inv Z p) (hc : CheckOK p) (hr : (absPos p).Regular) (es : List Entry)
    (h : ∀ e ∈ es, e.Usual Z p) : ∃ file, writeAll es = some file ∧ readGames file = some (es.map (Entry.wanted (absPos p))) := by
  obtain ⟨out, h1, h2⟩ := entries_read ⟨hp, hc, hr⟩ es h []
  exact ⟨out, h1, by unfold readGames; rw [h2]; rfl⟩

/-! ### Matches -/

/-- The result by the winner. -/
def resultOf : Option Color → Result
  | some c => .wins c
  | none => .draw

/-- A game of a match. -/
structure Played where
  date : Nat × Nat × Nat
  win : Option Color
  mvs : List Mv
  codes : List Move

/-- Game `n` of a match as an entry. -/
def Played.entry (noSwap noMoves : Bool) (engines : List Char × List Char) (n : Nat) (g : Played) : Entry :=
  ⟨if noSwap ∨ n % 2 = 0 then engines else (engines.2, engines.1), some (resultOf g.win), ['?'], ['?'], g.date, n + 1,
    if noMoves then none else some g.mvs, g.codes⟩

def matchEntries (noSwap noMoves : Bool) (engines : List Char × List Char) : Nat → List Played → List Entry
  | _, [] => []
  | n, g :: gs => g.entry noSwap noMoves engines n :: matchEntries noSwap noMoves engines (n + 1) gs

theorem matchFile_entries (noSwap noMoves : Bool) (engines : List Char × List Char) : ∀ (gs : List Played) (n : Nat),
    matchFile noSwap noMoves engines n (gs.map fun g => (g.date, g.win, g.codes)) = writeAll (matchEntries noSwap noMoves engines n gs)
  | [], _ => rfl
  | g :: gs, n => by
    have hw : winCode g.win = (some (resultOf g.win)).map Csa.winOf := by rcases g.win with _ | _ | _ <;> rfl
    have hn : (if Match.firstIsBlack noSwap n = true then engines else (engines.2, engines.1)) = if noSwap ∨ n % 2 = 0 then engines else (engines.2, engines.1) := by
      unfold Match.firstIsBlack; cases noSwap <;> simp
    have he : matchGame noSwap noMoves engines g.date n g.win g.codes = (g.entry noSwap noMoves engines n).write := by
      unfold matchGame Entry.write Played.entry
      rw [hw, hn]
      cases noMoves <;> rfl
    rw [List.map_cons, matchFile, matchEntries, writeAll, he, matchFile_entries noSwap noMoves engines gs (n + 1)]

theorem pgnGame_tags (first second event site : List Char) (date : Nat × Nat × Nat) (round : Nat) (r : Option Result) (texts : Option (List (List Char))) :
    (pgnGame first second event site date round r texts).tag "White" = some first ∧
    (pgnGame first second event site date round r texts).tag "Black" = some second ∧
    (pgnGame first second event site date round r texts).tag "Result" = some (pgnResult r) ∧
    (pgnGame first second event site date round r texts).tag "Round" = some (toString round).toList := ⟨rfl, rfl, rfl, rfl⟩

/-- Who won a game, by its tags. -/
theorem entry_won (noSwap noMoves : Bool) {a b : List Char} (hab : a ≠ b) (n : Nat) (g : Played) (q : Pos) :
    let x := (g.entry noSwap noMoves (a, b) n).wanted q
    x.wonBy a = (decide (g.win = some .black) && Match.had 1 .black (Match.blackEngine noSwap n) ||
      decide (g.win = some .white) && Match.had 1 .white (Match.blackEngine noSwap n)) ∧
    x.wonBy b = (decide (g.win = some .black) && Match.had 2 .black (Match.blackEngine noSwap n) ||
      decide (g.win = some .white) && Match.had 2 .white (Match.blackEngine noSwap n)) ∧
    x.drawn = decide (g.win = none) := by
  obtain ⟨t1, t2, t3, -⟩ := pgnGame_tags (g.entry noSwap noMoves (a, b) n).names.1 (g.entry noSwap noMoves (a, b) n).names.2 ['?'] ['?'] g.date (n + 1)
    (some (resultOf g.win)) ((g.entry noSwap noMoves (a, b) n).mvs.map q.pgnTexts)
  have hx : (g.entry noSwap noMoves (a, b) n).wanted q = pgnGame (g.entry noSwap noMoves (a, b) n).names.1 (g.entry noSwap noMoves (a, b) n).names.2 ['?'] ['?']
    g.date (n + 1) (some (resultOf g.win)) ((g.entry noSwap noMoves (a, b) n).mvs.map q.pgnTexts) := rfl
  dsimp only
  unfold PgnGame.wonBy PgnGame.drawn
  rw [hx, t1, t2, t3]
  have hn : (g.entry noSwap noMoves (a, b) n).names = if noSwap ∨ n % 2 = 0 then (a, b) else (b, a) := rfl
  have hb : Match.blackEngine noSwap n = if noSwap ∨ n % 2 = 0 then 1 else 2 := by unfold Match.blackEngine; cases noSwap <;> simp
  rw [hn, hb]
  have e1 : pgnResult (some (.wins .black)) = "1-0".toList := rfl
  have e2 : pgnResult (some (.wins .white)) = "0-1".toList := rfl
  have e3 : pgnResult (some .draw) = "1/2-1/2".toList := rfl
  have f1 : "1-0".toList ≠ "0-1".toList := by decide
  have f2 : "1-0".toList ≠ "1/2-1/2".toList := by decide
  have f3 : "0-1".toList ≠ "1/2-1/2".toList := by decide
  rcases g.win with _ | _ | _ <;> by_cases hs : noSwap ∨ n % 2 = 0 <;>
    simp only [resultOf, e1, e2, e3, hs, if_true, if_false, Option.some.injEq, f1, f2, f3, f1.symm, f2.symm, f3.symm, hab, hab.symm, and_true, and_false, or_false,
      false_or, or_self, decide_true, decide_false, reduceCtorEq, Match.had, Bool.false_and, Bool.or_false, Bool.false_or, Bool.true_and] <;>
    decide

theorem entries_count (noSwap noMoves : Bool) (engines : List Char × List Char) (q : Pos) (f : PgnGame → Bool) (h : Nat → Option Color → Bool)
    (hf : ∀ n g, f ((Played.entry noSwap noMoves engines n g).wanted q) = h (Match.blackEngine noSwap n) g.win) : ∀ (gs : List Played) (n : Nat),
    ((matchEntries noSwap noMoves engines n gs).map (Entry.wanted q)).countP f = Match.gamesWith noSwap h n (gs.map (·.win))
  | [], _ => rfl
  | g :: gs, n => by
    rw [matchEntries, List.map_cons, List.countP_cons, entries_count noSwap noMoves engines q f h hf gs (n + 1), List.map_cons, Match.gamesWith, hf, Nat.add_comm]

theorem matchEntries_get (noSwap noMoves : Bool) (engines : List Char × List Char) : ∀ (gs : List Played) (k n : Nat),
    (matchEntries noSwap noMoves engines n gs)[k]? = gs[k]?.map (Played.entry noSwap noMoves engines (n + k))
  | [], k, _ => by simp [matchEntries]
  | g :: gs, 0, n => rfl
  | g :: gs, k + 1, n => by
    rw [matchEntries, List.getElem?_cons_succ, List.getElem?_cons_succ, matchEntries_get noSwap noMoves engines gs k (n + 1), show n + 1 + k = n + (k + 1) by omega]

theorem gamesWith_none (noSwap : Bool) : ∀ (ws : List (Option Color)) (n : Nat), Match.gamesWith noSwap (fun _ r => decide (r = none)) n ws = ws.count none
  | [], _ => rfl
  | w :: ws, n => by
    rw [Match.gamesWith, gamesWith_none noSwap ws (n + 1), List.count_cons, Nat.add_comm]
    rcases w with _ | _ <;> simp

/-- **C101** (partial): the file of a match with `pgn` has its games in order: game `n` has the round `n + 1`, the engine that moves first is called
White, and the result and the moves are those of the game. Whoever counts wins and draws by the tags gets the numbers that the match reports. -/
theorem C101_match_partial (Z : Zobrist) (p : Position) (hp : Inv Z p) (hc : CheckOK p) (hr : (absPos p).Regular) (noSwap noMoves : Bool)
    (a b : List Char) (ha : Unquoted a) (hb : Unquoted b) (hab : a ≠ b) (gs : List Played) (hd : ∀ g ∈ gs, Dated g.date)
    (hm : noMoves = false → ∀ g ∈ gs, Codes Z p g.mvs g.codes ∧ (absPos p).Line g.mvs ∧ (absPos p).NoProKnight g.mvs ∧ g.mvs ≠ []) :
    ∃ file games, matchFile noSwap noMoves (a, b) 0 (gs.map fun g => (g.date, g.win, g.codes)) = some file ∧ readGames file = some games ∧
      (∀ n g, gs[n]? = some g → ∃ first second, (first, second) = (if noSwap ∨ n % 2 = 0 then (a, b) else (b, a)) ∧
        games[n]? = some (pgnGame first second ['?'] ['?'] g.date (n + 1) (some (resultOf g.win)) (if noMoves then none else some ((absPos p).pgnTexts g.mvs)))) ∧
      let rep := (Match.Tally.zero.games noSwap 0 (gs.map (·.win))).report
      games.countP (·.wonBy a) = rep.engine1 ∧ games.countP (·.wonBy b) = rep.engine2 ∧ games.countP (·.drawn) = rep.draw ∧ games.length = rep.total := by
  have hu : ∀ e ∈ matchEntries noSwap noMoves (a, b) 0 gs, e.Usual Z p := by
    intro e he
    obtain ⟨k, hk⟩ := List.mem_iff_getElem?.mp he
    rw [matchEntries_get] at hk
    obtain ⟨g, hg, rfl⟩ := Option.map_eq_some_iff.mp hk
    have hgm := List.mem_of_getElem? hg
    have hq : Unquoted ['?'] := by unfold Unquoted; decide
    refine ⟨?_, ?_, hq, hq, hd g hgm, fun mvs hmv => ?_⟩
    · unfold Played.entry; dsimp only; split
      · exact ha
      · exact hb
    · unfold Played.entry; dsimp only; split
      · exact hb
      · exact ha
    · cases hno : noMoves with
      | true => rw [hno] at hmv; cases hmv
      | false =>
        rw [hno] at hmv
        have : g.mvs = mvs := Option.some.inj hmv
        subst this
        exact hm hno g hgm
  obtain ⟨file, h1, h2⟩ := C101_file_partial Z p hp hc hr _ hu
  refine ⟨file, _, by rw [matchFile_entries]; exact h1, h2, fun n g hg => ?_, ?_⟩
  · refine ⟨_, _, rfl, ?_⟩
    rw [List.getElem?_map, matchEntries_get, hg, Nat.zero_add]
    unfold Entry.wanted Played.entry
    cases noMoves <;> rfl
  · obtain ⟨c1, -, -⟩ := Match.C78_counts noSwap (gs.map (·.win))
    dsimp only
    rw [c1]
    refine ⟨?_, ?_, ?_, ?_⟩
    · exact entries_count noSwap noMoves (a, b) (absPos p) _ _ (fun n g => (entry_won noSwap noMoves hab n g _).1) gs 0
    · exact entries_count noSwap noMoves (a, b) (absPos p) _ _ (fun n g => (entry_won noSwap noMoves hab n g _).2.1) gs 0
    · rw [entries_count noSwap noMoves (a, b) (absPos p) _ (fun _ r => decide (r = none)) (fun n g => (entry_won noSwap noMoves hab n g _).2.2) gs 0, gamesWith_none]
    · rw [List.length_map, List.length_map]
      have : ∀ (gs : List Played) (n : Nat), (matchEntries noSwap noMoves (a, b) n gs).length = gs.length := by
        intro gs
        induction gs with
        | nil => intro n; rfl
        | cons g gs ih => intro n; rw [matchEntries, List.length_cons, ih, List.length_cons]
      exact this gs 0

/-! ### Where the file does not tell the match -/

theorem quoted_quote : ∀ {x : List Char}, Unquoted x → ∀ y, quoted (x ++ '"' :: (y ++ ['"', ']'])) = none
  | [], _, y => by
    rw [List.nil_append, quoted]
    intro h
    cases y with
    | nil => cases h
    | cons c y =>
      have := congrArg List.length h
      simp at this
  | c :: x, h, y => by
    have h1 : c ≠ '"' := fun e => h.1 (e ▸ List.mem_cons_self)
    have h2 : c ≠ '\\' := fun e => h.2.1 (e ▸ List.mem_cons_self)
    have ih : quoted (x ++ '"' :: (y ++ ['"', ']'])) = none :=
      quoted_quote ⟨fun h' => h.1 (List.mem_cons_of_mem _ h'), fun h' => h.2.1 (List.mem_cons_of_mem _ h'), fun h' => h.2.2 (List.mem_cons_of_mem _ h')⟩ y
    rw [List.cons_append, quoted, ih]
    · rfl
    · intro h; exact absurd h h1
    · intro h; exact absurd h h1
    · intro _ _ h; exact absurd h h2

theorem quoted_backslash {c : Char} {y : List Char} (hy : Unquoted y) : ∀ {x : List Char}, Unquoted x →
    quoted (x ++ '\\' :: c :: (y ++ ['"', ']'])) = some (x ++ c :: y)
  | [], _ => by rw [List.nil_append, quoted, quoted_plain hy]; rfl
  | d :: x, h => by
    have h1 : d ≠ '"' := fun e => h.1 (e ▸ List.mem_cons_self)
    have h2 : d ≠ '\\' := fun e => h.2.1 (e ▸ List.mem_cons_self)
    have ih := quoted_backslash (c := c) hy (x := x)
      ⟨fun h' => h.1 (List.mem_cons_of_mem _ h'), fun h' => h.2.1 (List.mem_cons_of_mem _ h'), fun h' => h.2.2 (List.mem_cons_of_mem _ h')⟩
    rw [List.cons_append, quoted, ih]
    · rfl
    · intro h; exact absurd h h1
    · intro h; exact absurd h h1
    · intro _ _ h; exact absurd h h2

/-- **C101 fails** for names with a quote or a backslash, which are not escaped: a quote makes the line unreadable, and a backslash is not part of
the name that is read. -/
theorem C101_fails_name (name : String) (hn : ' ' ∉ name.toList) (x y : List Char) (hx : Unquoted x) (hy : Unquoted y) (c : Char) :
    (∃ l, tagLine name (x ++ '"' :: y) = '[' :: (l ++ ['\n']) ∧ tagRest l = none) ∧
    ∃ l, tagLine name (x ++ '\\' :: c :: y) = '[' :: (l ++ ['\n']) ∧ tagRest l = some (name.toList, x ++ c :: y) := by
  refine ⟨⟨name.toList ++ ' ' :: '"' :: (x ++ '"' :: (y ++ ['"', ']'])), by simp [tagLine], ?_⟩,
    ⟨name.toList ++ ' ' :: '"' :: (x ++ '\\' :: c :: (y ++ ['"', ']'])), by simp [tagLine], ?_⟩⟩
  · rw [tagRest_name hn, quoted_quote hx]; rfl
  · rw [tagRest_name hn, quoted_backslash hy hx]; rfl

/-- **C101 fails** for a game without moves: the result is only in the tags. -/
theorem C101_fails_empty (names : List Char × List Char) (hn1 : Unquoted names.1) (hn2 : Unquoted names.2) (d : Nat × Nat × Nat) (hd : Dated d) (win : Option Color) :
    ∃ file g, matchFile true false names 0 [(d, win, [])] = some file ∧ readGames file = some [g] ∧ g.text = [] ∧ g.tag "Result" = some (pgnResult (some (resultOf win))) := by
  have hw : winCode win = (some (resultOf win)).map Csa.winOf := by rcases win with _ | _ | _ <;> rfl
  have hq : Unquoted ['?'] := by unfold Unquoted; decide
  refine ⟨tagPair names (winCode win) ['?'] ['?'] d 1 ++ ['\n', '\n'], pgnGame names.1 names.2 ['?'] ['?'] d 1 (some (resultOf win)) none, ?_, ?_, rfl, rfl⟩
  · simp [matchFile, matchGame, Match.firstIsBlack, movetext, writeMoves]
  · unfold readGames
    rw [hw, games_tags hn1 hn2 hq hq hd]
    rfl

/-! ### Cases -/

theorem Codes.exist {Z : Zobrist} : ∀ (mvs : List Mv) {p : Position}, Csa.Good Z p → (absPos p).Line mvs → ∃ ms, Codes Z p mvs ms
  | [], p, _, _ => ⟨[], .nil p⟩
  | mv :: mvs, p, hg, hl => by
    obtain ⟨p', e, g, a⟩ := hg.doMove hl.1
    obtain ⟨ms, h⟩ := Codes.exist mvs g (by rw [a]; exact hl.2)
    exact ⟨_, .cons e h⟩

/-- Two games; the engines are called alpha and beta, and each wins with Black. -/
example : ∃ file games, readGames file = some games ∧ games.map (·.tag "White") = [some "alpha".toList, some "beta".toList] ∧
    games.map (·.text) = [["1.".toList, "Pc3c4".toList, "Pg7g6".toList, "2.".toList, "Bb2h8+".toList, "1-0".toList], ["1.".toList, "Ph3h4".toList, "1-0".toList]] ∧
    games.countP (·.wonBy "alpha".toList) = 1 ∧ games.countP (·.wonBy "beta".toList) = 1 := by
  have hg := Match.startGame_good
  have hs := Match.startGame_spec.2
  have l1 : startPos.Line [.move 60 59 false, .move 20 21 false, .move 70 10 true] := Match.start_line (by decide +kernel)
  have l2 : startPos.Line [.move 15 14 false] := Match.start_line (by decide +kernel)
  obtain ⟨m1, c1⟩ := Codes.exist _ hg (by rw [hs]; exact l1)
  obtain ⟨m2, c2⟩ := Codes.exist _ hg (by rw [hs]; exact l2)
  have k1 : startPos.NoProKnight [.move 60 59 false, .move 20 21 false, .move 70 10 true] := by
    refine ⟨?_, ?_, ?_, trivial⟩ <;> intro s t pro c e <;> cases e <;> cases c <;> decide +kernel
  have k2 : startPos.NoProKnight [.move 15 14 false] := by
    refine ⟨?_, trivial⟩; intro s t pro c e; cases e; cases c <;> decide +kernel
  obtain ⟨file, games, -, h2, h3, h4⟩ := C101_match_partial mixKeys Match.startGame hg.inv hg.check hg.regular false false "alpha".toList "beta".toList
    (by unfold Unquoted; decide) (by unfold Unquoted; decide) (by decide) [⟨(2026, 11, 16), some .black, [.move 60 59 false, .move 20 21 false, .move 70 10 true], m1⟩, ⟨(2026, 11, 16), some .black, [.move 15 14 false], m2⟩]
    (by
      intro g hg
      simp only [List.mem_cons, List.not_mem_nil, or_false] at hg
      rcases hg with rfl | rfl <;> exact (show Dated (2026, 11, 16) from ⟨by decide, by decide, by decide, by decide⟩))
    (by
      intro _ g hg
      simp only [List.mem_cons, List.not_mem_nil, or_false] at hg
      rcases hg with rfl | rfl
      · exact ⟨c1, by rw [hs]; exact l1, by rw [hs]; exact k1, by simp⟩
      · exact ⟨c2, by rw [hs]; exact l2, by rw [hs]; exact k2, by simp⟩)
  obtain ⟨n1, n2, n3, n4⟩ := h4
  obtain ⟨f0, s0, e0, g0⟩ := h3 0 _ rfl
  obtain ⟨f1, s1, e1, g1⟩ := h3 1 _ rfl
  have hlen : games.length = 2 := n4
  rw [hs] at g0 g1
  match games, hlen with
  | [x, y], _ =>
    simp only [List.getElem?_cons_zero, List.getElem?_cons_succ, Option.some.injEq] at g0 g1
    simp at e0 e1
    subst g0 g1
    obtain ⟨rfl, rfl⟩ := e0
    obtain ⟨rfl, rfl⟩ := e1
    refine ⟨file, _, h2, rfl, by decide +kernel, n1, n2⟩

end Verif.Pgn
