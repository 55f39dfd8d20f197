import Verif.Spec.League
import Verif.Lemmas.Kif

/-!
# Matches and leagues from the command line: C103
-/

namespace Verif.Match
open Spec.League

/-! ### The table -/

/-- Adding up two lines. -/
def lineSum (l m : Line) : Line := ⟨l.won1 + m.won1, l.won2 + m.won2, l.draw + m.draw, l.total + m.total⟩

theorem lineSum_zero (l : Line) : lineSum ⟨0, 0, 0, 0⟩ l = l := by
  cases l; simp [lineSum]

theorem lineSum_assoc (l m n : Line) : lineSum (lineSum l m) n = lineSum l (lineSum m n) := by
  simp [lineSum, Nat.add_assoc]

theorem line_append (g h : List LeagueGame) (a b : Nat) : line (g ++ h) a b = lineSum (line g a b) (line h a b) := by
  simp [line, lineSum]

theorem line_pair (S : Nat → Setting) (o : Option Nat) (w : Option Color × Option Color) {a b : Nat} (hab : a ≠ b) (l : Line) :
    leaguePair S o (a, b) w l = some (pairGames S o a b w, lineSum l (line (pairGames S o a b w) a b)) := by
  obtain ⟨w1, w2⟩ := w
  have h1 : between a b ⟨a, b, sideSettings false 0 (S a) (S b), o, w1⟩ = true := by simp [between]
  have h2 : between a b ⟨b, a, sideSettings false 1 (S a) (S b), o, w2⟩ = true := by simp [between]
  have hf : (pairGames S o a b (w1, w2)).filter (between a b) = pairGames S o a b (w1, w2) := by
    unfold pairGames
    rw [List.filter_cons_of_pos h1, List.filter_cons_of_pos h2, List.filter_nil]
  unfold leaguePair mainReport line
  rw [hf, if_neg (by simp)]
  have hba : b ≠ a := hab.symm
  rcases w1 with _ | w1 <;> rcases w2 with _ | w2
  · simp [pairGames, winner, Tally.games, Tally.add, Tally.zero, Tally.report, inc, firstIsBlack, Line.add, lineSum]
  · cases w2 <;>
      simp [pairGames, winner, Tally.games, Tally.add, Tally.zero, Tally.report, inc, firstIsBlack, Line.add, lineSum, hab, hba]
  · cases w1 <;>
      simp [pairGames, winner, Tally.games, Tally.add, Tally.zero, Tally.report, inc, firstIsBlack, Line.add, lineSum, hab, hba]
  · cases w1 <;> cases w2 <;>
      simp [pairGames, winner, Tally.games, Tally.add, Tally.zero, Tally.report, inc, firstIsBlack, Line.add, lineSum, hab, hba]

/-- The games of a round. -/
def roundGames (S : Nat → Setting) (o : Option Nat) (w : Nat → Option Color × Option Color) : List LeagueGame :=
  pairGames S o 0 1 (w 0) ++ (pairGames S o 0 2 (w 1) ++ pairGames S o 1 2 (w 2))

theorem round_lines (S : Nat → Setting) (o : Option Nat) (w : Nat → Option Color × Option Color) :
    line (roundGames S o w) 0 1 = line (pairGames S o 0 1 (w 0)) 0 1 ∧ line (roundGames S o w) 0 2 = line (pairGames S o 0 2 (w 1)) 0 2 ∧
    line (roundGames S o w) 1 2 = line (pairGames S o 1 2 (w 2)) 1 2 := by
  refine ⟨?_, ?_, ?_⟩ <;> simp [line, roundGames, pairGames, between]

theorem pairs_round (S : Nat → Setting) (o : Option Nat) (w : Nat → Option Color × Option Color) (x y z : Line) :
    leaguePairs S o w 0 combinations [x, y, z] = some (roundGames S o w,
      [lineSum x (line (roundGames S o w) 0 1), lineSum y (line (roundGames S o w) 0 2), lineSum z (line (roundGames S o w) 1 2)]) := by
  obtain ⟨e1, e2, e3⟩ := round_lines S o w
  rw [e1, e2, e3]
  simp only [combinations, leaguePairs, line_pair S o (w 0) (show 0 ≠ 1 by decide), line_pair S o (w (0 + 1)) (show 0 ≠ 2 by decide),
    line_pair S o (w (0 + 1 + 1)) (show 1 ≠ 2 by decide), Option.bind_some, Option.map_some, roundGames, List.append_nil, Nat.zero_add,
    Nat.reduceAdd]

/-- The opening of round `r`. -/
def openingOf (openings : Option (List Nat)) (r : Nat) : Option Nat := openings.bind fun l => l[r % l.length]?

theorem roundOpening_eq {openings : Option (List Nat)} (h : openings ≠ some []) (r : Nat) :
    roundOpening openings (2 * r) = some (openingOf openings r) := by
  unfold roundOpening openingOf
  rcases openings with _ | l
  · rfl
  · have hl : 0 < l.length := by
      rcases l with _ | ⟨x, l⟩
      · exact absurd rfl h
      · simp
    have hlt : r % l.length < l.length := Nat.mod_lt _ hl
    simp only [Option.bind_some, Nat.mul_div_cancel_left r (show 0 < 2 by decide), List.getElem?_eq_getElem hlt, Option.map_some]

/-- The games of the rounds from `r` on, `k` of them. -/
def gamesFromRound (S : Nat → Setting) (openings : Option (List Nat)) (w : Nat → Nat → Option Color × Option Color) (r k : Nat) : List LeagueGame :=
  (List.range' r k).flatMap fun r => roundGames S (openingOf openings r) (w (2 * r))

theorem league_rounds (S : Nat → Setting) {openings : Option (List Nat)} (h : openings ≠ some []) (w : Nat → Nat → Option Color × Option Color)
    (games : Nat) : ∀ (fuel r k : Nat), k = (games + 1) / 2 - r → k ≤ fuel → ∀ x y z,
    leagueRounds S openings w games fuel (2 * r) [x, y, z] = some (gamesFromRound S openings w r k,
      [lineSum x (line (gamesFromRound S openings w r k) 0 1), lineSum y (line (gamesFromRound S openings w r k) 0 2),
       lineSum z (line (gamesFromRound S openings w r k) 1 2)], (List.range' r k).map fun r => 2 * r + 2) := by
  have hz : ∀ (x : Line) a b, lineSum x (line [] a b) = x := by
    intro x a b; cases x; simp [line, lineSum]
  intro fuel
  induction fuel with
  | zero =>
    intro r k hk hf x y z
    have : k = 0 := by omega
    subst this
    simp [leagueRounds, gamesFromRound, hz]
  | succ fuel ih =>
    intro r k hk hf x y z
    unfold leagueRounds
    by_cases hn : 2 * r < games
    · rw [if_pos hn, roundOpening_eq h, Option.bind_some, pairs_round, Option.bind_some]
      obtain ⟨k', rfl⟩ : ∃ k', k = k' + 1 := ⟨k - 1, by omega⟩
      rw [show 2 * r + 2 = 2 * (r + 1) by omega, ih (r + 1) k' (by omega) (by omega)]
      simp only [Option.map_some, gamesFromRound, List.range'_succ, List.flatMap_cons, line_append, lineSum_assoc, List.map_cons]
      rfl
    · rw [if_neg hn]
      have : k = 0 := by omega
      subst this
      simp [gamesFromRound, hz]

theorem mem_roundGames {S : Nat → Setting} {o : Option Nat} {w : Nat → Option Color × Option Color} {g : LeagueGame} (h : g ∈ roundGames S o w) :
    g.black < 3 ∧ g.white < 3 ∧ g.black ≠ g.white ∧ g.settings = (S g.black, S g.white) := by
  simp only [roundGames, pairGames, List.mem_append, List.mem_cons, List.not_mem_nil, or_false] at h
  rcases h with (rfl | rfl) | (rfl | rfl) | (rfl | rfl) <;> simp [sideSettings, firstIsBlack]

theorem round_openings (S : Nat → Setting) (o : Option Nat) (w : Nat → Option Color × Option Color) {a b : Nat} (ha : a < 3) (hb : b < 3) (hab : a ≠ b) :
    openingsOf (roundGames S o w) a b = [o] := by
  have h : (a = 0 ∧ b = 1) ∨ (a = 0 ∧ b = 2) ∨ (a = 1 ∧ b = 0) ∨ (a = 1 ∧ b = 2) ∨ (a = 2 ∧ b = 0) ∨ (a = 2 ∧ b = 1) := by omega
  rcases h with ⟨rfl, rfl⟩ | ⟨rfl, rfl⟩ | ⟨rfl, rfl⟩ | ⟨rfl, rfl⟩ | ⟨rfl, rfl⟩ | ⟨rfl, rfl⟩ <;>
    simp [openingsOf, roundGames, pairGames]

theorem round_total (S : Nat → Setting) (o : Option Nat) (w : Nat → Option Color × Option Color) {a b : Nat} (ha : a < 3) (hb : b < 3) (hab : a ≠ b) :
    ((roundGames S o w).filter (between a b)).length = 2 := by
  have h : (a = 0 ∧ b = 1) ∨ (a = 0 ∧ b = 2) ∨ (a = 1 ∧ b = 0) ∨ (a = 1 ∧ b = 2) ∨ (a = 2 ∧ b = 0) ∨ (a = 2 ∧ b = 1) := by omega
  rcases h with ⟨rfl, rfl⟩ | ⟨rfl, rfl⟩ | ⟨rfl, rfl⟩ | ⟨rfl, rfl⟩ | ⟨rfl, rfl⟩ | ⟨rfl, rfl⟩ <;>
    simp [roundGames, pairGames, between]

/-! ### C103 -/

/-- **C103**, the league: whatever the results, the table at the end is the table of the games that were played. Every engine plays every
other one, with Black and with White, as often and from the same openings in the same order as any other two: the openings of the list one
after the other, from the beginning again when they are used up. In every game each side has the settings of its own engine. -/
theorem C103_league (S : Nat → Setting) (openings : Option (List Nat)) (h : openings ≠ some []) (w : Nat → Nat → Option Color × Option Color)
    (games : Nat) :
    ∃ gs printed, league S openings w games = some (gs, [line gs 0 1, line gs 0 2, line gs 1 2], printed) ∧
      printed.length = (games + 1) / 2 ∧
      (∀ g ∈ gs, g.black < 3 ∧ g.white < 3 ∧ g.black ≠ g.white ∧ g.settings = (S g.black, S g.white)) ∧
      ∀ a b, a < 3 → b < 3 → a ≠ b → (line gs a b).total = 2 * ((games + 1) / 2) ∧
        openingsOf gs a b = (List.range ((games + 1) / 2)).map fun r => openings.bind fun l => l[r % l.length]? := by
  have key := league_rounds S h w games games 0 ((games + 1) / 2) (by omega) (by omega) ⟨0, 0, 0, 0⟩ ⟨0, 0, 0, 0⟩ ⟨0, 0, 0, 0⟩
  simp only [lineSum_zero] at key
  refine ⟨_, _, key, by simp, ?_, ?_⟩
  · intro g hg
    obtain ⟨r, -, hg⟩ := List.mem_flatMap.mp hg
    exact mem_roundGames hg
  · intro a b ha hb hab
    have ind : ∀ k r, ((gamesFromRound S openings w r k).filter (between a b)).length = 2 * k ∧
        openingsOf (gamesFromRound S openings w r k) a b = (List.range' r k).map (openingOf openings) := by
      intro k
      induction k with
      | zero => intro r; exact ⟨rfl, rfl⟩
      | succ k ih =>
        intro r
        obtain ⟨i1, i2⟩ := ih (r + 1)
        have e : gamesFromRound S openings w r (k + 1) = roundGames S (openingOf openings r) (w (2 * r)) ++ gamesFromRound S openings w (r + 1) k := by
          simp only [gamesFromRound, List.range'_succ, List.flatMap_cons]
        constructor
        · rw [e, List.filter_append, List.length_append, i1, round_total S _ _ ha hb hab]; omega
        · have ea : ∀ g h, openingsOf (g ++ h) a b = openingsOf g a b ++ openingsOf h a b := by intro g h; simp [openingsOf]
          rw [e, ea, i2, round_openings S _ _ ha hb hab, List.range'_succ]; rfl
    obtain ⟨i1, i2⟩ := ind ((games + 1) / 2) 0
    refine ⟨i1, ?_⟩
    rw [i2, List.range_eq_range']
    rfl

/-- A league of four games per pair with two openings. -/
example : (some [3, 1] : Option (List Nat)) ≠ some [] ∧
    (league (fun _ => ⟨[], some 1000, none, none⟩) (some [3, 1]) (fun n i => if n = 0 then (some .black, none) else (some .white, if i = 2 then none else some .white)) 4).map
      (fun x => (x.1.map fun g => (g.black, g.white, g.opening), x.2)) =
    some ([(0, 1, some 3), (1, 0, some 3), (0, 2, some 3), (2, 0, some 3), (1, 2, some 3), (2, 1, some 3),
      (0, 1, some 1), (1, 0, some 1), (0, 2, some 1), (2, 0, some 1), (1, 2, some 1), (2, 1, some 1)],
      [⟨2, 1, 1, 4⟩, ⟨2, 1, 1, 4⟩, ⟨1, 1, 2, 4⟩], [2, 4]) := by
  refine ⟨by decide, by decide +kernel⟩

/-- **C103**: with an even number of games each pair plays the number that was asked for, and the last line says so.

Missing: `C103_fails_odd`. -/
theorem C103_number_partial (S : Nat → Setting) (openings : Option (List Nat)) (h : openings ≠ some []) (w : Nat → Nat → Option Color × Option Color)
    (games : Nat) (he : games % 2 = 0) (gs : List LeagueGame) (t : List Line) (printed : List Nat)
    (hl : league S openings w games = some (gs, t, printed)) :
    (∀ a b, a < 3 → b < 3 → a ≠ b → (line gs a b).total = games) ∧ (0 < games → printed.getLast? = some games) := by
  have key := league_rounds S h w games games 0 ((games + 1) / 2) (by omega) (by omega) ⟨0, 0, 0, 0⟩ ⟨0, 0, 0, 0⟩ ⟨0, 0, 0, 0⟩
  obtain ⟨gs', p', e, -, -, h4⟩ := C103_league S openings h w games
  rw [hl] at e; cases e
  refine ⟨fun a b ha hb hab => ?_, fun hpos => ?_⟩
  · rw [(h4 a b ha hb hab).1]; omega
  · have e2 : league S openings w games = _ := key
    rw [hl] at e2
    have e3 := congrArg (fun x => x.2.2) (Option.some.inj e2)
    simp only at e3
    obtain ⟨k, hk⟩ : ∃ k, (games + 1) / 2 = k + 1 := ⟨(games + 1) / 2 - 1, by omega⟩
    rw [e3, hk, List.range'_1_concat, List.map_append, List.map_singleton, List.getLast?_concat]
    congr 1
    omega

/-- **C103 fails**: with an odd number of games each pair plays one more, and the last line says that one game more than all is finished. -/
theorem C103_fails_odd (S : Nat → Setting) (openings : Option (List Nat)) (h : openings ≠ some []) (w : Nat → Nat → Option Color × Option Color)
    (games : Nat) (ho : games % 2 = 1) (gs : List LeagueGame) (t : List Line) (printed : List Nat)
    (hl : league S openings w games = some (gs, t, printed)) :
    (∀ a b, a < 3 → b < 3 → a ≠ b → (line gs a b).total = games + 1) ∧ printed.getLast? = some (games + 1) := by
  have key := league_rounds S h w games games 0 ((games + 1) / 2) (by omega) (by omega) ⟨0, 0, 0, 0⟩ ⟨0, 0, 0, 0⟩ ⟨0, 0, 0, 0⟩
  obtain ⟨gs', p', e, -, -, h4⟩ := C103_league S openings h w games
  rw [hl] at e; cases e
  refine ⟨fun a b ha hb hab => ?_, ?_⟩
  · rw [(h4 a b ha hb hab).1]; omega
  · have e2 : league S openings w games = _ := key
    rw [hl] at e2
    have e3 := congrArg (fun x => x.2.2) (Option.some.inj e2)
    simp only at e3
    obtain ⟨k, hk⟩ : ∃ k, (games + 1) / 2 = k + 1 := ⟨(games + 1) / 2 - 1, by omega⟩
    rw [e3, hk, List.range'_1_concat, List.map_append, List.map_singleton, List.getLast?_concat]
    congr 1
    omega

/-- **C103**, a match of two: each engine has its own settings in every game, whichever side it has, and without `--no-swap` the sides change from
game to game. -/
theorem C103_settings (noSwap : Bool) (n : Nat) (s1 s2 : Setting) :
    sideSettings noSwap n s1 s2 = (if noSwap = true ∨ n % 2 = 0 then (s1, s2) else (s2, s1)) := by
  unfold sideSettings firstIsBlack
  cases noSwap
  · rcases Nat.mod_two_eq_zero_or_one n with h | h <;> simp [h]
  · simp

/-- **C103**, values of `--byoyomi`, `--time` and `--inc`: one value is for all engines, as many values as engines are for each its own.

Missing: `C103_fails_values`. -/
theorem C103_values_partial (x y z : Int) : forTwo (some [x]) = some (some x, some x) ∧ forTwo (some [x, y]) = some (some x, some y) ∧
    forThree (some [x]) = (some x, some x, some x) ∧ forThree (some [x, y, z]) = (some x, some y, some z) ∧
    forTwo none = some (none, none) ∧ forThree none = (none, none, none) :=
  ⟨rfl, rfl, rfl, rfl, rfl, rfl⟩

/-- **C103 fails**: in a league the second of two values is passed over, and the first goes for all engines; a match of two raises if there are
three values or more. -/
theorem C103_fails_values (x y z : Int) (more : List Int) : forThree (some [x, y]) = (some x, some x, some x) ∧
    forTwo (some (x :: y :: z :: more)) = none := ⟨rfl, rfl⟩

/-- **C103 fails**: a match of no games raises, because the counts that are returned have not been made. -/
theorem C103_fails_zero (noSwap : Bool) : mainReport noSwap [] = none := rfl

/-! ### Options -/

theorem keyValue_text {k : List Char} (h : ':' ∉ k) (v : List Char) : keyValue (k ++ ':' :: v) = some (k, v) := by
  induction k with
  | nil => rfl
  | cons c k ih =>
    have hc : c ≠ ':' := fun e => h (by rw [e]; exact List.mem_cons_self)
    rw [List.cons_append, keyValue, if_neg hc, ih fun hx => h (List.mem_cons_of_mem _ hx)]
    rfl

theorem keyValue_none {k : List Char} (h : ':' ∉ k) : keyValue k = none := by
  induction k with
  | nil => rfl
  | cons c k ih =>
    have hc : c ≠ ':' := fun e => h (by rw [e]; exact List.mem_cons_self)
    rw [keyValue, if_neg hc, ih fun hx => h (List.mem_cons_of_mem _ hx)]
    rfl

theorem optionText_split : ∀ (x : List Char × List Char) (xs : List (List Char × List Char)), (∀ y ∈ x :: xs, ',' ∉ y.1 ∧ ',' ∉ y.2) →
    Kif.splitAt ',' (optionText (x :: xs)) = (x :: xs).map fun y => y.1 ++ ':' :: y.2
  | x, [], h => by
    obtain ⟨h1, h2⟩ := h x (by simp)
    rw [optionText, Kif.splitAt_none]
    · rfl
    · simp only [List.mem_append, List.mem_cons, not_or]
      exact ⟨h1, by decide, h2⟩
  | x, y :: ys, h => by
    obtain ⟨h1, h2⟩ := h x (by simp)
    have e : optionText (x :: y :: ys) = (x.1 ++ ':' :: x.2) ++ ',' :: optionText (y :: ys) := by simp [optionText]
    rw [e, Kif.splitAt_cons, optionText_split y ys fun z hz => h z (List.mem_cons_of_mem _ hz)]
    · rfl
    · simp only [List.mem_append, List.mem_cons, not_or]
      exact ⟨h1, by decide, h2⟩

theorem putAll_text : ∀ (xs d : List (List Char × List Char)), (∀ y ∈ xs, ':' ∉ y.1) → ((d ++ xs).map (·.1)).Nodup →
    putAll d (xs.map fun y => y.1 ++ ':' :: y.2) = some (d ++ xs)
  | [], d, _, _ => by simp [putAll]
  | x :: xs, d, h, hn => by
    rw [List.map_cons, putAll, keyValue_text (h x (by simp)), Option.bind_some]
    have hp : put d x.1 x.2 = d ++ [x] := by
      unfold put
      rw [if_neg]
      intro ha
      obtain ⟨y, hy, e⟩ := List.any_eq_true.mp ha
      rw [List.map_append, List.nodup_append] at hn
      exact hn.2.2 y.1 (List.mem_map_of_mem hy) x.1 (by simp) (of_decide_eq_true e)
    rw [hp, putAll_text xs (d ++ [x]) (fun y hy => h y (List.mem_cons_of_mem _ hy)) (by rw [List.append_assoc]; exact hn)]
    simp

/-- **C103**, options: written as `name:value` with commas between them, options of different names are read as they were meant, in this order;
values may have colons.

Missing: `C103_fails_options`. -/
theorem C103_options_partial (d : List (List Char × List Char)) (h : ∀ y ∈ d, ':' ∉ y.1 ∧ ',' ∉ y.1 ∧ ',' ∉ y.2) (hn : (d.map (·.1)).Nodup) :
    readOptions (optionText d) = some d := by
  cases d with
  | nil => rfl
  | cons x xs =>
    unfold readOptions
    rw [optionText_split x xs fun y hy => (h y hy).2, if_neg]
    · rw [putAll_text (x :: xs) [] (fun y hy => (h y hy).1) hn]; rfl
    · intro e
      simp only [List.map_cons, List.cons.injEq] at e
      simp at e

/-- Two options, the second with a colon in its value. -/
example : let d := [("USI_Hash".toList, "64".toList), ("EvalDir".toList, "c:\\eval".toList)]
    (∀ y ∈ d, ':' ∉ y.1 ∧ ',' ∉ y.1 ∧ ',' ∉ y.2) ∧ (d.map (·.1)).Nodup ∧ optionText d = "USI_Hash:64,EvalDir:c:\\eval".toList := by decide

/-- The first value of a name. -/
def valueOf (d : List (List Char × List Char)) (k : List Char) : Option (List Char) := (d.find? fun x => decide (x.1 = k)).map (·.2)

theorem valueOf_cons (x : List Char × List Char) (d : List (List Char × List Char)) (k : List Char) :
    valueOf (x :: d) k = if x.1 = k then some x.2 else valueOf d k := by
  unfold valueOf
  rw [List.find?_cons]
  by_cases e : x.1 = k <;> simp [e]

theorem valueOf_append (d d' : List (List Char × List Char)) (k : List Char) : valueOf (d ++ d') k = (valueOf d k).or (valueOf d' k) := by
  induction d with
  | nil => rfl
  | cons x d ih =>
    rw [List.cons_append, valueOf_cons, valueOf_cons, ih]
    split <;> rfl

theorem put_value (d : List (List Char × List Char)) (k v k' : List Char) : valueOf (put d k v) k' = if k = k' then some v else valueOf d k' := by
  unfold put
  split
  · rename_i h
    induction d with
    | nil => cases h
    | cons x d ih =>
      rw [List.map_cons, valueOf_cons, valueOf_cons]
      by_cases e : x.1 = k
      · rw [if_pos e]
        by_cases e' : k = k'
        · rw [if_pos e', if_pos e']
        · rw [if_neg e', if_neg e', if_neg (by rw [e]; exact e')]
          have : ∀ l : List (List Char × List Char), valueOf (l.map fun x => if x.1 = k then (k, v) else x) k' = valueOf l k' := by
            intro l
            induction l with
            | nil => rfl
            | cons y l ihl =>
              rw [List.map_cons, valueOf_cons, valueOf_cons, ihl]
              by_cases ey : y.1 = k
              · rw [if_pos ey, if_neg e', if_neg (by rw [ey]; exact e')]
              · rw [if_neg ey]
          exact this d
      · rw [if_neg e]
        have h' : d.any (fun x => decide (x.1 = k)) = true := by simpa [e] using h
        rw [ih h']
        by_cases e' : k = k'
        · rw [if_pos e', if_pos e', if_neg (by rw [← e']; exact e)]
        · rw [if_neg e', if_neg e']
  · rename_i h
    rw [valueOf_append, valueOf_cons]
    by_cases e' : k = k'
    · subst e'
      have : valueOf d k = none := by
        unfold valueOf
        rw [List.find?_eq_none.mpr]
        · rfl
        · intro x hx hk
          exact h (List.any_eq_true.mpr ⟨x, hx, hk⟩)
      rw [this]; simp
    · rw [if_neg e', if_neg e']
      cases valueOf d k' <;> rfl

theorem put_names (d : List (List Char × List Char)) (k v : List Char) (h : (d.map (·.1)).Nodup) : ((put d k v).map (·.1)).Nodup := by
  unfold put
  split
  · have : (d.map fun x => if x.1 = k then (k, v) else x).map (·.1) = d.map (·.1) := by
      rw [List.map_map]
      refine List.map_congr_left fun x _ => ?_
      show (if x.1 = k then (k, v) else x).1 = x.1
      split
      · rename_i e; exact e.symm
      · rfl
    rw [this]; exact h
  · rename_i hk
    rw [List.map_append, List.nodup_append]
    refine ⟨h, by simp, ?_⟩
    intro a ha b hb e
    obtain ⟨x, hx, rfl⟩ := List.mem_map.mp ha
    simp only [List.map_cons, List.map_nil, List.mem_singleton] at hb
    exact hk (List.any_eq_true.mpr ⟨x, hx, by rw [decide_eq_true_eq, e, hb]⟩)

theorem putAll_last : ∀ (xs d : List (List Char × List Char)), (∀ y ∈ xs, ':' ∉ y.1) → (d.map (·.1)).Nodup →
    ∃ r, putAll d (xs.map fun y => y.1 ++ ':' :: y.2) = some r ∧ (r.map (·.1)).Nodup ∧ ∀ k, valueOf r k = (valueOf xs.reverse k).or (valueOf d k)
  | [], d, _, hn => ⟨d, rfl, hn, fun _ => rfl⟩
  | x :: xs, d, h, hn => by
    obtain ⟨r, h1, h2, h3⟩ := putAll_last xs (put d x.1 x.2) (fun y hy => h y (List.mem_cons_of_mem _ hy)) (put_names d x.1 x.2 hn)
    refine ⟨r, ?_, h2, fun k => ?_⟩
    · rw [List.map_cons, putAll, keyValue_text (h x (by simp)), Option.bind_some, h1]
    · rw [h3, put_value, List.reverse_cons, valueOf_append, valueOf_cons]
      by_cases e : x.1 = k
      · rw [if_pos e, if_pos e]; cases valueOf xs.reverse k <;> rfl
      · rw [if_neg e, if_neg e]; cases valueOf xs.reverse k <;> rfl

/-- **C103**, options: if a name is given more than once, the value given last counts, and it is handed to the engine once. -/
theorem C103_options_last (d : List (List Char × List Char)) (h : ∀ y ∈ d, ':' ∉ y.1 ∧ ',' ∉ y.1 ∧ ',' ∉ y.2) :
    ∃ r, readOptions (optionText d) = some r ∧ (r.map (·.1)).Nodup ∧
      ∀ k, (r.find? fun x => decide (x.1 = k)).map (·.2) = (d.reverse.find? fun x => decide (x.1 = k)).map (·.2) := by
  cases d with
  | nil => exact ⟨[], rfl, List.nodup_nil, fun _ => rfl⟩
  | cons x xs =>
    obtain ⟨r, h1, h2, h3⟩ := putAll_last (x :: xs) [] (fun y hy => (h y hy).1) List.nodup_nil
    refine ⟨r, ?_, h2, fun k => ?_⟩
    · unfold readOptions
      rw [optionText_split x xs fun y hy => (h y hy).2, if_neg]
      · exact h1
      · intro e
        simp only [List.map_cons, List.cons.injEq] at e
        simp at e
    · have := h3 k
      rw [show valueOf [] k = none from rfl, Option.or_none] at this
      exact this

/-- The hash is given twice. -/
example : readOptions "USI_Hash:64,Threads:2,USI_Hash:128".toList = some [("USI_Hash".toList, "128".toList), ("Threads".toList, "2".toList)] := by decide

/-- **C103 fails**: a value with a comma cannot be given. What follows the comma is taken for the next option, and without a colon
there it raises. -/
theorem C103_fails_options (k v1 v2 : List Char) (hk : ':' ∉ k ∧ ',' ∉ k) (h1 : ',' ∉ v1) (h2 : ',' ∉ v2 ∧ ':' ∉ v2) :
    readOptions (optionText [(k, v1 ++ ',' :: v2)]) = none := by
  have hs : Kif.splitAt ',' (optionText [(k, v1 ++ ',' :: v2)]) = [k ++ ':' :: v1, v2] := by
    have e : optionText [(k, v1 ++ ',' :: v2)] = (k ++ ':' :: v1) ++ ',' :: v2 := by simp [optionText]
    rw [e, Kif.splitAt_cons, Kif.splitAt_none _ _ h2.1]
    simp only [List.mem_append, List.mem_cons, not_or]
    exact ⟨hk.2, by decide, h1⟩
  unfold readOptions
  rw [hs, if_neg (by simp)]
  simp only [putAll, keyValue_text hk.1, keyValue_none h2.2, Option.bind_some, Option.bind_none]

/-- A list of numbers as a value. -/
example : (':' ∉ "Threads".toList ∧ ',' ∉ "Threads".toList) ∧ ',' ∉ "1".toList ∧ ',' ∉ "2".toList ∧ ':' ∉ "2".toList := by decide

end Verif.Match
