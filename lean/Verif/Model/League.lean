import Verif.Model.Match
import Verif.Model.Kif

/-!
# Matches and leagues from the command line (cshogi/cli.py)

Which engine plays which with what settings, and the table of a league. The outcomes of the games are inputs. `none` is an exception.
-/

namespace Verif.Match

/-- The settings of an engine: its options, its byoyomi, time and increment. -/
structure Setting where
  options : List (List Char × List Char)
  byoyomi : Option Int
  time : Option Int
  inc : Option Int
deriving DecidableEq

/-! ### Arguments -/

/-- `d[k] = v`: a key that is there keeps its place. -/
def put (d : List (List Char × List Char)) (k v : List Char) : List (List Char × List Char) :=
  if d.any (fun x => decide (x.1 = k)) then d.map (fun x => if x.1 = k then (k, v) else x) else d ++ [(k, v)]

/-- `kv_str.split(':', 1)` (cli.py:612-614). `none`: there is no colon. -/
def keyValue : List Char → Option (List Char × List Char)
  | [] => none
  | c :: cs => if c = ':' then some ([], cs) else (keyValue cs).map fun x => (c :: x.1, x.2)

/-- The loop of cli.py:611-615. -/
def putAll : List (List Char × List Char) → List (List Char) → Option (List (List Char × List Char))
  | d, [] => some d
  | d, s :: ss => (keyValue s).bind fun x => putAll (put d x.1 x.2) ss

/-- The options of an engine from the text of `--options1` (cli.py:607-615). -/
def readOptions (text : List Char) : Option (List (List Char × List Char)) :=
  if Kif.splitAt ',' text = [[]] then some [] else putAll [] (Kif.splitAt ',' text)

/-- The values of `--byoyomi`, `--time` or `--inc` for the two engines of a match (cli.py:110-134): `none` is `None`, a list has at
least one element (`nargs='+'`). The outer `none`: unpacking raises. -/
def forTwo : Option (List Int) → Option (Option Int × Option Int)
  | none => some (none, none)
  | some [] => none
  | some [x] => some (some x, some x)
  | some [x, y] => some (some x, some y)
  | some _ => none

/-- The same for the three engines of a league (cli.py:633-653). -/
def forThree : Option (List Int) → Option Int × Option Int × Option Int
  | none => (none, none, none)
  | some [] => (none, none, none)
  | some [x, y, z] => (some x, some y, some z)
  | some (x :: _) => (some x, some x, some x)

/-! ### A match -/

/-- The settings of Black and White in game `n` (cli.py:198-215), given those of engine 1 and engine 2. -/
def sideSettings (noSwap : Bool) (n : Nat) (s1 s2 : Setting) : Setting × Setting :=
  if firstIsBlack noSwap n then
    (⟨s1.options, s1.byoyomi, s1.time, s1.inc⟩, ⟨s2.options, s2.byoyomi, s2.time, s2.inc⟩)
  else (⟨s2.options, s2.byoyomi, s2.time, s2.inc⟩, ⟨s1.options, s1.byoyomi, s1.time, s1.inc⟩)

/-- What `main` returns (cli.py:559-568) after games with these results. Without a game the sums have not been assigned. -/
def mainReport (noSwap : Bool) (ws : List (Option Color)) : Option Report :=
  if ws = [] then none else some (Tally.zero.games noSwap 0 ws).report

/-! ### A league -/

/-- A game of a league: the numbers of the engines that have Black and White, their settings, the index of the opening, the result. -/
structure LeagueGame where
  black : Nat
  white : Nat
  settings : Setting × Setting
  opening : Option Nat
  win : Option Color

/-- `combinations` (cli.py:654). -/
def combinations : List (Nat × Nat) := [(0, 1), (0, 2), (1, 2)]

/-- The opening of a round (cli.py:674-677): `openings` is `opening_index_list`, `none` without the argument. The outer `none`: the
list is empty. -/
def roundOpening (openings : Option (List Nat)) (n : Nat) : Option (Option Nat) :=
  match openings with
  | none => some none
  | some l => (l[n / 2 % l.length]?).map some

/-- The two games of a pair (`main` with `games = 2` and `no_swap = False`, cli.py:680-690, 196-215). -/
def pairGames (S : Nat → Setting) (o : Option Nat) (a b : Nat) (w : Option Color × Option Color) : List LeagueGame :=
  [⟨a, b, sideSettings false 0 (S a) (S b), o, w.1⟩, ⟨b, a, sideSettings false 1 (S a) (S b), o, w.2⟩]

/-- A line of the table (cli.py:655-658). -/
structure Line where
  won1 : Nat
  won2 : Nat
  draw : Nat
  total : Nat
deriving DecidableEq

/-- `+=` (cli.py:693-696). -/
def Line.add (l : Line) (r : Report) : Line := ⟨l.won1 + r.engine1, l.won2 + r.engine2, l.draw + r.draw, l.total + r.total⟩

/-- One pair of a round (cli.py:678-696): its games and its line of the table. -/
def leaguePair (S : Nat → Setting) (o : Option Nat) (ab : Nat × Nat) (w : Option Color × Option Color) (l : Line) : Option (List LeagueGame × Line) :=
  (mainReport false [w.1, w.2]).map fun r => (pairGames S o ab.1 ab.2 w, l.add r)

/-- The pairs of a round, one after the other. -/
def leaguePairs (S : Nat → Setting) (o : Option Nat) (w : Nat → Option Color × Option Color) :
    Nat → List (Nat × Nat) → List Line → Option (List LeagueGame × List Line)
  | i, ab :: abs, l :: ls => (leaguePair S o ab (w i) l).bind fun x => (leaguePairs S o w (i + 1) abs ls).map fun y => (x.1 ++ y.1, x.2 :: y.2)
  | _, _, ls => some ([], ls)

/-- The rounds of a league (cli.py:673-704) from `n` on, at most `fuel` of them: the games that are played, the table at the end, and what
is printed after each round as the number of games that are finished. `w n i` are the results of pair `i` in the round with this `n`. -/
def leagueRounds (S : Nat → Setting) (openings : Option (List Nat)) (w : Nat → Nat → Option Color × Option Color) (games : Nat) :
    Nat → Nat → List Line → Option (List LeagueGame × List Line × List Nat)
  | 0, _, t => some ([], t, [])
  | fuel + 1, n, t =>
    if n < games then
      (roundOpening openings n).bind fun o => (leaguePairs S o (w n) 0 combinations t).bind fun x =>
        (leagueRounds S openings w games fuel (n + 2) x.2).map fun y => (x.1 ++ y.1, y.2.1, (n + 2) :: y.2.2)
    else some ([], t, [])

/-- A league (cli.py:630-704). `range(0, games, 2)` has no more than `games` elements. -/
def league (S : Nat → Setting) (openings : Option (List Nat)) (w : Nat → Nat → Option Color × Option Color) (games : Nat) :
    Option (List LeagueGame × List Line × List Nat) :=
  leagueRounds S openings w games games 0 [⟨0, 0, 0, 0⟩, ⟨0, 0, 0, 0⟩, ⟨0, 0, 0, 0⟩]

end Verif.Match
