import Verif.Model.League

/-!
# What a league has to be

A table is made by looking at the games alone.
-/

namespace Verif.Spec.League
open Verif.Match

/-- The engine that won. -/
def winner (g : LeagueGame) : Option Nat := g.win.map fun c => match c with
  | .black => g.black
  | .white => g.white

/-- A game between these two. -/
def between (a b : Nat) (g : LeagueGame) : Bool := (g.black == a && g.white == b) || (g.black == b && g.white == a)

/-- The line of the table for these two. -/
def line (gs : List LeagueGame) (a b : Nat) : Line :=
  ⟨(gs.filter (between a b)).countP (fun g => winner g == some a), (gs.filter (between a b)).countP (fun g => winner g == some b),
   (gs.filter (between a b)).countP (fun g => winner g == none), (gs.filter (between a b)).length⟩

/-- The openings of the games that `a` plays with Black against `b`, in their order. -/
def openingsOf (gs : List LeagueGame) (a b : Nat) : List (Option Nat) := (gs.filter fun g => g.black == a && g.white == b).map (·.opening)

/-- The text of options: names and values. -/
def optionText : List (List Char × List Char) → List Char
  | [] => []
  | [x] => x.1 ++ ':' :: x.2
  | x :: xs => x.1 ++ ':' :: (x.2 ++ ',' :: optionText xs)

end Verif.Spec.League
