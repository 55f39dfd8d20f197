import Verif.Spec.UsiSession
import Mathlib.Data.List.Forall2

/-!
# What an engine says while it thinks, and what a remark in a KIF record says

An engine counts for the side it plays. A remark counts for Black.
-/

namespace Verif.Spec.Remark
open Session

/-- What an engine can say in a line: the time in milliseconds, the depth, the number of nodes, the value of the position for its side, a mate
for or against its side in `n` plies, and anything else with a name and a value. -/
inductive Fact where
  | time (ms : Nat)
  | depth (n : Nat)
  | nodes (n : Nat)
  | cp (v : Int)
  | mate (wins : Bool) (n : Nat)
  | other (name value : List Char)

/-- What a remark can say: the time in tenths of a second, the depth, the number of nodes, the value for Black, a mate for Black or for White. -/
inductive Noted where
  | time (tenths : Nat)
  | depth (n : Nat)
  | nodes (n : Nat)
  | value (v : Int)
  | mate (black : Bool) (n : Nat)
deriving DecidableEq

/-- The parts of a text between the characters `sep`. -/
def parts (sep : Char) : List Char → List (List Char)
  | [] => [[]]
  | c :: cs =>
    if c = sep then [] :: parts sep cs
    else match parts sep cs with
      | [] => [[c]]
      | w :: ws => (c :: w) :: ws

/-- The lines of a text. -/
def lines (t : List Char) : List (List Char) := parts '\n' t

/-- A time `mm:ss.t`, in tenths of a second. There are sixty seconds in a minute. -/
def readTime (t : List Char) : Option Nat :=
  match parts ':' t with
  | [m, st] => match parts '.' st with
    | [s, d] => if decimal s < 60 ∧ decimal d < 10 then some ((decimal m * 60 + decimal s) * 10 + decimal d) else none
    | _ => none
  | _ => none

/-- A mate: the sign of the side that mates, the character for mate and the number of plies. -/
def readMateWord : List Char → Option Noted
  | a :: b :: ds => if b = '詰' then (if a = '+' then some (.mate true (decimal ds)) else if a = '-' then some (.mate false (decimal ds)) else none) else none
  | _ => none

/-- The words of a remark. -/
def readNotes : List (List Char) → Option (List Noted)
  | [] => some []
  | [w] => (readMateWord w).map fun n => [n]
  | w :: v :: ws =>
    if w = "時間".toList then (readTime v).bind fun t => (readNotes ws).map fun l => .time t :: l
    else if w = "深さ".toList then (readNotes ws).map fun l => .depth (decimal v) :: l
    else if w = "ノード数".toList then (readNotes ws).map fun l => .nodes (decimal v) :: l
    else if w = "評価値".toList then (readNotes ws).map fun l => .value (integer v) :: l
    else (readMateWord w).bind fun n => (readNotes (v :: ws)).map fun l => n :: l

/-- A remark. -/
def readRemark (t : List Char) : Option (List Noted) :=
  match fields t with
  | w :: ws => if w = "対局".toList then readNotes ws else none
  | [] => none

/-- What a remark is to say about a fact told by the engine of the side `c`. A time is rounded to a tenth of a second. -/
def Fact.Shown (c : Color) : Fact → List Noted → Prop
  | .time ms, l => ∃ t, l = [.time t] ∧ 100 * t ≤ ms + 50 ∧ ms ≤ 100 * t + 50
  | .depth n, l => l = [.depth n]
  | .nodes n, l => l = [.nodes n]
  | .cp v, l => l = [.value (if c = .black then v else -v)]
  | .mate wins n, l => l = [.mate (if c = .black then wins else !wins) n]
  | .other _ _, l => l = []

/-- What the comment of a move is to be: none without a remark, else a line for every remark. A line of an engine is its facts and the words
at its end. -/
def Comment (c : Color) (rs : List (List Fact × List (List Char))) : Option (List Char) → Prop
  | none => rs = []
  | some t => rs ≠ [] ∧ List.Forall₂ (fun r l => ∃ ls, List.Forall₂ (Fact.Shown c) r.1 ls ∧ readRemark l = some ls.flatten) rs (lines t)

end Verif.Spec.Remark
