import Verif.Model.Usi

/-!
# MultiPVListener (cshogi/usi/Engine.py:138-180)

Simplified as in `Model/Usi`: regular expressions are functions that try the longest text first. `([0-9]+)` is read to its end:
giving back digits never helps, because ` pv ` does not begin with a digit.
-/

namespace Verif.Usi

open Position

/-- ` multipv ([0-9]+).* pv .*$` at this place: group 1. -/
def multiTail (s : List Char) : Option (List Char) :=
  (afterText " multipv ".toList s).bind fun r =>
    if r.takeWhile Char.isDigit = [] then none
    else if " pv ".toList <:+: r.dropWhile Char.isDigit then some (r.takeWhile Char.isDigit) else none

/-- `re_multipv.match(line)[1]` (Engine.py:151): `^info.* multipv ([0-9]+).* pv .*$`. -/
def multiMatch (line : List Char) : Option (List Char) :=
  (afterText "info".toList line).bind fun r => (greedy multiTail r).map (·.2)

/-- `d[k] = v` in a dictionary, in the order of its first keys. -/
def setKey : List (Nat × List Char) → Nat → List Char → List (Nat × List Char)
  | [], k, v => [(k, v)]
  | x :: d, k, v => if x.1 = k then (k, v) :: d else x :: setKey d k v

/-- `__call__` (Engine.py:157-163) on the dictionary `__multipv`; another listener called first is left out. -/
def hearMulti (d : List (Nat × List Char)) (line : List Char) : List (Nat × List Char) :=
  match multiMatch line with
  | none => d
  | some ds => setKey d (readNat ds) line

/-- Puts an entry into its place. -/
def insertKey (x : Nat × List Char) : List (Nat × List Char) → List (Nat × List Char)
  | [] => [x]
  | y :: d => if x.1 ≤ y.1 then x :: y :: d else y :: insertKey x d

/-- `sorted(d.items())`; the keys are all different, so the lines are never compared. -/
def sortKeys : List (Nat × List Char) → List (Nat × List Char)
  | [] => []
  | x :: d => insertKey x (sortKeys d)

/-- `_split_info(re_info.match(line))`: without a match the subscript of `None` raises. -/
def lineInfo (line : List Char) : Out Dict :=
  match infoMatch line with
  | none => .error
  | some m => splitInfo m

/-- The list of `info` (Engine.py:180). -/
def lineInfos : List (Nat × List Char) → Out (List Dict)
  | [] => .ok []
  | x :: d => (lineInfo x.2).bind fun a => (lineInfos d).bind fun l => .ok (a :: l)

/-- `MultiPVListener.info` after `listen()` and these lines. -/
def multiInfo (lines : List (List Char)) : Out (List Dict) := lineInfos (sortKeys (lines.foldl hearMulti []))

end Verif.Usi
