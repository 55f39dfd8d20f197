import Verif.Model.Kif
import Verif.Model.Usi

/-!
# The remarks that `KIF.Exporter.info` writes (cshogi/KIF.py)

The time is a floating-point number in the code. Here `tenths` is any way of rounding milliseconds below a minute to tenths of a second, and
minutes and rest are exact.
-/

namespace Verif.Kif
open Position

/-- `'{:.1f}'` of seconds, given in tenths, with a zero in front if there is one digit before the point (cshogi/KIF.py:527-529). -/
def secondsText (t : Nat) : List Char :=
  let s := natChars (t / 10) ++ '.' :: natChars (t % 10)
  if (s.drop 1).take 1 = ['.'] then '0' :: s else s

/-- ` 時間 {:>02}:{}` (cshogi/KIF.py:526-530). Negative times are left out. -/
def timePart (tenths : Nat → Nat) (v : List Char) : Option (List Char) :=
  match Usi.pyInt v with
  | some (.ofNat ms) => some (" 時間 ".toList ++ (zpad 2 (ms / 60000) ++ ':' :: secondsText (tenths (ms % 60000))))
  | _ => none

/-- ` 評価値 {}` (cshogi/KIF.py:539-541). `black`: `turn == cshogi.BLACK`. -/
def cpPart (black : Bool) (v : List Char) : Option (List Char) :=
  if black then some (" 評価値 ".toList ++ v) else (Usi.pyInt v).map fun n => " 評価値 ".toList ++ intChars (-n)

/-- ` +詰` or ` -詰` with what follows the sign (cshogi/KIF.py:542-548). -/
def matePart (black : Bool) (v : List Char) : List Char :=
  (if v.take 1 = ['+'] then (if black then " +詰".toList else " -詰".toList) else (if black then " -詰".toList else " +詰".toList)) ++ v.drop 1

/-- The loop (cshogi/KIF.py:522-550) from the words `items[i:]`; a value is looked at again as a word. `none`: it raises, because a word is
missing or a number cannot be read. -/
def infoLoop (tenths : Nat → Nat) (black : Bool) : List (List Char) → Option (List Char)
  | [] => some []
  | [w] => if w = "time".toList ∨ w = "depth".toList ∨ w = "nodes".toList ∨ w = "score".toList then none else some []
  | [w, v] =>
    if w = "time".toList then (timePart tenths v).bind fun x => (infoLoop tenths black [v]).map fun y => x ++ y
    else if w = "depth".toList then (infoLoop tenths black [v]).map fun y => " 深さ ".toList ++ (v ++ y)
    else if w = "nodes".toList then (infoLoop tenths black [v]).map fun y => " ノード数 ".toList ++ (v ++ y)
    else if w = "score".toList then (if v = "cp".toList ∨ v = "mate".toList then none else infoLoop tenths black [v])
    else infoLoop tenths black [v]
  | w :: v :: u :: ws =>
    if w = "time".toList then (timePart tenths v).bind fun x => (infoLoop tenths black (v :: u :: ws)).map fun y => x ++ y
    else if w = "depth".toList then (infoLoop tenths black (v :: u :: ws)).map fun y => " 深さ ".toList ++ (v ++ y)
    else if w = "nodes".toList then (infoLoop tenths black (v :: u :: ws)).map fun y => " ノード数 ".toList ++ (v ++ y)
    else if w = "score".toList then
      if v = "cp".toList then (cpPart black u).bind fun x => (infoLoop tenths black (u :: ws)).map fun y => x ++ y
      else if v = "mate".toList then (infoLoop tenths black (u :: ws)).map fun y => matePart black u ++ y
      else infoLoop tenths black (v :: u :: ws)
    else infoLoop tenths black (v :: u :: ws)

/-- The line that `Exporter.info` writes, without its newline (cshogi/KIF.py:519-551). `num` is `move_number`, the number of the next move;
the first word is passed over. -/
def infoRemark (tenths : Nat → Nat) (num : Nat) (info : List Char) : Option (List Char) :=
  (infoLoop tenths (decide (num % 2 = 0)) ((splitAt ' ' info).drop 1)).map fun y => "**対局".toList ++ y

/-- Some remarks. -/
def exportInfos (tenths : Nat → Nat) (num : Nat) : List (List Char) → Option (List Char)
  | [] => some []
  | i :: is => (infoRemark tenths num i).bind fun x => (exportInfos tenths num is).map fun y => (x ++ ['\n']) ++ y

/-- The moves of a game with the calls of `info` after each; `n` is `move_number` and `prev` is `prev_move` (cshogi/KIF.py:444-469). -/
def exportNoted (tenths : Nat → Nat) : Nat → Move → List ((Move × Nat × Nat) × List (List Char)) → Option (List Char)
  | _, _, [] => some []
  | n, prev, (x, infos) :: l =>
    (exportMove n prev x.1 x.2.1 x.2.2).bind fun a => (exportInfos tenths (n + 1) infos).bind fun b =>
      (exportNoted tenths (n + 1) x.1 l).map fun c => a ++ (b ++ c)

/-- A whole record with remarks. -/
def exportNotedGame (tenths : Nat → Nat) (time : List Char) (st : Start) (black white : List Char)
    (ms : List ((Move × Nat × Nat) × List (List Char))) (r : Reason) (sec sum : Nat) : Option (List Char) :=
  (exportNoted tenths 1 0#32 ms).map fun x => exportHeader time st black white ++ (x ++ exportEnd r (ms.length + 1) sec sum)

end Verif.Kif
