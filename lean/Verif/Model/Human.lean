import Verif.Model.MoveText
import Verif.Model.Usi
import Verif.Model.Web

/-!
# A person playing on the web page (class `Human` of cshogi/web/app.py)

The server and the game are two processes that share the dictionary `human_input` (app.py:268). The server writes its two entries one
after the other; it serves one request at a time (`wsgiref`, app.py:346). The game reads them one after the other: `dict(proxy)`
fetches the keys and then the value of each, `number` first as in the literal of app.py:268. An execution is the order in which these
accesses happen; the model takes any order. Left out: the sleeps, `int(…)` of a number that is none, Unicode outside of ASCII (both
raise in the process at hand).
-/

namespace Verif.Web
open Position

/-- The shared dictionary (app.py:268). `move` is `none` for `None`. -/
structure Input where
  number : Int
  move : Option (List Char)
deriving DecidableEq

/-- Its first contents (app.py:268). -/
def Input.first : Input := ⟨0, none⟩

/-- An access: the server stores the move or the number of a request (app.py:338, 339), or `go` does its next read (app.py:35). -/
inductive Access
  | putMove (move : Option (List Char))
  | putNumber (number : Int)
  | look
deriving DecidableEq

/-- The accesses of the server for a request to `/move` (app.py:338-339). -/
def Input.writes (r : Input) : List Access := [.putMove r.move, .putNumber r.number]

/-- `go` at work: the dictionary, and the number that this round of the loop has read if it has not read the move (app.py:35). -/
structure Waiting where
  shared : Input
  seen : Option Int

/-- What has come of `go` (app.py:32-41): still in the loop, returned with this text, raised, or undefined behaviour. -/
inductive Going
  | waits (w : Waiting)
  | takes (text : List Char)
  | raises
  | ub

/-- The tests of a round (app.py:36-40). `None.encode` raises. -/
def judge (p : Position) (w : Waiting) (number : Int) (move : Option (List Char)) : Going :=
  if number ≠ p.gamePly then .waits w
  else match move with
    | none => .raises
    | some u => match p.usiToMove u with
      | none => .ub
      | some m => match p.isLegal m with
        | none => .ub
        | some true => .takes u
        | some false => .waits w

/-- An access while `go` is in its loop. -/
def access (p : Position) (w : Waiting) : Access → Going
  | .putMove u => .waits { w with shared := { w.shared with move := u } }
  | .putNumber n => .waits { w with shared := { w.shared with number := n } }
  | .look => match w.seen with
    | none => .waits { w with seen := some w.shared.number }
    | some n => judge p { w with seen := none } n w.shared.move

/-- `Human.go` (app.py:32-41) in the position `p`, along these accesses. -/
def humanGo (p : Position) : Waiting → List Access → Going
  | w, [] => .waits w
  | w, a :: as => match access p w a with
    | .waits w' => humanGo p w' as
    | g => g

/-- `human` in the answer to `/move` (app.py:341-343): it goes by the name of the side. -/
def askedAfterMove (names : Color → List Char) (shown : List Entry) : Option Color :=
  let c : Color := if shown.length % 2 = 0 then .black else .white
  if names c = "Human".toList then some c else none

end Verif.Web
