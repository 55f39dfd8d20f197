import Verif.Model.Repetition
import Verif.Model.Gen
import Verif.Model.Outcome
import Verif.Model.Board
import Verif.Model.MoveText

/-!
# The reinforcement-learning environment (cshogi/gym_shogi/envs/shogi_env.pyx)
-/

namespace Verif
open Position

/-- `ShogiEnv` without its spaces; `counts` is `repetition_hash`. -/
structure Env where
  board : Board
  counts : BitVec 64 → Nat
  isDraw : Option Repetition

namespace Env

/-- `repetition_hash[key] += 1`. -/
def count (f : BitVec 64 → Nat) (key : BitVec 64) : BitVec 64 → Nat := fun k => if k = key then f k + 1 else f k

/-- `reset` on a board that has been set to `p` (shogi_env.pyx:33-58). -/
def reset (p : Position) : Env := ⟨⟨p, []⟩, count (fun _ => 0) p.getKey, none⟩

/-- The reward of a repetition (shogi_env.pyx:107-114). -/
def drawReward : Repetition → Int
  | .win => -1
  | .lose => 1
  | _ => 0

/-- What `step` returns. -/
structure Reply where
  reward : Int
  done : Bool
  isDraw : Option Repetition
deriving DecidableEq

/-- The end of `step`, after the push (shogi_env.pyx:101-123). -/
def finish (e : Env) : Out (Reply × Env) :=
  let e := { e with counts := count e.counts e.board.pos.getKey }
  if e.counts e.board.pos.getKey = 4 then
    match e.board.pos.isDraw 2147483647 with
    | none => .ub
    | some v => .ok (⟨drawReward v, true, some v⟩, { e with isDraw := some v })
  else
    match e.board.pos.isGameOver with
    | none => .ub
    | some over => .ok (⟨if over then 1 else 0, over, e.isDraw⟩, e)

/-- `step` (shogi_env.pyx:80-123); a failed assertion is `.error`. -/
def step (Z : Zobrist) (e : Env) (m : Move) : Out (Reply × Env) :=
  if m = 0#32 then .ok (⟨-1, true, none⟩, e)
  else
    match e.board.pos.isLegal m with
    | none => .ub
    | some false => .error
    | some true =>
      match e.board.push Z m with
      | none => .ub
      | some b => finish { e with board := b }

/-- Several steps; what the last one returned. -/
def play (Z : Zobrist) (e : Env) : List Move → Out Env
  | [] => .ok e
  | m :: ms => (e.step Z m).bind fun x => x.2.play Z ms

end Env
end Verif
