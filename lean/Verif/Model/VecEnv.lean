import Verif.Model.Env

/-!
# Several learning environments at once (cshogi/gym_shogi/envs/shogi_vec_env.pyx)
-/

namespace Verif.VecEnv
open Verif.Env

/-- `ShogiVecEnv(num_envs)` and `reset` (shogi_vec_env.pyx:13-20) on boards that are set to `p`. -/
def make (p : Position) (n : Nat) : List Env := List.replicate n (Env.reset p)

/-- `step` (shogi_vec_env.pyx:33-55): what is returned, or how it ends, and the environments it leaves behind. A failed assertion comes before
the push and leaves its environment as it was; with more moves than environments the list of environments is indexed out of range. -/
def step (Z : Zobrist) (p : Position) : List Env → List Move → Out (List Reply) × List Env
  | es, [] => (.ok [], es)
  | [], _ :: _ => (.error, [])
  | e :: es, m :: ms => match Env.step Z e m with
    | .ok (r, e') => ((step Z p es ms).1.bind fun rs => .ok (r :: rs), (if r.done then Env.reset p else e') :: (step Z p es ms).2)
    | .error => (.error, e :: es)
    | .ub => (.ub, e :: es)

/-- Several calls of `step`, up to the first exception: the replies of each call, and the environments. -/
def play (Z : Zobrist) (p : Position) : List Env → List (List Move) → Out (List (List Reply) × List Env)
  | es, [] => .ok ([], es)
  | es, ms :: rounds => (step Z p es ms).1.bind fun rs => (play Z p (step Z p es ms).2 rounds).bind fun x => .ok (rs :: x.1, x.2)

end Verif.VecEnv
