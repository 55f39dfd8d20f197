import Mathlib.Analysis.SpecialFunctions.Log.Base
import Mathlib.Analysis.SpecialFunctions.Gaussian.GaussianIntegral

/-! The statistics of a match (cshogi/elo.py, cshogi/cli.py:507-514).

Simplified: Python's floating-point numbers are modelled as exact real numbers, so rounding, overflow and underflow are
not seen; `math.erf` is modelled as the error function itself. The exceptions of Python's `/`, `math.log`, `math.log10`
and `math.sqrt` are kept. -/

namespace Verif.Elo

open Classical

/-- What a Python expression gives: a value, a `ValueError: math domain error`, or a `ZeroDivisionError`. -/
inductive Val (α : Type) where
  | ok (x : α)
  | domain
  | division

/-- The rest of a computation, unless it has already failed. -/
def Val.bind {α β : Type} (v : Val α) (f : α → Val β) : Val β :=
  match v with
  | .ok x => f x
  | .domain => .domain
  | .division => .division

/-- Python's `x / y`. -/
noncomputable def div (x y : ℝ) : Val ℝ := if y = 0 then .division else .ok (x / y)

/-- `math.log10`. -/
noncomputable def log10 (x : ℝ) : Val ℝ := if 0 < x then .ok (Real.logb 10 x) else .domain

/-- `math.log`. -/
noncomputable def ln (x : ℝ) : Val ℝ := if 0 < x then .ok (Real.log x) else .domain

/-- `math.sqrt`. -/
noncomputable def sqrt (x : ℝ) : Val ℝ := if 0 ≤ x then .ok (Real.sqrt x) else .domain

/-- `math.erf`. -/
noncomputable def erf (x : ℝ) : ℝ := 2 / Real.sqrt Real.pi * ∫ t in (0 : ℝ)..x, Real.exp (-t ^ 2)

/-- `elo_diff` (cshogi/elo.py:3-4). -/
noncomputable def eloDiff (p : ℝ) : Val ℝ :=
  (div 1 p).bind fun q => (log10 (q - 1)).bind fun x => .ok (-400 * x)

/-- `pi` in `erf_inv` (cshogi/elo.py:7). -/
noncomputable def pi : ℝ := 31415926535897 / 10000000000000

/-- `a` in `erf_inv` (cshogi/elo.py:9). Its divisor is a nonzero constant. -/
noncomputable def a : ℝ := 8 * (pi - 3) / (3 * pi * (4 - pi))

/-- `erf_inv` (cshogi/elo.py:6-17). The divisors `pi * a` and `a` are nonzero constants. -/
noncomputable def erfInv (x : ℝ) : Val ℝ :=
  (ln (1 - x * x)).bind fun y =>
    (sqrt ((2 / (pi * a) + y / 2) * (2 / (pi * a) + y / 2) - y / a)).bind fun r =>
      (sqrt (r - (2 / (pi * a) + y / 2))).bind fun ret =>
        .ok (if x < 0 then -ret else ret)

/-- `phi_inv` (cshogi/elo.py:19-20). -/
noncomputable def phiInv (p : ℝ) : Val ℝ := (erfInv (2 * p - 1)).bind fun e => .ok (Real.sqrt 2 * e)

/-- The fields of an `Elo` object (cshogi/elo.py:30-45). -/
structure Rating where
  wins : Nat
  losses : Nat
  draws : Nat
  mu : ℝ
  stdev : ℝ

/-- `Elo.__init__` (cshogi/elo.py:30-45). -/
noncomputable def make (wins losses draws : Nat) : Val Rating :=
  let n : ℝ := ((wins + losses + draws : Nat) : ℝ)
  (div wins n).bind fun w => (div losses n).bind fun l => (div draws n).bind fun d =>
    let mu := w + d / 2
    (sqrt (w * (1 - mu) ^ 2 + l * (0 - mu) ^ 2 + d * (1 / 2 - mu) ^ 2)).bind fun s =>
      (sqrt n).bind fun r => (div s r).bind fun stdev =>
        .ok ⟨wins, losses, draws, mu, stdev⟩

/-- `Elo.point_ratio` (cshogi/elo.py:47-53). -/
noncomputable def Rating.pointRatio (e : Rating) : Val ℝ :=
  div ((e.wins * 2 + e.draws : Nat) : ℝ) (((e.wins + e.losses + e.draws) * 2 : Nat) : ℝ)

/-- `Elo.draw_ratio` (cshogi/elo.py:55-61). -/
noncomputable def Rating.drawRatio (e : Rating) : Val ℝ :=
  div e.draws ((e.wins + e.losses + e.draws : Nat) : ℝ)

/-- `Elo.diff` (cshogi/elo.py:63-68). -/
noncomputable def Rating.diff (e : Rating) : Val ℝ := eloDiff e.mu

/-- `Elo.error_margin` (cshogi/elo.py:70-77). -/
noncomputable def Rating.errorMargin (e : Rating) : Val ℝ :=
  (phiInv (25 / 1000)).bind fun lo => (phiInv (975 / 1000)).bind fun hi =>
    (eloDiff (e.mu + hi * e.stdev)).bind fun x => (eloDiff (e.mu + lo * e.stdev)).bind fun y =>
      .ok ((x - y) / 2)

/-- `Elo.los` (cshogi/elo.py:79-84). -/
noncomputable def Rating.los (e : Rating) : Val ℝ :=
  (sqrt (2 * ((e.wins + e.losses : Nat) : ℝ))).bind fun r =>
    (div ((e.wins : ℝ) - (e.losses : ℝ)) r).bind fun x => .ok (100 * (1 / 2 + 1 / 2 * erf x))

/-- The numbers of the line giving the rating difference with its margin, the LOS and the draw ratio; no margin stands for `nan`. -/
structure Line where
  diff : ℝ
  margin : Option ℝ
  los : ℝ
  drawRatio : ℝ

/-- The end of the statistics printed after every game (cshogi/cli.py:507-514); `none` if the line is left out. Only
`ValueError` is caught around the margin. -/
noncomputable def report (wins losses draws : Nat) : Val (Option Line) :=
  (make wins losses draws).bind fun e =>
    if wins > 0 ∧ losses > 0 then
      (match e.errorMargin with
        | .ok x => Val.ok (some x)
        | .domain => .ok none
        | .division => .division).bind fun margin =>
      e.diff.bind fun diff => e.los.bind fun los => e.drawRatio.bind fun ratio =>
        .ok (some ⟨diff, margin, los, ratio⟩)
    else .ok none

end Verif.Elo
