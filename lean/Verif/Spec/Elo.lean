import Mathlib.Analysis.SpecialFunctions.Gaussian.GaussianIntegral

/-! What the statistics of a match should be, in terms of the games played. -/

namespace Verif.Spec.Elo

/-- How a game ended for the first player. -/
inductive Result where
  | win
  | loss
  | draw
  deriving DecidableEq

/-- Points for a game. -/
noncomputable def points : Result → ℝ
  | .win => 1
  | .loss => 0
  | .draw => 1 / 2

/-- The result for the other player. -/
def turned : Result → Result
  | .win => .loss
  | .loss => .win
  | .draw => .draw

/-- The points per game. -/
noncomputable def score (g : List Result) : ℝ := (g.map points).sum / g.length

/-- The mean square distance of a game's points from the score. -/
noncomputable def variance (g : List Result) : ℝ := (g.map fun r => (points r - score g) ^ 2).sum / g.length

/-- The points per game expected of a player rated `δ` points above the other. -/
noncomputable def expected (δ : ℝ) : ℝ := 1 / (1 + (10 : ℝ) ^ (-δ / 400))

/-- The probability that a standard normal variable is at most `x`. -/
noncomputable def normal (x : ℝ) : ℝ := (Real.sqrt (2 * Real.pi))⁻¹ * ∫ t in Set.Iic x, Real.exp (-t ^ 2 / 2)

end Verif.Spec.Elo
