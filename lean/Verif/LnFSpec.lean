import Verif.LogNormalModel

/-!
# Moments of distributions and sizes of errors: specification for C77

Nothing here refers to the code: the moments are those of the log-normal law (C46), and of sums and mixtures.
-/

namespace Slat.LnF

open Real (exp log)

noncomputable section

/-- Finite parameters, or the value zero (`mu = -inf`). -/
def Regular (d : LogNormalDist) : Prop := ∃ s : ℝ, d.sigma = .fin s ∧ ((∃ m : ℝ, d.mu = .fin m) ∨ d.mu = .ninf)

/-- Mean of a log-normal variable; zero for `mu = -inf`. -/
def mean (d : LogNormalDist) : ℝ :=
  match d.mu, d.sigma with
  | .fin m, .fin s => exp (m + s ^ 2 / 2)
  | _, _ => 0

/-- Mean square of a log-normal variable; zero for `mu = -inf`. -/
def meanSquare (d : LogNormalDist) : ℝ :=
  match d.mu, d.sigma with
  | .fin m, .fin s => exp (2 * m + 2 * s ^ 2)
  | _, _ => 0

/-- Size of the exponents occurring. -/
def size (d : LogNormalDist) : ℝ :=
  match d.mu, d.sigma with
  | .fin m, .fin s => |m| + s ^ 2 / 2
  | _, .fin s => s ^ 2 / 2
  | _, _ => 0

/-- Mean of a sum. -/
def sumMean (ds : List LogNormalDist) : ℝ := (ds.map mean).sum

/-- Mean square of a sum of independent (uncorrelated) variables. -/
def sumSquare (ds : List LogNormalDist) : ℝ := (ds.map fun d => meanSquare d - mean d ^ 2).sum + sumMean ds ^ 2

/-- Mean of a mixture. -/
def mixMean (es : List (LogNormalDist × ℝ)) : ℝ := (es.map fun e => mean e.1 * e.2).sum

/-- Mean square of a mixture. -/
def mixSquare (es : List (LogNormalDist × ℝ)) : ℝ := (es.map fun e => meanSquare e.1 * e.2).sum

/-- `x` and `y` agree up to the factor `exp η`: for small `η` the relative error is about `η`. -/
def Near (η x y : ℝ) : Prop := x ≤ y * exp η ∧ y ≤ x * exp η

/-- Exponent of the factor of one rounding with relative error `u` (about `u`). -/
def eps (u : ℝ) : ℝ := -log (1 - u)

/-- Three roundings, as a relative error. -/
def three (u : ℝ) : ℝ := exp (3 * eps u) - 1

/-- Error of the mean calculated from parameters of size `H`. -/
def meanErr (u H : ℝ) : ℝ := eps u + three u * H

/-- Errors of a result with mean `A` and mean square `Q` if the mean is known up to `α` and variance plus squared mean up to `θ`:
first of the ratio of mean square to squared mean. -/
def ratioErr (u α θ A Q : ℝ) : ℝ :=
  6 * eps u + θ + 2 * α + three u * (|log (Q / A ^ 2)| + (6 * eps u + θ + 2 * α))

/-- Then of the mean. -/
def resultErr (u α θ A Q : ℝ) : ℝ :=
  α + three u * (|log A| + α + (1 + three u) * (|log (Q / A ^ 2)| + (6 * eps u + θ + 2 * α)) / 2)

/-- The result has mean `A` and mean square `Q` up to these errors. -/
def Right (u α θ : ℝ) (d : LogNormalDist) (A Q : ℝ) : Prop :=
  Regular d ∧ Near (resultErr u α θ A Q) (mean d) A ∧
    Near (2 * resultErr u α θ A Q + ratioErr u α θ A Q) (meanSquare d) Q

/-- Relative errors of mean and mean square of at most `δ`. -/
def Close (δ : ℝ) (d : LogNormalDist) (A Q : ℝ) : Prop := |mean d - A| ≤ δ * A ∧ |meanSquare d - Q| ≤ δ * Q

end

end Slat.LnF
