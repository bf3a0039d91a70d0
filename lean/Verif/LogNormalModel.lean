import Verif.Dbl
import Mathlib.Probability.Distributions.Gaussian.Real
import Mathlib.Probability.CDF

/-!
# Model of `LogNormalDist` (src/lognormaldist.cpp)

The GSL functions are external: `gsl_cdf_lognormal_P(x, zeta, sigma)` is, as documented by the GSL,
`Phi((log x - zeta) / sigma)` evaluated in `double` arithmetic, with `Phi` the standard normal distribution
function of Mathlib, `Phi(±inf)` its limits, and `Phi(nan) = nan`.
-/

namespace Slat

open Dbl

noncomputable section

/-- The standard normal cumulative distribution function. -/
def Phi (u : ℝ) : ℝ := ProbabilityTheory.cdf (ProbabilityTheory.gaussianReal 0 1) u

/-- `gsl_cdf_ugaussian_P` (external). -/
def gslP : Dbl → Dbl
  | .fin u => .fin (Phi u)
  | .pinf => .fin 1
  | .ninf => .fin 0
  | .nan => .nan

/-- `gsl_cdf_ugaussian_Q` (external). -/
def gslQ : Dbl → Dbl
  | .fin u => .fin (1 - Phi u)
  | .pinf => .fin 0
  | .ninf => .fin 1
  | .nan => .nan

/-- `gsl_cdf_ugaussian_Pinv` on (0,1) (external): an inverse of `Phi`. -/
def gslPinv (p : ℝ) : ℝ := Function.invFun Phi p

/-- `gsl_cdf_lognormal_Pinv` (external): `+inf` at 1, 0 at 0, otherwise `exp(zeta + sigma * Pinv(p))`.
Probabilities outside [0,1] are GSL domain errors and answered with NaN. -/
def gslLogNormalPinv (p zeta sigma : Dbl) : Dbl :=
  match p with
  | .fin r =>
    if r = 1 then .pinf else if r = 0 then 0
    else if 0 < r ∧ r < 1 then exp (zeta + sigma * .fin (gslPinv r)) else .nan
  | _ => .nan

/-- `LogNormalDist` (src/lognormaldist.h:51-52): the two data members. -/
structure LogNormalDist where
  mu : Dbl
  sigma : Dbl

namespace LogNormalDist

/-- Default constructor (src/lognormaldist.cpp:40-43). -/
def unset : LogNormalDist := ⟨.nan, .nan⟩

/-- src/lognormaldist.cpp:26-29. -/
def muFromMeanSigmaLn (mean sigmaLn : Dbl) : Dbl := log mean - sigmaLn * sigmaLn / .fin 2

/-- src/lognormaldist.cpp:31-38. -/
def sigmaLnFromMeanSigma (mean sigma : Dbl) : Dbl :=
  if feq mean 0 then 0 else sqrt (log (1 + (sigma * sigma) / (mean * mean)))

/-- src/lognormaldist.cpp:50-56. -/
def ofMeanSigmaLn (mean sigmaLn : Dbl) : LogNormalDist := ⟨muFromMeanSigmaLn mean sigmaLn, sigmaLn⟩

/-- src/lognormaldist.cpp:58-64. -/
def ofMeanSigma (mean sigma : Dbl) : LogNormalDist :=
  let s := sigmaLnFromMeanSigma mean sigma
  ⟨muFromMeanSigmaLn mean s, s⟩

/-- src/lognormaldist.cpp:66-72. -/
def ofMedianSigmaLn (median sigmaLn : Dbl) : LogNormalDist := ⟨log median, sigmaLn⟩

/-- src/lognormaldist.cpp:74-80. -/
def ofMuSigmaLn (mu sigmaLn : Dbl) : LogNormalDist := ⟨mu, sigmaLn⟩

/-- src/lognormaldist.cpp:82-103. -/
def pAtLeast (d : LogNormalDist) (x : Dbl) : Dbl :=
  if isNaN d.mu ∧ isNaN d.sigma then .nan
  else if isNaN d.mu then 0
  else
    let result := gslQ ((log x - d.mu) / d.sigma)
    if result < 0 then 0 else result

/-- src/lognormaldist.cpp:105-121. -/
def pAtMost (d : LogNormalDist) (x : Dbl) : Dbl :=
  if isNaN d.mu ∧ isNaN d.sigma then .nan
  else
    let result := gslP ((log x - d.mu) / d.sigma)
    if result < 0 then 0 else result

/-- src/lognormaldist.cpp:123-131. -/
def xAtP (d : LogNormalDist) (p : Dbl) : Dbl :=
  let result := gslLogNormalPinv p d.mu d.sigma
  if result < 0 then 0 else result

/-- src/lognormaldist.cpp:134-137. -/
def getMuLn (d : LogNormalDist) : Dbl := d.mu

/-- src/lognormaldist.cpp:139-142. -/
def getMedian (d : LogNormalDist) : Dbl := exp d.mu

/-- src/lognormaldist.cpp:144-151. -/
def getMean (d : LogNormalDist) : Dbl :=
  if feq d.mu .ninf then 0 else exp (d.mu + d.sigma * d.sigma / .fin 2)

/-- src/lognormaldist.cpp:153-156. -/
def getSigmaLn (d : LogNormalDist) : Dbl := d.sigma

/-- src/lognormaldist.cpp:158-166. -/
def getSigma (d : LogNormalDist) : Dbl :=
  if feq d.mu .ninf then 0
  else d.getMean * sqrt (exp (d.getSigmaLn * d.getSigmaLn) - 1)

/-- Loop body of `AddWeightedDistributions` (src/lognormaldist.cpp:179-185): accumulated mean and second
moment. -/
def weightedStep (acc : Dbl × Dbl) (e : LogNormalDist × Dbl) : Dbl × Dbl :=
  let mean := e.1.getMean
  let sd := e.1.getSigma
  (acc.1 + mean * e.2, acc.2 + (mean * mean + sd * sd) * e.2)

/-- `AddWeightedDistributions` (src/lognormaldist.cpp:168-189); `none` is the exception `"sizes differ"`. -/
def addWeighted (ds : List LogNormalDist) (ws : List Dbl) : Option LogNormalDist :=
  if ds.length ≠ ws.length then none
  else
    let (newMean, m2) := (ds.zip ws).foldl weightedStep (0, 0)
    let newVar := m2 - newMean * newMean
    let newVar := abs newVar
    some (ofMeanSigma newMean (sqrt newVar))

/-- `ApplyAdjustmentFactor` (src/lognormaldist.cpp:201-206); `ScaleDistributionByProbability` (191-194) and
`ScaleDistributionByNumComponents` (196-199) are the same function. -/
def adjust (d : LogNormalDist) (k : Dbl) : LogNormalDist := ofMeanSigmaLn (k * d.getMean) d.getSigmaLn

/-- Inner loop of `AddDistributions` for the elements after the i-th (src/lognormaldist.cpp:220-228, `i != j`). -/
def offDiagonal (sdi : Dbl) (var : Dbl) (rest : List LogNormalDist) : Dbl :=
  rest.foldl (fun v d => v + 0 * sdi * d.getSigma) var

/-- Outer loop of `AddDistributions` (src/lognormaldist.cpp:214-229). -/
def addLoop : List LogNormalDist → Dbl → Dbl → Dbl × Dbl
  | [], mean, var => (mean, var)
  | d :: ds, mean, var =>
    let sd := d.getSigma
    addLoop ds (mean + d.getMean) (offDiagonal sd (var + sd * sd) ds)

/-- `AddDistributions` (src/lognormaldist.cpp:208-231). -/
def addDistributions (ds : List LogNormalDist) : LogNormalDist :=
  let (newMean, newVar) := addLoop ds 0 0
  ofMeanSigma newMean (sqrt newVar)

end LogNormalDist

end

end Slat
