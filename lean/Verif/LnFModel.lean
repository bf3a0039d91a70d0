import Verif.LogNormalModel

/-!
# Distributions and total costs in machine arithmetic (src/lognormaldist.cpp, src/structure.cpp:114-148)

`LogNormalModel` and `StructureModel` compute with exact numbers.  Here the same code is transcribed with every operation followed by
rounding.  Order and association of the operations are those of the source; contraction to fused operations and extended precision
are not modelled.
-/

namespace Slat.LnF

open Dbl

noncomputable section

/-- A machine: rounding of `+ - * /` and `sqrt`, and the functions `exp` and `log` of `<cmath>` (external). -/
structure Machine where
  rnd : ℝ → Dbl
  /-- `exp` of a finite number -/
  rexp : ℝ → Dbl
  /-- `log` of a positive number -/
  rlog : ℝ → Dbl

namespace Machine

variable (M : Machine)

/-- Rounding of a result; special values stay. -/
def fix : Dbl → Dbl
  | .fin x => M.rnd x
  | v => v

/-- `x + y` (src/lognormaldist.cpp, throughout). -/
def add (x y : Dbl) : Dbl := M.fix (x + y)
/-- `x - y` (src/lognormaldist.cpp, throughout). -/
def sub (x y : Dbl) : Dbl := M.fix (x - y)
/-- `x * y` (src/lognormaldist.cpp, throughout). -/
def mul (x y : Dbl) : Dbl := M.fix (x * y)
/-- `x / y` (src/lognormaldist.cpp, throughout). -/
def div (x y : Dbl) : Dbl := M.fix (x / y)
/-- `sqrt` (src/lognormaldist.cpp, throughout). -/
def sqrt (x : Dbl) : Dbl := M.fix (Dbl.sqrt x)

/-- `exp` (src/lognormaldist.cpp, throughout). -/
def exp : Dbl → Dbl
  | .fin x => M.rexp x
  | v => Dbl.exp v

/-- `log` (src/lognormaldist.cpp, throughout). -/
def log : Dbl → Dbl
  | .fin x => if 0 < x then M.rlog x else Dbl.log (.fin x)
  | v => Dbl.log v

/-- `get_mean_X` (src/lognormaldist.cpp:144-151). -/
def getMean (d : LogNormalDist) : Dbl :=
  if feq d.mu .ninf then 0 else M.exp (M.add d.mu (M.div (M.mul d.sigma d.sigma) (.fin 2)))

/-- `get_sigma_X` (src/lognormaldist.cpp:158-166). -/
def getSigma (d : LogNormalDist) : Dbl :=
  if feq d.mu .ninf then 0
  else M.mul (M.getMean d) (M.sqrt (M.sub (M.exp (M.mul d.sigma d.sigma)) 1))

/-- `sigma_lnX_from_mean_X_and_sigma_X` (src/lognormaldist.cpp:31-38). -/
def sigmaLn (mean sigma : Dbl) : Dbl :=
  if feq mean 0 then 0 else M.sqrt (M.log (M.add 1 (M.div (M.mul sigma sigma) (M.mul mean mean))))

/-- `mu_lnX_from_mean_X_and_sigma_lnX` (src/lognormaldist.cpp:26-29). -/
def muLn (mean sigmaLn : Dbl) : Dbl := M.sub (M.log mean) (M.div (M.mul sigmaLn sigmaLn) (.fin 2))

/-- `LogNormalDist_from_mean_X_and_sigma_X` (src/lognormaldist.cpp:58-64). -/
def ofMeanSigma (mean sigma : Dbl) : LogNormalDist := ⟨M.muLn mean (M.sigmaLn mean sigma), M.sigmaLn mean sigma⟩

/-- Inner loop of `AddDistributions` for `i != j` (src/lognormaldist.cpp:220-228). -/
def offDiagonal (sdi var : Dbl) (rest : List LogNormalDist) : Dbl :=
  rest.foldl (fun v d => M.add v (M.mul (M.mul 0 sdi) (M.getSigma d))) var

/-- Outer loop of `AddDistributions` (src/lognormaldist.cpp:214-229). -/
def addLoop : List LogNormalDist → Dbl → Dbl → Dbl × Dbl
  | [], mean, var => (mean, var)
  | d :: ds, mean, var =>
    addLoop ds (M.add mean (M.getMean d))
      (M.offDiagonal (M.getSigma d) (M.add var (M.mul (M.getSigma d) (M.getSigma d))) ds)

/-- `AddDistributions` (src/lognormaldist.cpp:208-231). -/
def addDistributions (ds : List LogNormalDist) : LogNormalDist :=
  M.ofMeanSigma (M.addLoop ds 0 0).1 (M.sqrt (M.addLoop ds 0 0).2)

/-- `mean_X * mean_X + sd_X * sd_X` (src/lognormaldist.cpp:184, src/structure.cpp:130-135). -/
def square (d : LogNormalDist) : Dbl := M.add (M.mul (M.getMean d) (M.getMean d)) (M.mul (M.getSigma d) (M.getSigma d))

/-- Loop of `AddWeightedDistributions` (src/lognormaldist.cpp:179-185). -/
def weightedLoop : List (LogNormalDist × Dbl) → Dbl → Dbl → Dbl × Dbl
  | [], mean, var => (mean, var)
  | e :: es, mean, var =>
    weightedLoop es (M.add mean (M.mul (M.getMean e.1) e.2)) (M.add var (M.mul (M.square e.1) e.2))

/-- `AddWeightedDistributions` (src/lognormaldist.cpp:168-189) for lists of equal lengths (otherwise it throws, see
`LogNormalDist.addWeighted`). -/
def addWeighted (es : List (LogNormalDist × Dbl)) : LogNormalDist :=
  let r := M.weightedLoop es 0 0
  M.ofMeanSigma r.1 (M.sqrt (Dbl.abs (M.sub r.2 (M.mul r.1 r.1))))

/-- `Structure::Cost` with collapse (src/structure.cpp:98-104) from the cost without collapse and the probability of collapse. -/
def costWithCollapse (nc rebuild : LogNormalDist) (pCollapse : Dbl) : LogNormalDist :=
  M.addWeighted [(nc, M.sub 1 pCollapse), (rebuild, pCollapse)]

/-- `IM::pDemolition` (src/relationships.h:120-126) from the values of the two distribution functions; without a demolition
distribution 0. -/
def pDemolition (demolished : Option Dbl) (collapsed : Dbl) : Dbl :=
  match demolished with
  | some a => M.sub a collapsed
  | none => 0

/-- `IM::pRepair` (src/relationships.h:100-102). -/
def pRepair (demolished : Option Dbl) (collapsed : Dbl) : Dbl := M.sub 1 (M.add (M.pDemolition demolished collapsed) collapsed)

/-- `if (p > 0) x += v * p` (src/structure.cpp:122-128, 138-143). -/
def addIf (x v p : Dbl) : Dbl := if 0 < p then M.add x (M.mul v p) else x

/-- `Structure::TotalCost` (src/structure.cpp:114-148): costs of repair, demolition and rebuilding, and the three probabilities. -/
def totalCost (r d c : LogNormalDist) (pR pD pC : Dbl) : LogNormalDist :=
  let e := M.addIf (M.addIf (M.mul (M.getMean r) pR) (M.getMean d) pD) (M.getMean c) pC
  let q := M.addIf (M.addIf (M.mul (M.square r) pR) (M.square d) pD) (M.square c) pC
  M.ofMeanSigma e (M.sqrt (M.sub q (M.mul e e)))

end Machine

/-- What is assumed of a machine without overflow and underflow: every operation has a relative error of at most `u`; rounding a
rounded number changes nothing; numbers from one on do not go below one. -/
structure Accurate (M : Machine) (u : ℝ) : Prop where
  nonneg : 0 ≤ u
  small : u < 1
  rnd : ∀ x, ∃ y, M.rnd x = .fin y ∧ |y - x| ≤ u * |x|
  again : ∀ x y, M.rnd x = .fin y → M.rnd y = .fin y
  one : ∀ x y, 1 ≤ x → M.rnd x = .fin y → 1 ≤ y
  exp : ∀ x, ∃ y, M.rexp x = .fin y ∧ |y - Real.exp x| ≤ u * Real.exp x ∧ (0 ≤ x → 1 ≤ y)
  log : ∀ x, 0 < x → ∃ y, M.rlog x = .fin y ∧ |y - Real.log x| ≤ u * |Real.log x|

end

end Slat.LnF
