import Verif.FatesModel
import Verif.FragilityModel

/-!
# Model of the rates and costs obtained by integration (src/relationships.cpp, src/comp_group.cpp)

`Integration::MAQ` is a parameter `maq : (Dbl → Dbl) → Bool × Dbl` (success flag and integral; the model of
MAQ itself is in `MaqModel.lean`).  The derivative of the hazard curve, `IM::DerivativeAt`, is a parameter,
and so are the three GSL differentiation routines.  Caches are transparent here (`CacheFnProps.lean`).
-/

namespace Slat.Rates

open Slat Dbl

noncomputable section

/-- `Integration::MAQ` as used by the callers: `successful` and `integral` (src/maq.h:76-77). -/
abbrev Maq := (Dbl → Dbl) → Bool × Dbl

/-- `if (result.successful) return result.integral; else return NAN;` (src/relationships.cpp:168-173,
193-198, 288-293 and src/comp_group.cpp:637-641). -/
def orNaN (r : Bool × Dbl) : Dbl := if r.1 then r.2 else .nan

/-- `if (result.successful) return result.integral; else return 0;` (src/comp_group.cpp:316-320, 400-404,
427-431, 469-473, 600-604). -/
def orZero (r : Bool × Dbl) : Dbl := if r.1 then r.2 else 0

/-! ## Intensity measures -/

/-- `IM::CollapseRate_calc` (src/relationships.cpp:153-177). -/
def collapseRate (maq : Maq) (f : Fates) (deriv : Dbl → Dbl) : Dbl :=
  match f.collapse with
  | some _ => orNaN (maq fun x => abs (deriv x) * f.pCollapse x)
  | none => 0

/-- `IM::DemolitionRate_calc` (src/relationships.cpp:179-202). -/
def demolitionRate (maq : Maq) (f : Fates) (deriv : Dbl → Dbl) : Dbl :=
  match f.demolition with
  | some _ => orNaN (maq fun x => abs (deriv x) * f.pDemolition x)
  | none => 0

/-! ## Demands -/

/-- A probabilistic function, given by `LogNormalFn::distribution` (src/functions.cpp:399-403). -/
abbrev Demand := Dbl → LogNormalDist

/-- `EDP` with one demand function, or `CompoundEDP` with two (src/relationships.h:146, 240). -/
inductive Edp where
  | plain (d : Demand)
  | compound (d₁ d₂ : Demand)

/-- The demand function answering at an intensity: `dependent_rate` for an `EDP`
(src/relationships.cpp:296-389); for a `CompoundEDP` the one chosen by `WhichToUse`
(src/relationships.cpp:411-417). -/
def Edp.at (e : Edp) (x : Dbl) : LogNormalDist :=
  match e with
  | .plain d => d x
  | .compound d₁ d₂ => if (d₂ x).getMean < (d₁ x).getMean then d₁ x else d₂ x

/-- `P_exceedence` (src/relationships.cpp:296-299, 489-501; src/functions.cpp:364-367). -/
def Edp.pExceedence (e : Edp) (x y : Dbl) : Dbl := (e.at x).pAtLeast y

/-- `X_at_exceedence` (src/relationships.cpp:301-304, 503-515; src/functions.cpp:369-372). -/
def Edp.xAtExceedence (e : Edp) (x p : Dbl) : Dbl := (e.at x).xAtP p

/-- `Mean` (src/relationships.cpp:346-349, 419-431; src/functions.cpp:374-377). -/
def Edp.mean (e : Edp) (x : Dbl) : Dbl := (e.at x).getMean

/-- `Median` (src/relationships.cpp:331-334, 447-459; src/functions.cpp:384-387). -/
def Edp.median (e : Edp) (x : Dbl) : Dbl := (e.at x).getMedian

/-- `SD_ln` (src/relationships.cpp:361-364, 461-473; src/functions.cpp:389-392). -/
def Edp.sdLn (e : Edp) (x : Dbl) : Dbl := (e.at x).getSigmaLn

/-- The integrand of `EDP::calc_lambda` (src/relationships.cpp:276-287). -/
def lambdaIntegrand (f : Fates) (deriv : Dbl → Dbl) (e : Edp) (y x : Dbl) : Dbl :=
  if feq x 0 then 0
  else (e.pExceedence x y * f.pRepair x + (1 - f.pRepair x)) * abs (deriv x)

/-- `EDP::calc_lambda` (src/relationships.cpp:269-293). -/
def calcLambda (maq : Maq) (f : Fates) (deriv : Dbl → Dbl) (e : Edp) (y : Dbl) : Dbl :=
  orNaN (maq (lambdaIntegrand f deriv e y))

/-! ## Component groups -/

/-- The loss functions (src/loss_functions.h). -/
inductive LossFn where
  | simple (ds : List LogNormalDist)
  | biLevel (ls : List Loss.BiLevel)

/-- `LossFn::CalculateLoss` (src/loss_functions.cpp:18-21). -/
def LossFn.calculate : LossFn → List Dbl → ℤ → Dbl → Loss.Outcome LogNormalDist
  | .simple ds => Loss.simple ds
  | .biLevel ls => Loss.biLevel ls

/-- `CompGroup::cost_EDP_dist` and `delay_EDP_dist` (src/comp_group.cpp:52-69); `none` is the NULL loss
function. -/
def lossEdpDist (loss : Option LossFn) (states : List LogNormalDist) (count : ℤ) (adj edp : Dbl) :
    Loss.Outcome LogNormalDist :=
  match loss with
  | none => .ok LogNormalDist.unset
  | some l => l.calculate (Fragility.pHighest states edp) count adj

/-- The GSL routines `gsl_deriv_central`, `_forward`, `_backward` at step 1E-8 (external). -/
structure Gsl where
  central : (Dbl → Dbl) → Dbl → Dbl
  forward : (Dbl → Dbl) → Dbl → Dbl
  backward : (Dbl → Dbl) → Dbl → Dbl

/-- The derivative of a local lambda with its fallbacks (src/comp_group.cpp:305-307, 353-355, 458-460,
506-508, 590-592). -/
def Gsl.deriv (g : Gsl) (h : Dbl → Dbl) (x : Dbl) : Dbl :=
  let d := g.central h x
  let d := if isNaN d then g.forward h x else d
  if isNaN d then g.backward h x else d

/-- What the calculations of a group read.  `dist`: `cost_EDP_dist` or `delay_EDP_dist` at a demand (the
case in which it does not throw; throwing is in `lossEdpDist`). -/
structure Group where
  edp : Edp
  states : List LogNormalDist
  count : ℤ
  cost : Dbl → LogNormalDist
  delay : Dbl → LogNormalDist

/-- The exceedance probability differentiated by `E_cost_IM_calc` (src/comp_group.cpp:296-300). -/
def Group.guarded (g : Group) (im x : Dbl) : Dbl :=
  if feq im 0 ∨ x < 0 then 0 else g.edp.pExceedence im x

/-- The integrand of `E_cost_IM_calc` (src/comp_group.cpp:291-315). -/
def costIntegrand (gsl : Gsl) (g : Group) (im edp : Dbl) : Dbl :=
  if feq edp 0 then 0 else (g.cost edp).getMean * abs (gsl.deriv (g.guarded im) edp)

/-- `E_cost_IM_calc` (src/comp_group.cpp:282-324). -/
def eCostIM (maq : Maq) (gsl : Gsl) (g : Group) (im : Dbl) : Dbl :=
  if 0 < g.count then orZero (maq (costIntegrand gsl g im)) else 0

/-- The last part of `SD_ln_cost_IM_calc` and `SD_ln_delay_IM_calc` (src/comp_group.cpp:367-377, 520-530). -/
def sdLnFrom (second mean : Dbl) : Dbl :=
  let sigma := sqrt (second - mean * mean)
  let sigma := if isNaN sigma then 0 else sigma
  let s := sqrt (log (1 + (sigma * sigma) / (mean * mean)))
  if feq mean 0 then 0 else s

/-- The integrand of `SD_ln_cost_IM_calc` (src/comp_group.cpp:334-366). -/
def costSquareIntegrand (gsl : Gsl) (g : Group) (im edp : Dbl) : Dbl :=
  if feq edp 0 then 0
  else ((g.cost edp).getMean * (g.cost edp).getMean + (g.cost edp).getSigma * (g.cost edp).getSigma) *
    abs (gsl.deriv (g.edp.pExceedence im) edp)

/-- `SD_ln_cost_IM_calc` (src/comp_group.cpp:326-384). -/
def sdLnCostIM (maq : Maq) (gsl : Gsl) (g : Group) (im : Dbl) : Dbl :=
  if 0 < g.count then
    let r := maq (costSquareIntegrand gsl g im)
    if r.1 then sdLnFrom r.2 (eCostIM maq gsl g im) else 0
  else 0

/-- `CostDist_IM` (src/comp_group.cpp:265-280). -/
def costDistIM (maq : Maq) (gsl : Gsl) (g : Group) (im : Dbl) : LogNormalDist :=
  LogNormalDist.ofMeanSigmaLn (eCostIM maq gsl g im) (sdLnCostIM maq gsl g im)

/-- The integrand of `E_annual_cost_calc` (src/comp_group.cpp:394-399). -/
def annualIntegrand (maq : Maq) (gsl : Gsl) (g : Group) (deriv : Dbl → Dbl) (im : Dbl) : Dbl :=
  eCostIM maq gsl g im * abs (deriv im)

/-- `E_annual_cost_calc` (src/comp_group.cpp:386-408). -/
def eAnnualCost (maq : Maq) (gsl : Gsl) (g : Group) (deriv : Dbl → Dbl) : Dbl :=
  if 0 < g.count then orZero (maq (annualIntegrand maq gsl g deriv)) else 0

/-- `lambda_cost_calc` (src/comp_group.cpp:410-435). -/
def lambdaCost (maq : Maq) (gsl : Gsl) (g : Group) (deriv : Dbl → Dbl) (cost : Dbl) : Dbl :=
  if 0 < g.count then
    orZero (maq fun im =>
      (LogNormalDist.ofMeanSigmaLn (eCostIM maq gsl g im) (sdLnCostIM maq gsl g im)).pAtLeast cost *
        abs (deriv im))
  else 0

/-- The integrand of `E_delay_IM_calc` (src/comp_group.cpp:444-468). -/
def delayIntegrand (gsl : Gsl) (g : Group) (im edp : Dbl) : Dbl :=
  if feq edp 0 then 0 else (g.delay edp).getMean * abs (gsl.deriv (g.edp.pExceedence im) edp)

/-- `E_delay_IM_calc` (src/comp_group.cpp:437-477). -/
def eDelayIM (maq : Maq) (gsl : Gsl) (g : Group) (im : Dbl) : Dbl :=
  if 0 < g.count then orZero (maq (delayIntegrand gsl g im)) else 0

/-- The integrand of `SD_ln_delay_IM_calc` (src/comp_group.cpp:486-518). -/
def delaySquareIntegrand (gsl : Gsl) (g : Group) (im edp : Dbl) : Dbl :=
  if feq edp 0 then 0
  else
    let e := (g.delay edp).getMean / .fin (g.count : ℝ)
    (e * e + (g.delay edp).getSigma * (g.delay edp).getSigma) * abs (gsl.deriv (g.edp.pExceedence im) edp)

/-- `SD_ln_delay_IM_calc` (src/comp_group.cpp:479-537): the mean is divided by the count, the standard
deviation is not (512-514). -/
def sdLnDelayIM (maq : Maq) (gsl : Gsl) (g : Group) (im : Dbl) : Dbl :=
  if 0 < g.count then
    let n : Dbl := .fin (g.count : ℝ)
    let r := maq (delaySquareIntegrand gsl g im)
    if r.1 then sdLnFrom r.2 (eDelayIM maq gsl g im / n) else 0
  else 0

/-- The integrand of `pDS_IM_calc` (src/comp_group.cpp:576-598). -/
def stateIntegrand (gsl : Gsl) (g : Group) (state : LogNormalDist) (im edp : Dbl) : Dbl :=
  if feq edp 0 then 0 else state.pAtMost edp * abs (gsl.deriv (g.edp.pExceedence im) edp)

/-- `pDS_IM_calc` (src/comp_group.cpp:566-605) for one damage state. -/
def pDSIMcalc (maq : Maq) (gsl : Gsl) (g : Group) (state : LogNormalDist) (im : Dbl) : Dbl :=
  orZero (maq (stateIntegrand gsl g state im))

/-- `pDS_IM` (src/comp_group.cpp:607-614). -/
def pDSIM (maq : Maq) (gsl : Gsl) (g : Group) (im : Dbl) : List Dbl :=
  g.states.map fun d => pDSIMcalc maq gsl g d im

/-- The integrand of `calc_Rate` (src/comp_group.cpp:625-636). -/
def rateIntegrand (maq : Maq) (gsl : Gsl) (g : Group) (deriv : Dbl → Dbl) (state : LogNormalDist) (im : Dbl) : Dbl :=
  if feq im 0 then 0 else pDSIMcalc maq gsl g state im * abs (deriv im)

/-- `calc_Rate` (src/comp_group.cpp:616-644). -/
def calcRate (maq : Maq) (gsl : Gsl) (g : Group) (deriv : Dbl → Dbl) : List Dbl :=
  g.states.map fun d => orNaN (maq (rateIntegrand maq gsl g deriv d))

end

end Slat.Rates
