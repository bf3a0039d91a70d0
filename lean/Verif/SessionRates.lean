import Verif.SessionPlain
import Verif.RatesModel

/-!
# Model of what a session finds by integration

The rates and expected losses of `RatesModel`, read from the objects of `SessionPlain`.  The integrator (`MAQ`) and the
differentiation routines of the GSL are parameters.  Nothing is remembered here between two
analyses; `SessionMemoryModel` adds that.
-/

namespace Slat.Session

noncomputable section

/-- What the calculations of a component group read (/repo/src/comp_group.cpp:52-69, 282-324, 437-477, 566-605). -/
def Group.read (g : Group) : Rates.Group where
  edp := .plain (lawAt g.mu g.sp g.f g.g)
  states := g.states
  count := g.count
  cost := g.loss g.cost g.costAdj
  delay := g.loss (g.delay.getD (.simple [Make.defaultDist])) g.delayAdj

/-- `IM::CollapseRate_calc`, `IM::DemolitionRate_calc` (/repo/src/relationships.cpp:153-202), `EDP::calc_lambda`
(269-293) and the calculations of a group (/repo/src/comp_group.cpp:282-384, 410-537, 566-644); `IM::DerivativeAt`
(/repo/src/relationships.cpp:123-151) is the same scheme as in the groups.  `Structure::AnnualCost`
(/repo/src/structure.cpp:187-231). -/
def integrated (maq : Rates.Maq) (gsl : Rates.Gsl) : Numerics where
  group g :=
    { eCostIm := Rates.eCostIM maq gsl g.read
      sdLnCostIm := Rates.sdLnCostIM maq gsl g.read
      eDelayIm := Rates.eDelayIM maq gsl g.read
      sdLnDelayIm := Rates.sdLnDelayIM maq gsl g.read
      pDsIm := Rates.pDSIMcalc maq gsl g.read
      rate := fun d => Rates.orNaN (maq (Rates.rateIntegrand maq gsl g.read (gsl.deriv g.curve) d))
      lambdaCost := Rates.lambdaCost maq gsl g.read (gsl.deriv g.curve) }
  edpRate curve fates law := Rates.calcLambda maq fates (gsl.deriv curve) (.plain law)
  collapseRate curve fates := Rates.collapseRate maq fates (gsl.deriv curve)
  demolitionRate curve fates := Rates.demolitionRate maq fates (gsl.deriv curve)
  slope curve := gsl.deriv curve
  annual curve total := calcAnnualCost maq true total (gsl.deriv curve)

end

end Slat.Session
