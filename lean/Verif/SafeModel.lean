import Verif.FragilityModel
import Verif.LogNormalFnModel
import Verif.StructureModel

/-!
# Which queries return

Every query on intensity measures, EDPs, component groups and structures (src/relationships.cpp, src/comp_group.cpp,
src/structure.cpp), with the ways in which it may fail to return: a C++ exception, the use of a null pointer, a
recursion that exhausts the stack, undefined arithmetic on `int`.  The extension has no exception handler, and an
exception that leaves an OpenMP region ends the process, so each of them ends the process.

Simplifications: objects hold the data that the queries read; caches are transparent (C02); the order of the sections
of src/comp_group.cpp:263-272 is that of the text; GSL calls return; a distribution, once made, answers everything
(src/lognormaldist.cpp has one exception only, that of `AddWeightedDistributions`).
-/

namespace Slat.Safe

open Slat Dbl Classical

noncomputable section

/-- How a call may fail to return.  There is no single line to cite: an exception (e.g. src/lognormaldist.cpp:173), the
use of a null pointer (e.g. src/structure.cpp:120), recursion without end (src/functions.cpp:352-356), undefined `int`
arithmetic (src/loss_functions.cpp:112). -/
inductive Fault where
  | thrown
  | null
  | stack
  | undefined
  deriving DecidableEq

/-- A call: its value, or the way in which it ends the process. -/
abbrev Run (α : Type) := Except Fault α

/-- A numerical routine that evaluates a function at points of its choice, each chosen after the values at the
earlier points are known, and then answers: `Integration::MAQ` (src/maq.cpp:548-710) and the differences
`gsl_deriv_central`, `gsl_deriv_forward`, `gsl_deriv_backward` (external).  Only their shape matters here. -/
inductive Probe (α : Type) where
  | done (a : α)
  | ask (x : Dbl) (next : Dbl → Probe α)

/-- The routine at work on a function that may not return (src/maq.cpp:548-710): the first evaluation that does not
return ends it. -/
def Probe.run {α : Type} : Probe α → (Dbl → Run Dbl) → Run α
  | .done a, _ => .ok a
  | .ask x next, f =>
    match f x with
    | .ok y => (next y).run f
    | .error e => .error e

/-- The surroundings of a query: the integration routine (with its settings, src/maq.cpp:548-563), the numerical
derivative at a point (src/relationships.cpp:138-142, src/comp_group.cpp:293-297), the derivative of an EDP's rate
(src/relationships.cpp:225), and the number of nested calls of lambdas that the stack allows
(src/functions.cpp:316-361). -/
structure Env where
  maq : Probe (Bool × Dbl)
  deriv : Dbl → Probe Dbl
  forward : Dbl → Probe Dbl
  depth : ℕ

/-- A `LogNormalFn` that was constructed (src/functions.cpp:312-362): two functions and their meanings. -/
structure ProbFn where
  mu : Dbl → Dbl
  sigma : Dbl → Dbl
  mt : LogNormalFn.MType
  st : LogNormalFn.SType

/-- `LogNormalFn::distribution` (src/functions.cpp:399-403). -/
def ProbFn.dist (E : Env) (p : ProbFn) (x : Dbl) : Run LogNormalDist :=
  match LogNormalFn.distribution p.mt p.st (p.mu x) (p.sigma x) E.depth with
  | some d => .ok d
  | none => .error .stack

/-- An `IM` that was constructed (src/relationships.cpp:38-57): identity, hazard curve, fates. -/
structure Im where
  id : ℕ
  rate : Dbl → Dbl
  fates : Fates

/-- `IM::lambda` (src/relationships.cpp:60-63). -/
def Im.lambda (m : Im) (x : Dbl) : Run Dbl := .ok (m.rate x)

/-- `IM::DerivativeAt` (src/relationships.cpp:117-146). -/
def Im.derivativeAt (E : Env) (m : Im) (x : Dbl) : Run Dbl := (E.deriv x).run m.lambda

/-- `IM::CollapseRate_calc` (src/relationships.cpp:148-173). -/
def Im.collapseRate (E : Env) (m : Im) : Run Dbl :=
  match m.fates.collapse with
  | some _ => do
    let r ← E.maq.run fun x => do
      let d ← m.derivativeAt E x
      return abs d * m.fates.pCollapse x
    return if r.1 then r.2 else .nan
  | none => .ok 0

/-- `IM::DemolitionRate_calc` (src/relationships.cpp:175-199). -/
def Im.demolitionRate (E : Env) (m : Im) : Run Dbl :=
  match m.fates.demolition with
  | some _ => do
    let r ← E.maq.run fun x => do
      let d ← m.derivativeAt E x
      return abs d * m.fates.pDemolition x
    return if r.1 then r.2 else .nan
  | none => .ok 0

/-- An `EDP` (src/relationships.cpp:230-259) or, with a second function, a `CompoundEDP` (379-397). -/
structure Edp where
  im : Im
  dep : ProbFn
  second : Option ProbFn

/-- The distribution from which a query on an EDP is answered: `dependent_rate` (src/relationships.cpp:296-376), or the one
chosen by `WhichToUse` (399-405), which asks both functions for their mean. -/
def Edp.dist (E : Env) (e : Edp) (x : Dbl) : Run LogNormalDist :=
  match e.second with
  | none => e.dep.dist E x
  | some q => do
    let a ← e.dep.dist E x
    let b ← q.dist E x
    if b.getMean < a.getMean then e.dep.dist E x else q.dist E x

/-- `EDP::P_exceedence`, `CompoundEDP::P_exceedence` (src/relationships.cpp:296-299, 490-501). -/
def Edp.pExceedence (E : Env) (e : Edp) (x y : Dbl) : Run Dbl := do
  let d ← e.dist E x
  return d.pAtLeast y

/-- `EDP::X_at_exceedence`, `CompoundEDP::X_at_exceedence` (src/relationships.cpp:301-304, 503-515). -/
def Edp.xAtExceedence (E : Env) (e : Edp) (x p : Dbl) : Run Dbl := do
  let d ← e.dist E x
  return d.xAtP p

/-- `Mean`, `MeanLn`, `Median`, `SD_ln`, `SD` (src/relationships.cpp:317-376, 407-488): a getter applied to the
distribution. -/
def Edp.get (E : Env) (e : Edp) (f : LogNormalDist → Dbl) (x : Dbl) : Run Dbl := do
  let d ← e.dist E x
  return f d

/-- `EDP::calc_lambda` (src/relationships.cpp:261-294). -/
def Edp.lambda (E : Env) (e : Edp) (y : Dbl) : Run Dbl := do
  let r ← E.maq.run fun x =>
    if x = 0 then .ok 0
    else do
      let d ← e.im.derivativeAt E x
      let p ← e.pExceedence E x y
      return (p * e.im.fates.pRepair x + (1 - e.im.fates.pRepair x)) * abs d
  return if r.1 then r.2 else .nan

/-- `EDP::DerivativeAt` (src/relationships.cpp:202-228). -/
def Edp.derivativeAt (E : Env) (e : Edp) (x : Dbl) : Run Dbl := (E.forward x).run (e.lambda E)

/-- A loss function (src/loss_functions.h:20-101): the base class, which may be handed over in C++ only, one
distribution per damage state, or two levels per damage state. -/
inductive Loss where
  | base
  | simple (ds : List LogNormalDist)
  | biLevel (ls : List Loss.BiLevel)

/-- The outcome of a call of a loss function in the terms of this file (src/loss_functions.cpp:18-137). -/
def ofOutcome {α : Type} : Slat.Loss.Outcome α → Run α
  | .ok a => .ok a
  | .throws => .error .thrown
  | .undefined => .error .undefined

/-- `LossFn::CalculateLoss` (src/loss_functions.cpp:18-27, 57-62, 123-137). -/
def Loss.calculate (l : Loss) (probabilities : List Dbl) (count : ℤ) (adjustment : Dbl) : Run LogNormalDist :=
  match l with
  | .base => .error .thrown
  | .simple ds => ofOutcome (Slat.Loss.simple ds probabilities count adjustment)
  | .biLevel ls => ofOutcome (Slat.Loss.biLevel ls probabilities count adjustment)

/-- A `CompGroup` that was constructed (src/comp_group.cpp:24-181): identity, EDP, damage states, cost and delay functions
(`none` is a null pointer), count, adjustment factors. -/
structure Group where
  id : ℕ
  edp : Edp
  states : List LogNormalDist
  cost : Option Loss
  delay : Option Loss
  count : ℤ
  costAdj : Dbl
  delayAdj : Dbl

/-- The loss at an EDP value by one of the two loss functions (src/comp_group.cpp:51-68). -/
def Group.lossEdp (g : Group) (fn : Option Loss) (adj x : Dbl) : Run LogNormalDist :=
  match fn with
  | none => .ok LogNormalDist.unset
  | some l => l.calculate (Fragility.pHighest g.states x) g.count adj

/-- `cost_EDP_dist` (src/comp_group.cpp:51-59). -/
def Group.costEdp (g : Group) (x : Dbl) : Run LogNormalDist := g.lossEdp g.cost g.costAdj x

/-- `delay_EDP_dist` (src/comp_group.cpp:60-68). -/
def Group.delayEdp (g : Group) (x : Dbl) : Run LogNormalDist := g.lossEdp g.delay g.delayAdj x

/-- The numerical derivative of `P_exceedence(im, ·)` in the integrands (src/comp_group.cpp:285-297 and its copies
330-349, 453-465, 496-514, 566-576); the exceedance at `im == 0` or a negative value is replaced after it was
calculated (287-288), which changes no outcome. -/
def Group.slope (E : Env) (g : Group) (im x : Dbl) : Run Dbl := (E.deriv x).run (g.edp.pExceedence E im)

/-- `E_cost_IM_calc` and `E_delay_IM_calc` (src/comp_group.cpp:277-315, 439-483), given the loss at an EDP value. -/
def Group.meanIm (E : Env) (g : Group) (loss : Dbl → Run LogNormalDist) (im : Dbl) : Run Dbl :=
  if 0 < g.count then do
    let r ← E.maq.run fun x =>
      if x = 0 then .ok 0
      else do
        let d ← g.slope E im x
        let l ← loss x
        return l.getMean * abs d
    return if r.1 then r.2 else 0
  else .ok 0

/-- The standard deviation of the logarithm from the two moments (src/comp_group.cpp:365-374, 527-536). -/
def sdLnOf (mean square : Dbl) : Dbl :=
  let s := sqrt (square - mean * mean)
  let s := if s.isNaN then 0 else s
  if mean = 0 then 0 else sqrt (log (1 + (s * s) / (mean * mean)))

/-- `SD_ln_cost_IM_calc` and `SD_ln_delay_IM_calc` (src/comp_group.cpp:317-381, 485-543), given the loss at an EDP value
and the number by which the delay's mean is divided (516, 527; 1 for costs). -/
def Group.sdIm (E : Env) (g : Group) (loss : Dbl → Run LogNormalDist) (div : Dbl) (im : Dbl) : Run Dbl :=
  if 0 < g.count then do
    let r ← E.maq.run fun x =>
      if x = 0 then .ok 0
      else do
        let d ← g.slope E im x
        let l ← loss x
        let m := l.getMean / div
        let l ← loss x
        let s := l.getSigma
        return (m * m + s * s) * abs d
    if r.1 then do
      let m ← g.meanIm E loss im
      return sdLnOf (m / div) r.2
    else return 0
  else .ok 0

/-- `E_cost_IM` (src/comp_group.cpp:277-315). -/
def Group.eCostIm (E : Env) (g : Group) (im : Dbl) : Run Dbl := g.meanIm E g.costEdp im
/-- `SD_ln_cost_IM` (src/comp_group.cpp:317-381). -/
def Group.sdCostIm (E : Env) (g : Group) (im : Dbl) : Run Dbl := g.sdIm E g.costEdp 1 im
/-- `E_delay_IM` (src/comp_group.cpp:439-483). -/
def Group.eDelayIm (E : Env) (g : Group) (im : Dbl) : Run Dbl := g.meanIm E g.delayEdp im
/-- `SD_ln_delay_IM` (src/comp_group.cpp:485-543). -/
def Group.sdDelayIm (E : Env) (g : Group) (im : Dbl) : Run Dbl := g.sdIm E g.delayEdp (.fin (g.count : ℝ)) im

/-- `CostDist_IM` (src/comp_group.cpp:260-275). -/
def Group.costDistIm (E : Env) (g : Group) (im : Dbl) : Run LogNormalDist := do
  let m ← g.eCostIm E im
  let s ← g.sdCostIm E im
  return LogNormalDist.ofMeanSigmaLn m s

/-- `E_annual_cost_calc` (src/comp_group.cpp:383-407). -/
def Group.annualCost (E : Env) (g : Group) : Run Dbl :=
  if 0 < g.count then do
    let r ← E.maq.run fun im => do
      let c ← g.eCostIm E im
      let d ← g.edp.im.derivativeAt E im
      return c * abs d
    return if r.1 then r.2 else 0
  else .ok 0

/-- `lambda_cost_calc` (src/comp_group.cpp:409-437). -/
def Group.lambdaCost (E : Env) (g : Group) (cost : Dbl) : Run Dbl :=
  if 0 < g.count then do
    let r ← E.maq.run fun im => do
      let m ← g.eCostIm E im
      let s ← g.sdCostIm E im
      let d ← g.edp.im.derivativeAt E im
      return (LogNormalDist.ofMeanSigmaLn m s).pAtLeast cost * abs d
    return if r.1 then r.2 else 0
  else .ok 0

/-- `pDS_IM_calc` for one damage state (src/comp_group.cpp:572-611). -/
def Group.pDsOne (E : Env) (g : Group) (d : LogNormalDist) (im : Dbl) : Run Dbl := do
  let r ← E.maq.run fun x =>
    if x = 0 then .ok 0
    else do
      let s ← g.slope E im x
      return d.pAtMost x * abs s
  return if r.1 then r.2 else 0

/-- `pDS_IM` (src/comp_group.cpp:613-620). -/
def Group.pDs (E : Env) (g : Group) (im : Dbl) : Run (List Dbl) := g.states.mapM fun d => g.pDsOne E d im

/-- `calc_Rate` (src/comp_group.cpp:622-651). -/
def Group.rate (E : Env) (g : Group) : Run (List Dbl) :=
  g.states.mapM fun d => do
    let r ← E.maq.run fun im =>
      if im = 0 then .ok 0
      else do
        let s ← g.edp.im.derivativeAt E im
        let p ← g.pDsOne E d im
        return p * abs s
    return if r.1 then r.2 else .nan

/-- Printing a component group (src/comp_group.cpp:646-656): both loss functions are used without looking; the text is
left out. -/
def Group.print (g : Group) : Run Unit :=
  match g.cost, g.delay with
  | some _, some _ => .ok ()
  | _, _ => .error .null

/-- A structure (src/structure.h:56-60): its component groups, its intensity measure, two costs. -/
structure Building where
  comps : List Group
  im : Option Im
  rebuild : LogNormalDist
  demolition : LogNormalDist

/-- A new structure (src/structure.cpp:23-26). -/
def Building.init : Building := ⟨[], none, LogNormalDist.unset, LogNormalDist.unset⟩

/-- `AddCompGroup` (src/structure.cpp:43-70): new state and, if it does not return, how. -/
def Building.add (s : Building) (g : Group) : Building × Run Unit :=
  let s₁ := if s.comps.length = 0 then { s with im := some g.edp.im } else s
  match s₁.im with
  | some m =>
    if g.edp.im.id ≠ m.id then (s₁, .error .thrown)
    else ({ s₁ with comps := s₁.comps ++ [g] }, .ok ())
  | none => (s₁, .error .thrown)

/-- The loop of `RemoveCompGroup` (src/structure.cpp:74-80). -/
def removeFirst (id : ℕ) : List Group → List Group
  | [] => []
  | h :: t => if h.id = id then t else h :: removeFirst id t

/-- `RemoveCompGroup` (src/structure.cpp:72-81): the intensity measure stays. -/
def Building.remove (s : Building) (id : ℕ) : Building := { s with comps := removeFirst id s.comps }

/-- `CostNC` (src/structure.cpp:83-92). -/
def Building.costNC (E : Env) (s : Building) (x : Dbl) : Run LogNormalDist := do
  let ds ← s.comps.mapM fun g => g.costDistIm E x
  return LogNormalDist.addDistributions ds

/-- `Cost` (src/structure.cpp:94-112). -/
def Building.cost (E : Env) (s : Building) (x : Dbl) (considerCollapse : Bool) : Run LogNormalDist := do
  let nc ← s.costNC E x
  if considerCollapse then
    match s.im with
    | some m =>
      match LogNormalDist.addWeighted [nc, s.rebuild] [1 - m.fates.pCollapse x, m.fates.pCollapse x] with
      | some d => return d
      | none => .error .thrown
    | none => return LogNormalDist.ofMeanSigmaLn .nan .nan
  else return nc

/-- The data from which the costs of a structure are put together when its groups' costs are known
(src/structure.cpp:83-92). -/
def Building.known (s : Building) (ds : List LogNormalDist) : StructCosts :=
  ⟨fun _ => ds, s.im.map Im.fates, s.rebuild, s.demolition⟩

/-- `TotalCost` (src/structure.cpp:114-148): the groups' costs first, then the intensity measure without looking. -/
def Building.totalCost (E : Env) (s : Building) (x : Dbl) : Run LogNormalDist := do
  let ds ← s.comps.mapM fun g => g.costDistIm E x
  match (s.known ds).totalCost x with
  | some d => return d
  | none => .error .null

/-- `DeaggregatedCost` (src/structure.cpp:165-174). -/
def Building.deaggregated (E : Env) (s : Building) (x : Dbl) : Run (LogNormalDist × LogNormalDist) := do
  let ds ← s.comps.mapM fun g => g.costDistIm E x
  match (s.known ds).deaggregated x with
  | some d => return d
  | none => .error .null

/-- `CostsByFate` (src/structure.cpp:176-185): nothing is calculated without an intensity measure. -/
def Building.costsByFate (E : Env) (s : Building) (x : Dbl) : Run (LogNormalDist × LogNormalDist × LogNormalDist) :=
  match s.im with
  | some _ => do
    let ds ← s.comps.mapM fun g => g.costDistIm E x
    return (s.known ds).costsByFate x
  | none => .ok (LogNormalDist.unset, LogNormalDist.unset, LogNormalDist.unset)

/-- The derivative of the hazard curve of a structure's intensity measure, used without looking
(src/structure.cpp:39, 207, 222). -/
def Building.derivativeAt (E : Env) (s : Building) (x : Dbl) : Run Dbl :=
  match s.im with
  | some m => m.derivativeAt E x
  | none => .error .null

/-- `pdf` (src/structure.cpp:37-40). -/
def Building.pdf (E : Env) (s : Building) (x : Dbl) : Run Dbl := do
  let t ← s.totalCost E x
  let d ← s.derivativeAt E x
  return t.getMean * abs d

/-- `calc_AnnualCost` (src/structure.cpp:187-231). -/
def Building.annualCost (E : Env) (s : Building) : Run LogNormalDist :=
  if 0 < s.comps.length then do
    let r ← E.maq.run fun x => do
      let t ← s.totalCost E x
      let d ← s.derivativeAt E x
      return t.getMean * abs d
    let mu := if r.1 then r.2 else .nan
    let r ← E.maq.run fun x => do
      let t ← s.totalCost E x
      let t' ← s.totalCost E x
      let d ← s.derivativeAt E x
      return (t.getMean * t.getMean + t'.getSigma * t'.getSigma) * abs d
    let beta := if r.1 then r.2 else .nan
    return LogNormalDist.ofMeanSigma mu (sqrt (abs (beta - mu * mu)))
  else return LogNormalDist.ofMeanSigma .nan .nan

/-- `E_cost` (src/structure.cpp:150-153). -/
def Building.eCost (E : Env) (s : Building) (year : ℤ) (rate : Dbl) : Run Dbl := do
  let a ← s.annualCost E
  return discounted a.getMean year rate

/-- The queries on a structure (src/structure.h:29-46). -/
inductive Query where
  | cost (x : Dbl) (considerCollapse : Bool)
  | totalCost (x : Dbl)
  | deaggregated (x : Dbl)
  | costsByFate (x : Dbl)
  | pdf (x : Dbl)
  | annualCost
  | eCost (year : ℤ) (rate : Dbl)

/-- The answer to a query on a structure, reduced to whether and how it returns. -/
def Building.ask (E : Env) (s : Building) : Query → Run Unit
  | .cost x c => (s.cost E x c).map fun _ => ()
  | .totalCost x => (s.totalCost E x).map fun _ => ()
  | .deaggregated x => (s.deaggregated E x).map fun _ => ()
  | .costsByFate x => (s.costsByFate E x).map fun _ => ()
  | .pdf x => (s.pdf E x).map fun _ => ()
  | .annualCost => (s.annualCost E).map fun _ => ()
  | .eCost y r => (s.eCost E y r).map fun _ => ()

/-- The queries on a component group (src/comp_group.h:60-200). -/
inductive GroupQuery where
  | costEdp (x : Dbl)
  | delayEdp (x : Dbl)
  | eCostIm (x : Dbl)
  | sdCostIm (x : Dbl)
  | eDelayIm (x : Dbl)
  | sdDelayIm (x : Dbl)
  | costDistIm (x : Dbl)
  | annualCost
  | lambdaCost (c : Dbl)
  | pDs (x : Dbl)
  | rate

/-- The answer to a query on a component group, reduced to whether and how it returns (src/comp_group.cpp:222-651). -/
def Group.ask (E : Env) (g : Group) : GroupQuery → Run Unit
  | .costEdp x => (g.costEdp x).map fun _ => ()
  | .delayEdp x => (g.delayEdp x).map fun _ => ()
  | .eCostIm x => (g.eCostIm E x).map fun _ => ()
  | .sdCostIm x => (g.sdCostIm E x).map fun _ => ()
  | .eDelayIm x => (g.eDelayIm E x).map fun _ => ()
  | .sdDelayIm x => (g.sdDelayIm E x).map fun _ => ()
  | .costDistIm x => (g.costDistIm E x).map fun _ => ()
  | .annualCost => (g.annualCost E).map fun _ => ()
  | .lambdaCost c => (g.lambdaCost E c).map fun _ => ()
  | .pDs x => (g.pDs E x).map fun _ => ()
  | .rate => (g.rate E).map fun _ => ()

/-- The queries on an EDP (src/relationships.h:150-230). -/
inductive EdpQuery where
  | get (f : LogNormalDist → Dbl) (x : Dbl)
  | pExceedence (x y : Dbl)
  | xAtExceedence (x p : Dbl)
  | lambda (y : Dbl)
  | derivativeAt (y : Dbl)

/-- The answer to a query on an EDP, reduced to whether and how it returns (src/relationships.cpp:202-376). -/
def Edp.ask (E : Env) (e : Edp) : EdpQuery → Run Unit
  | .get f x => (e.get E f x).map fun _ => ()
  | .pExceedence x y => (e.pExceedence E x y).map fun _ => ()
  | .xAtExceedence x p => (e.xAtExceedence E x p).map fun _ => ()
  | .lambda y => (e.lambda E y).map fun _ => ()
  | .derivativeAt y => (e.derivativeAt E y).map fun _ => ()

/-- An operation on the list of component groups (src/structure.h:25-27). -/
inductive Op where
  | add (g : Group)
  | remove (id : ℕ)

/-- One operation (src/structure.cpp:43-81). -/
def Building.step (s : Building) : Op → Building × Run Unit
  | .add g => s.add g
  | .remove id => (s.remove id, .ok ())

/-- A sequence of operations: the first that does not return ends the program. -/
def Building.steps (s : Building) : List Op → Building × Run Unit
  | [] => (s, .ok ())
  | o :: os =>
    match s.step o with
    | (s', .ok _) => s'.steps os
    | (s', .error e) => (s', .error e)

end

end Slat.Safe
