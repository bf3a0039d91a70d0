import Verif.SafeModel

/-!
# What a query needs

What a model must have for a query to be answered, stated on its parts without the calculations.
-/

namespace Slat.Safe

open Slat Dbl Classical

/-- The call returns. -/
def Returns {α : Type} (r : Run α) : Prop := ∃ a, r = .ok a

/-- The routine evaluates the function at least at one point that is not 0, whatever values it receives. -/
def Probe.Tries {α : Type} : Probe α → Prop
  | .done _ => False
  | .ask x next => x ≠ 0 ∨ ∀ y, (next y).Tries

/-- The routine evaluates the function at least once. -/
def Probe.Asks {α : Type} : Probe α → Prop
  | .done _ => False
  | .ask _ _ => True

/-- The surroundings are in order: the stack holds four nested calls, the integration looks at a point other than 0,
the differences look at a point. -/
structure Env.Works (E : Env) : Prop where
  depth : 4 ≤ E.depth
  maq : E.maq.Tries
  deriv : ∀ x, (E.deriv x).Asks
  forward : ∀ x, (E.forward x).Asks

/-- The function gives the mean, or the standard deviation of the logarithm; with the median or the mean of the
logarithm and the plain standard deviation there is nothing to start from. -/
def ProbFn.Sound (p : ProbFn) : Prop := p.st = .sigmaLnX ∨ p.mt = .meanX

/-- What the constructor of `LogNormalFn` accepts. -/
def ProbFn.Made (p : ProbFn) : Prop := p.mt ≠ .invalid ∧ p.st ≠ .invalid

/-- All functions of the EDP are sound. -/
def Edp.Sound (e : Edp) : Prop := e.dep.Sound ∧ ∀ q ∈ e.second, q.Sound

/-- All functions of the EDP were constructed. -/
def Edp.Made (e : Edp) : Prop := e.dep.Made ∧ ∀ q ∈ e.second, q.Made

/-- A loss function fits a number of damage states and a number of components: one distribution per state, and,
between the two levels, a difference of counts that is an `int`. -/
def Loss.Fits (n : ℕ) (count : ℤ) : Loss → Prop
  | .base => False
  | .simple ds => ds.length = n
  | .biLevel ls => ls.length = n ∧ ∀ l ∈ ls,
      count ≤ l.countMin ∨ l.countMax ≤ count ∨ Slat.Loss.inInt (l.countMax - l.countMin)

/-- The cost function, if any, fits. -/
def Group.CostFits (g : Group) : Prop := ∀ l ∈ g.cost, l.Fits g.states.length g.count

/-- The delay function, if any, fits. -/
def Group.DelayFits (g : Group) : Prop := ∀ l ∈ g.delay, l.Fits g.states.length g.count

/-- What a query on a component group needs. -/
def Group.Needs (g : Group) : GroupQuery → Prop
  | .costEdp _ => g.CostFits
  | .delayEdp _ => g.DelayFits
  | .eCostIm _ | .sdCostIm _ | .costDistIm _ | .annualCost | .lambdaCost _ => 0 < g.count → g.edp.Sound ∧ g.CostFits
  | .eDelayIm _ | .sdDelayIm _ => 0 < g.count → g.edp.Sound ∧ g.DelayFits
  | .pDs _ | .rate => g.states ≠ [] → g.edp.Sound

/-- The costs of all component groups can be calculated. -/
def Building.Ready (s : Building) : Prop := ∀ g ∈ s.comps, 0 < g.count → g.edp.Sound ∧ g.CostFits

/-- What a query on a structure needs. -/
def Building.Needs (s : Building) : Query → Prop
  | .cost _ _ => s.Ready
  | .totalCost _ | .deaggregated _ | .pdf _ => s.Ready ∧ s.im ≠ none
  | .costsByFate _ => s.im ≠ none → s.Ready
  | .annualCost | .eCost _ _ => s.comps ≠ [] → s.Ready ∧ s.im ≠ none

/-- The group is complete: its functions were made and are sound, its loss functions fit. -/
def Group.Complete (g : Group) : Prop := g.edp.Made ∧ g.edp.Sound ∧ g.CostFits ∧ g.DelayFits

/-- All groups added are complete and belong to the given intensity measure. -/
def AllComplete (id : ℕ) (ops : List Op) : Prop :=
  ∀ g, Op.add g ∈ ops → g.Complete ∧ g.edp.im.id = id

/-- Some group is added. -/
def SomeAdded (ops : List Op) : Prop := ∃ g, Op.add g ∈ ops

/-- The queries that use the intensity measure without looking. -/
def Query.Bare : Query → Prop
  | .totalCost _ | .deaggregated _ | .pdf _ => True
  | _ => False

end Slat.Safe
