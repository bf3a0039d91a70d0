import Verif.SessionRatesSpec

/-!
# Specification: what a structure costs, in formulas
-/

namespace Slat.Session.Spec

open MeasureTheory Set

noncomputable section

open Interp (Mu Sd)

/-- What the integral for the mean cost of a group at an intensity is of. -/
def costOver (G : Components) (x y : ℝ) : ℝ := expected G G.cost G.costFactor y * density (G.law.at_ x) y

/-- What the integral for its mean square is of. -/
def squareOver (G : Components) (x y : ℝ) : ℝ := expectedSquare G G.cost G.costFactor y * density (G.law.at_ x) y

/-- The mean cost of a group at an intensity. -/
def groupMean (G : Components) (x : ℝ) : ℝ := ∫ y in Ioi (0 : ℝ), costOver G x y

/-- Its mean square. -/
def groupSquare (G : Components) (x : ℝ) : ℝ := ∫ y in Ioi (0 : ℝ), squareOver G x y

/-- What the integrator finds for the mean cost of a group at an intensity and for its mean square. -/
def FindsCost (maq : Rates.Maq) (x : ℝ) (G : Components) (v : ℝ × ℝ) : Prop :=
  Finds maq (costOver G x) v.1 ∧ Finds maq (squareOver G x) v.2

/-- A group whose cost at an intensity can be found up to an error of `ε` and is not found to be less than nothing. -/
structure Payable (maq : Rates.Maq) (ε : ℝ) (x : ℝ) (G : Components) : Prop where
  count : 0 < G.count
  law : G.law.Meant
  onsets : ∀ q ∈ G.onsets, Meant q.1 q.2.1 q.2.2.1 q.2.2.2 ∧ 0 < q.2.2.2
  order : ∀ y, 0 < y → (reached G.onsets y).Pairwise (fun a b => b ≤ a)
  fits : Fits G G.cost
  cost : G.cost.Meant
  factor : 0 ≤ G.costFactor
  mean : Answers maq ε (costOver G x)
  square : Answers maq ε (squareOver G x)
  some_ : ∀ v, Finds maq (costOver G x) v → 0 ≤ v

/-- The mean square that counts for a loss of which a mean and a mean square are found: at least the square of the mean, and
nothing for a loss that is found to be nothing. -/
def squareFor (v : ℝ × ℝ) : ℝ := open Classical in if v.1 = 0 then 0 else max v.2 (v.1 ^ 2)

/-- Mean and mean square of a sum of losses, of which the means and the mean squares are given; they do not depend on each other
(/repo/src/lognormaldist.cpp:208-229). -/
def sumOf (l : List (ℝ × ℝ)) : ℝ × ℝ :=
  ((l.map (·.1)).sum, (l.map (·.1)).sum ^ 2 + (l.map fun v => squareFor v - v.1 ^ 2).sum)

/-- Mean and mean square of a cost that is set by a command; nothing if it is not set. -/
def costOf : Option (Mu × Sd × ℝ × ℝ) → ℝ × ℝ
  | none => (0, 0)
  | some (mu, sp, a, b) =>
    (mean (logPair mu sp a b), mean (logPair mu sp a b) ^ 2 * Real.exp ((logPair mu sp a b).2 ^ 2))

/-- Mean and mean square of the cost of a structure at an intensity: it is repaired, or demolished, or it collapses and is rebuilt.
`l` has the costs of the groups. -/
def total (c d r k : Option (Mu × Sd × ℝ × ℝ)) (x : ℝ) (l : List (ℝ × ℝ)) : ℝ × ℝ :=
  ((1 - pLost c d x) * (sumOf l).1 + pDemolition c d x * (costOf k).1 + pCollapse c x * (costOf r).1,
    (1 - pLost c d x) * (sumOf l).2 + pDemolition c d x * (costOf k).2 + pCollapse c x * (costOf r).2)

/-- The mean cost of a structure at an intensity, from what the script says. -/
def meanTotal (c d r k : Option (Mu × Sd × ℝ × ℝ)) (Gs : List Components) (x : ℝ) : ℝ :=
  (1 - pLost c d x) * (Gs.map fun G => groupMean G x).sum + pDemolition c d x * (costOf k).1 +
    pCollapse c x * (costOf r).1

/-- Laws that can be meant so, and costs for what can happen. -/
structure Covered (c d r k : Option (Mu × Sd × ℝ × ℝ)) : Prop where
  collapse : ∀ q ∈ c, Meant q.1 q.2.1 q.2.2.1 q.2.2.2 ∧ 0 < q.2.2.2
  demolition : ∀ q ∈ d, Meant q.1 q.2.1 q.2.2.1 q.2.2.2 ∧ 0 < q.2.2.2
  rebuild : ∀ q ∈ r, Meant q.1 q.2.1 q.2.2.1 q.2.2.2
  clear : ∀ q ∈ k, Meant q.1 q.2.1 q.2.2.1 q.2.2.2
  price : c.isSome → r.isSome
  fee : d.isSome → k.isSome

/-- Totals that can come of what the integrator finds for the groups. -/
def Totals (maq : Rates.Maq) (c d r k : Option (Mu × Sd × ℝ × ℝ)) (Gs : List Components) (T : ℝ → ℝ × ℝ) : Prop :=
  ∀ x, 0 < x → ∃ l, List.Forall₂ (FindsCost maq x) Gs l ∧ T x = total c d r k x l

/-- The integrator can find the annual cost, up to an error of `ε'`, whatever totals it has found at the intensities. -/
structure Yearly (maq : Rates.Maq) (ε' : ℝ) (c d r k : Option (Mu × Sd × ℝ × ℝ)) (Gs : List Components) (h' : ℝ → ℝ) :
    Prop where
  weight : IntegrableOn (fun x => |h' x|) (Ioi 0)
  whole : IntegrableOn (fun x => meanTotal c d r k Gs x * |h' x|) (Ioi 0)
  mean : ∀ T, Totals maq c d r k Gs T → Answers maq ε' fun x => (T x).1 * |h' x|
  square : ∀ T, Totals maq c d r k Gs T → Answers maq ε' fun x => (T x).2 * |h' x|
  some_ : ∀ T v, Totals maq c d r k Gs T → Finds maq (fun x => (T x).1 * |h' x|) v → 0 ≤ v

/-- What happens in a year, from what happens at every intensity and the slope of the hazard curve. -/
def perYear (φ h' : ℝ → ℝ) : ℝ := ∫ x in Ioi (0 : ℝ), φ x * |h' x|

/-- Mean costs and mean squares of groups at an intensity, up to an error of `ε`. -/
def Near (ε x : ℝ) (Gs : List Components) (l : List (ℝ × ℝ)) : Prop :=
  List.Forall₂ (fun G v => |v.1 - groupMean G x| ≤ ε ∧ |v.2 - groupSquare G x| ≤ ε) Gs l

/-- What a script says about a structure: its groups and the hazard of their intensity measure, by the commands of `l`, and what
collapse and demolition depend on and cost, by the commands of `l'`. -/
structure Described (l l' : List Interp.Cmd) (id : String) (G : Components) (Gs : List Components) (h : ℝ → ℝ)
    (c d r k : Option (Mu × Sd × ℝ × ℝ)) : Prop where
  groups : structOf l id = some (G :: Gs)
  hazard : hazardOf l G.im = some h
  collapse : fateOf .collapse l' G.im = some c
  demolition : fateOf .demolition l' G.im = some d
  rebuild : fateOf .rebuildCost l' id = some r
  clear : fateOf .demolitionCost l' id = some k

open Classical in
/-- What is reported of the place of a lognormal cost with a mean and a mean square: heading and value. The logarithm of
nothing is infinite. -/
def placed (m s : ℝ) : Mu → String × Dbl
  | .mean => ("mean_x", .fin m)
  | .median => ("median_x", if m = 0 then .fin 0 else .fin (Real.exp (Real.log m - logSpread m s ^ 2 / 2)))
  | .meanLn => ("mean_ln_x", if m = 0 then .ninf else .fin (Real.log m - logSpread m s ^ 2 / 2))

open Classical in
/-- What is reported of its spread; a cost of nothing has none. -/
def spreadOf (m s : ℝ) : Sd → String × Dbl
  | .sdLn => ("sd_ln_x", .fin (logSpread m s))
  | .sd => ("sd_x", .fin (if m = 0 then 0 else Real.sqrt (s - m ^ 2)))

end

end Slat.Session.Spec
