import Verif.LogNormalModel

/-!
# Model of `FragilityFn` (src/fragility.cpp) and of the loss functions (src/loss_functions.cpp)
-/

namespace Slat

open Dbl

noncomputable section

namespace Fragility

/-- Loop of the constructor (src/fragility.cpp:28-36); `none` is the exception `"onsets"`. -/
def check (mean : Dbl) : List LogNormalDist → Option (List LogNormalDist)
  | [] => some []
  | d :: ds =>
    if d.getMuLn ≤ mean then none
    else (check d.getMuLn ds).map (fun l => d :: l)

/-- Constructor (src/fragility.cpp:19-40): the damage states, or an exception. -/
def construct (onsets : List LogNormalDist) : Option (List LogNormalDist) :=
  if onsets.length = 0 then none else check .nan onsets

/-- `n_states` (src/fragility.cpp:46-52). -/
def nStates (states : List LogNormalDist) : ℕ := states.length

/-- `pExceeded` (src/fragility.cpp:54-61). -/
def pExceeded (states : List LogNormalDist) (edp : Dbl) : List Dbl := states.map (fun d => d.pAtMost edp)

/-- Loop of `pHighest` (src/fragility.cpp:66-71): each entry minus the following one (which is changed only
in the next round), clipped at 0. -/
def differences : List Dbl → List Dbl
  | a :: b :: l =>
    let d := a - b
    (if d < 0 then 0 else d) :: differences (b :: l)
  | l => l

/-- `pHighest` (src/fragility.cpp:63-73). -/
def pHighest (states : List LogNormalDist) (edp : Dbl) : List Dbl := differences (pExceeded states edp)

end Fragility

namespace Loss

/-- A loss function: fixed distributions per damage state, or two-level distributions per damage state
(src/loss_functions.h:49-67 and 69-101). -/
structure BiLevel where
  countMin : ℤ
  countMax : ℤ
  costAtMin : Dbl
  costAtMax : Dbl
  dispersion : Dbl

/-- The range of C++ `int`. -/
def inInt (n : ℤ) : Prop := -2147483648 ≤ n ∧ n ≤ 2147483647

instance (n : ℤ) : Decidable (inInt n) := by unfold inInt; infer_instance

/-- `int` subtraction; `none` is signed overflow (undefined behaviour). -/
def subInt (a b : ℤ) : Option ℤ := if inInt (a - b) then some (a - b) else none

/-- `BiLevelLoss::LossFunctionsForCount_calc` (src/loss_functions.cpp:104-115).  Mean unit cost. -/
def BiLevel.unitMean (l : BiLevel) (count : ℤ) : Option Dbl :=
  if count ≤ l.countMin then some l.costAtMin
  else if l.countMax ≤ count then some l.costAtMax
  else do
    let n ← subInt count l.countMin
    let d ← subInt l.countMax l.countMin
    return l.costAtMin + .fin (n : ℝ) / .fin (d : ℝ) * (l.costAtMax - l.costAtMin)

/-- The distribution of the unit cost (src/loss_functions.cpp:114). -/
def BiLevel.forCount (l : BiLevel) (count : ℤ) : Option LogNormalDist :=
  (l.unitMean count).map (fun m => LogNormalDist.ofMeanSigmaLn m l.dispersion)

/-- Outcome of a call that may throw or overflow. -/
inductive Outcome (α : Type) where
  | ok (a : α)
  | throws
  | undefined

/-- Constructors `SimpleLossFn`, `BiLevelLossFn` (src/loss_functions.cpp:43-50, 96-102): `none` throws. -/
def construct {α : Type} (ds : List α) : Option (List α) := if ds.length = 0 then none else some ds

/-- `SimpleLossFn::CalculateUnadjustedLoss` followed by the adjustment of `CalculateLoss`
(src/loss_functions.cpp:18-21, 57-62). -/
def simple (ds : List LogNormalDist) (probabilities : List Dbl) (count : ℤ) (adjustment : Dbl) :
    Outcome LogNormalDist :=
  match LogNormalDist.addWeighted ds probabilities with
  | none => .throws
  | some r => .ok ((r.adjust (.fin (count : ℝ))).adjust adjustment)

/-- `BiLevelLossFn::CalculateUnadjustedLoss` followed by the adjustment (src/loss_functions.cpp:18-21,
123-136).  The cached `LossFunctionsForCount` is transparent (C02). -/
def biLevel (ls : List BiLevel) (probabilities : List Dbl) (count : ℤ) (adjustment : Dbl) :
    Outcome LogNormalDist :=
  if probabilities.length ≠ ls.length then .throws
  else match ls.mapM (fun l => l.forCount count) with
    | none => .undefined
    | some ds => simple ds probabilities count adjustment

end Loss

end

end Slat
