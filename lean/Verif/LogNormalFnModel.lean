import Verif.LogNormalModel

/-!
# Model of `LogNormalFn` (src/functions.cpp:312-403)

The constructor installs five mutually recursive lambdas.  They are modelled as one evaluator over the five
quantities, with fuel counting nested calls; running out of every fuel means that the C++ recursion never
ends (stack overflow).  `mu` and `sigma` are the values of `mu_function->ValueAt(x)` and
`sigma_function->ValueAt(x)` at the point of the query (deterministic functions of `x`).
-/

namespace Slat.LogNormalFn

open Slat Dbl

noncomputable section

/-- `M_TYPE` (src/functions.h): how the first function is interpreted. -/
inductive MType where
  | meanLnX | meanX | medianX | invalid

/-- `S_TYPE` (src/functions.h): how the second function is interpreted. -/
inductive SType where
  | sigmaLnX | sigmaX | invalid

/-- The five lambdas (src/functions.h, `mean_lnX` ... `sigma_X`). -/
inductive Qty where
  | meanLn | median | mean | sdLn | sd

/-- Constructor (src/functions.cpp:312-362): `none` is the exception `invalid_argument`. -/
def construct (mt : MType) (st : SType) : Option (MType × SType) :=
  match mt, st with
  | .invalid, _ => none
  | _, .invalid => none
  | mt, st => some (mt, st)

/-- Evaluation of the lambdas (src/functions.cpp:316-361) with a bound on nested calls. -/
def eval (mt : MType) (st : SType) (mu sigma : Dbl) : ℕ → Qty → Option Dbl
  | 0, _ => none
  | n + 1, q =>
    let rec' := eval mt st mu sigma n
    match q with
    | .meanLn => match mt with
      | .meanLnX => some mu
      | .meanX => do return log (← rec' .mean) - (← rec' .sdLn) * (← rec' .sdLn) / .fin 2
      | .medianX => do return log (← rec' .median)
      | .invalid => none
    | .median => match mt with
      | .meanLnX => do return exp (← rec' .meanLn)
      | .meanX => do return exp (← rec' .meanLn)
      | .medianX => some mu
      | .invalid => none
    | .mean => match mt with
      | .meanLnX => do return exp ((← rec' .meanLn) + (← rec' .sdLn) * (← rec' .sdLn) / .fin 2)
      | .meanX => some mu
      | .medianX => do return exp ((← rec' .meanLn) + (← rec' .sdLn) * (← rec' .sdLn) / .fin 2)
      | .invalid => none
    | .sdLn => match st with
      | .sigmaLnX => some sigma
      | .sigmaX => do
        let sd ← rec' .sd
        let mean ← rec' .mean
        return sqrt (log (.fin 1 + (sd * sd) / (mean * mean)))
      | .invalid => none
    | .sd => match st with
      | .sigmaLnX => do return (← rec' .mean) * sqrt (exp ((← rec' .sdLn) * (← rec' .sdLn)) - .fin 1)
      | .sigmaX => some sigma
      | .invalid => none

/-- `distribution(x)` (src/functions.cpp:399-403), on which all queries (364-397) are based. -/
def distribution (mt : MType) (st : SType) (mu sigma : Dbl) (n : ℕ) : Option LogNormalDist := do
  return LogNormalDist.ofMuSigmaLn (← eval mt st mu sigma n .meanLn) (← eval mt st mu sigma n .sdLn)

end

end Slat.LogNormalFn
