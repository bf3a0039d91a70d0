import Verif.PyModel

/-!
# What the queries of the Python interface should answer

After the comments of `/repo/src/pyslat.py` (310-1403): each query is an answer of the library.  Only the data types of
`PyModel` are used.
-/

namespace Slat.Py.Spec

open Rec (Num)

noncomputable section

variable {S D : Type} (L : Lib S D)

/-- The queries that take one number and answer with a number: the name in the interface and the function of the library. -/
def curves (s : S) : Class → List (String × (Dbl → Option Dbl))
  | .detfn => [("ValueAt", L.valueAt s)]
  | .probfn => [("Mean", L.mean s), ("MeanLn", L.meanLn s), ("Median", L.median s), ("SD_ln", L.sdLn s),
      ("SD", L.sd s)]
  | .im => [("getlambda", L.imLambda s), ("pRepair", L.pRepair s), ("pCollapse", L.pCollapse s),
      ("pDemolition", L.pDemolition s)]
  | .edp => [("Mean", L.mean s), ("MeanLn", L.meanLn s), ("Median", L.median s), ("SD_ln", L.sdLn s),
      ("SD", L.sd s), ("getlambda", L.edpLambda s)]
  | .compgroup => [("E_Cost_EDP", L.eCostEdp s), ("SD_ln_Cost_EDP", L.sdLnCostEdp s),
      ("E_Cost_IM", L.eCostIm s), ("SD_ln_Cost_IM", L.sdLnCostIm s), ("E_Delay_EDP", L.eDelayEdp s),
      ("SD_ln_Delay_EDP", L.sdLnDelayEdp s), ("E_Delay_IM", L.eDelayIm s),
      ("SD_ln_Delay_IM", L.sdLnDelayIm s), ("lambda_cost", L.lambdaCost s)]
  | .structure => [("pdf", L.pdf s)]
  | _ => []

/-- The queries without argument that answer with a number. -/
def rates (s : S) : Class → List (String × Option Dbl)
  | .im => [("CollapseRate", L.collapseRate s), ("DemolitionRate", L.demolitionRate s)]
  | .compgroup => [("E_annual_cost", L.eAnnualCost s)]
  | _ => []

/-- The queries that answer with the numbers of the damage states. -/
def states (s : S) : Class → List (String × (Dbl → Option (List Dbl)))
  | .fragfn => [("pExceeded", L.pExceeded s)]
  | .compgroup => [("pDS_IM", L.pDsIm s)]
  | _ => []

/-- The queries that take one number and answer with a distribution. -/
def costs (s : S) : Class → List (String × (Dbl → Option D))
  | .structure => [("TotalCost", L.totalCost s)]
  | _ => []

/-- The settings: the state of the object afterwards. -/
def settings (s : S) : Class → List (String × (D → S))
  | .im => [("SetCollapse", L.setCollapse s), ("SetDemolition", L.setDemolition s)]
  | .structure => [("setRebuildCost", L.setRebuild s), ("setDemolitionCost", L.setDemolish s)]
  | _ => []

/-- The statistics of a distribution. -/
def statistics (d : D) : List (String × Dbl) :=
  [("mean", L.distMean d), ("median", L.distMedian d), ("mean_ln", L.distMuLn d), ("sd", L.distSigma d),
    ("sd_ln", L.distSigmaLn d)]

/-- The answers of a function at each number of a list; none if one of them is missing. -/
def each (f : Dbl → Option Dbl) (xs : List Dbl) : Option (List Dbl) := xs.mapM f

/-- The answer of the library, or its exception, which ends the process. -/
def gives {α β : Type} (mk : α → β) (s : S) : Option α → Out (β × S)
  | some a => .ok (mk a, s)
  | none => .ends

end

end Slat.Py.Spec
