import Verif.RecModel

/-!
# The queries of the Python interface

A query from Python passes three layers before it reaches the library: a method of a class of
`/repo/src/pyslat.py`; a method of the extension module, as far as `/repo/src/pyslatcore.i` declares it;
and the C++ method of the wrapper class in `/repo/src/pyslatcore.cpp`, which calls the library.  The library
(namespace `SLAT`) is arbitrary here: a record of functions.

Left out: the making of objects, names and redefinition (`MakeModel`, `NamesModel`), `AreSame`, `replace`,
the components of a structure (`GroupModel`), keyword arguments, integers beyond the range of `double`,
strings, and arguments that are sequences of anything but numbers.
-/

namespace Slat.Py

open Rec (Num)

noncomputable section

/-- The Python exceptions that occur; there is no source to cite. -/
inductive Err
  | typeError | attributeError | valueError | overflowError
  deriving DecidableEq

/-- What a call comes to: a value, an exception, the end of the process by a C++ exception
(/repo/src/pyslatcore.i has no `%exception`), or a function that the extension module declares and does not define
(such a module cannot be loaded). -/
inductive Out (α : Type)
  | ok (a : α)
  | raises (e : Err)
  | ends
  | missing

/-- An answer of the library: `none` if it throws. -/
def Out.ofLib {α : Type} : Option α → Out α
  | some a => .ok a
  | none => .ends

/-- Sequencing: what is not a value ends the call. -/
def Out.then {α β : Type} (o : Out α) (f : α → Out β) : Out β :=
  match o with
  | .ok a => f a
  | .raises e => .raises e
  | .ends => .ends
  | .missing => .missing

/-- The library: its answers for the state `S` of an object, and for its distributions `D`.  One function for each
method that the wrappers call, /repo/src/functions.h (`ValueAt`), relationships.h (`IM`, `EDP`), fragility.h,
loss_functions.h, comp_group.h, structure.h and lognormaldist.h.  Caches inside an object are not part of the state
here: a query leaves the state as it is. -/
structure Lib (S D : Type) where
  valueAt : S → Dbl → Option Dbl
  imLambda : S → Dbl → Option Dbl
  pCollapse : S → Dbl → Option Dbl
  pDemolition : S → Dbl → Option Dbl
  pRepair : S → Dbl → Option Dbl
  collapseRate : S → Option Dbl
  demolitionRate : S → Option Dbl
  setCollapse : S → D → S
  setDemolition : S → D → S
  edpLambda : S → Dbl → Option Dbl
  pExceedence : S → Dbl → Dbl → Option Dbl
  mean : S → Dbl → Option Dbl
  meanLn : S → Dbl → Option Dbl
  median : S → Dbl → Option Dbl
  sdLn : S → Dbl → Option Dbl
  sd : S → Dbl → Option Dbl
  xAtExceedence : S → Dbl → Dbl → Option Dbl
  pExceeded : S → Dbl → Option (List Dbl)
  pHighest : S → Dbl → Option (List Dbl)
  nStates : S → ℤ
  eCostEdp : S → Dbl → Option Dbl
  sdLnCostEdp : S → Dbl → Option Dbl
  eCostIm : S → Dbl → Option Dbl
  sdLnCostIm : S → Dbl → Option Dbl
  eAnnualCost : S → Option Dbl
  eDelayEdp : S → Dbl → Option Dbl
  sdLnDelayEdp : S → Dbl → Option Dbl
  eDelayIm : S → Dbl → Option Dbl
  sdLnDelayIm : S → Dbl → Option Dbl
  pDsIm : S → Dbl → Option (List Dbl)
  groupRate : S → Option (List Dbl)
  lambdaCost : S → Dbl → Option Dbl
  /-- `CompGroup::E_cost`, which the library has and the interface does not reach. -/
  groupECost : S → ℤ → Dbl → Option Dbl
  cost : S → Dbl → Bool → Option D
  totalCost : S → Dbl → Option D
  deaggregated : S → Dbl → Option (D × D)
  repairCost : S → Dbl → Option D
  demolitionCost : S → Dbl → Option D
  collapseCost : S → Dbl → Option D
  eCost : S → ℤ → Dbl → Option Dbl
  setRebuild : S → D → S
  getRebuild : S → D
  setDemolish : S → D → S
  getDemolish : S → D
  annualCost : S → Option D
  pdf : S → Dbl → Option Dbl
  clearCache : S → S
  distPAtLeast : D → Dbl → Dbl
  distPAtMost : D → Dbl → Dbl
  distXAtP : D → Dbl → Dbl
  distMuLn : D → Dbl
  distMedian : D → Dbl
  distMean : D → Dbl
  distSigmaLn : D → Dbl
  distSigma : D → Dbl

/-- An argument: a number, a list or tuple of numbers, a boolean, `None`, a distribution of the extension module
(`pyslatcore.LogNormalDist`) or of the interface (`pyslat.lognormaldist`), or any other object (/repo/src/pyslat.py). -/
inductive Arg (D : Type)
  | num (n : Num)
  | list (l : List Num)
  | tuple (l : List Num)
  | bool (b : Bool)
  | none
  | core (d : D)
  | wrapped (d : D)
  | other

/-- A result: numbers become `float`, vectors of numbers a tuple; `core` and `cores` are objects of the extension
module, `wrapped` and `wrappeds` of the interface (/repo/src/pyslat.py:312-344). -/
inductive Val (D : Type)
  | none
  | flt (d : Dbl)
  | int (z : ℤ)
  | list (l : List Dbl)
  | tuple (l : List Dbl)
  | core (d : D)
  | wrapped (d : D)
  | cores (l : List D)
  | wrappeds (l : List D)

/-- The wrapper classes (/repo/src/pyslatcore.h:32-254); `probfn` is `ProbabilisticFn`. -/
inductive Class
  | detfn | probfn | dist | im | edp | fragfn | lossfn | compgroup | structure
  deriving DecidableEq

/-- Types of parameters (/repo/src/pyslatcore.i:43-202). -/
inductive Ty
  | dbl | vec | int | bool | dist

/-- Converted arguments. -/
inductive CVal (D : Type)
  | dbl (x : Dbl)
  | vec (l : List Dbl)
  | int (z : ℤ)
  | bool (b : Bool)
  | dist (d : D)

/-- The methods of a class that the extension module has (/repo/src/pyslatcore.i:43-46, 56-66, 73-89, 93-113, 118-126,
130-135, 150-173, 179-200), with their parameters.  `ProbabilisticFn` is named in the declarations of two functions
(51, 115) and not declared: its objects have no methods.  Methods on objects other than distributions are left out. -/
def exported : Class → List (String × List Ty)
  | .detfn => [("ValueAt", [.dbl])]
  | .probfn => []
  | .dist => [("p_at_least", [.dbl]), ("p_at_most", [.dbl]), ("x_at_p", [.dbl]), ("get_mu_lnX", []),
      ("get_median_X", []), ("get_mean_X", []), ("get_sigma_lnX", []), ("get_sigma_X", [])]
  | .im => [("get_lambda", [.dbl]), ("get_lambda", [.vec]), ("SetCollapse", [.dist]),
      ("pCollapse", [.dbl]), ("pCollapse", [.vec]), ("CollapseRate", []), ("SetDemolition", [.dist]),
      ("pDemolition", [.dbl]), ("pDemolition", [.vec]), ("DemolitionRate", []), ("pRepair", [.dbl]),
      ("pRepair", [.vec])]
  | .edp => [("get_lambda", [.dbl]), ("get_lambda", [.vec]), ("P_exceedence", [.dbl, .dbl]),
      ("Mean", [.dbl]), ("MeanLn", [.dbl]), ("Median", [.dbl]), ("SD_ln", [.dbl]), ("SD", [.dbl]),
      ("X_at_exceedence", [.dbl, .dbl]), ("bulk_Mean", [.vec]), ("bulk_MeanLn", [.vec]),
      ("bulk_Median", [.vec]), ("bulk_SD_ln", [.vec]), ("bulk_SD", [.vec])]
  | .fragfn => [("pExceeded", [.dbl]), ("pHighest", [.dbl]), ("n_states", [])]
  | .lossfn => [("n_states", [])]
  | .compgroup => [("E_Cost_EDP", [.dbl]), ("SD_ln_cost_EDP", [.dbl]), ("E_Cost_IM", [.dbl]),
      ("SD_ln_Cost_IM", [.dbl]), ("E_annual_cost", []), ("E_Delay_EDP", [.dbl]),
      ("SD_ln_Delay_EDP", [.dbl]), ("E_Delay_IM", [.dbl]), ("SD_ln_Delay_IM", [.dbl]),
      ("pDS_IM", [.dbl]), ("Rate", []), ("lambda_cost", [.dbl])]
  | .structure => [("Cost", [.dbl, .bool]), ("TotalCost", [.dbl]), ("DeaggregatedCost", [.dbl]),
      ("CostsByFate", [.dbl]), ("E_cost", [.int, .dbl]), ("setRebuildCost", [.dist]),
      ("getRebuildCost", []), ("setDemolitionCost", [.dist]), ("getDemolitionCost", []),
      ("AnnualCost", []), ("pdf", [.dbl]), ("Clear_Cache", [])]

/-- The conversions that SWIG makes for the parameters of /repo/src/pyslatcore.i.  A `double` takes any number and any
boolean; a vector of them any list or tuple of numbers; an `int` an integer of 32 bits; a `bool` only a boolean; a
distribution by value an object of the extension module, and `None` is a null reference. -/
def convert {D : Type} : Ty → Arg D → Except Err (CVal D)
  | .dbl, .num n => .ok (.dbl n.toDbl)
  | .dbl, .bool b => .ok (.dbl (if b then 1 else 0))
  | .vec, .list l => .ok (.vec (l.map Num.toDbl))
  | .vec, .tuple l => .ok (.vec (l.map Num.toDbl))
  | .int, .num (.int z) => if -2 ^ 31 ≤ z ∧ z < 2 ^ 31 then .ok (.int z) else .error .overflowError
  | .int, .bool b => .ok (.int (if b then 1 else 0))
  | .bool, .bool b => .ok (.bool b)
  | .dist, .core d => .ok (.dist d)
  | .dist, .none => .error .valueError
  | _, _ => .error .typeError

/-- The arguments of a call: the first one that does not fit decides; a wrong number of them is a `TypeError`. -/
def convertAll {D : Type} : List Ty → List (Arg D) → Except Err (List (CVal D))
  | [], [] => .ok []
  | t :: ts, a :: as => do
    let v ← convert t a
    let vs ← convertAll ts as
    return v :: vs
  | _, _ => .error .typeError

variable {S D : Type} (L : Lib S D)

/-- A loop over a vector (/repo/src/relationships.cpp:66-104, /repo/src/pyslatcore.cpp:393-401, 438-486): one result for each element, at
its place.  An exception in a parallel region ends the process. -/
def loop (f : Dbl → Option Dbl) : List Dbl → Option (List Dbl)
  | [] => some []
  | x :: xs => do
    let y ← f x
    let ys ← loop f xs
    return y :: ys

/-- A query with a number as result. -/
def number (r : Option Dbl) (s : S) : Out (Val D × S) := Out.ofLib (r.map fun y => (.flt y, s))

/-- A query with a vector as result. -/
def numbers (r : Option (List Dbl)) (s : S) : Out (Val D × S) := Out.ofLib (r.map fun y => (.tuple y, s))

/-- A query with a distribution as result. -/
def newDist (r : Option D) (s : S) : Out (Val D × S) := Out.ofLib (r.map fun d => (.core d, s))

/-- The wrapper classes (/repo/src/pyslatcore.cpp:98-101, 313-372, 388-486, 566-584, 605-608, 664-711, 734-742, 759-815, 867-875).
`CostsByFate` reads the three fields of one result of the library (777-785). -/
def body (c : Class) (s : S) (m : String) (args : List (CVal D)) : Out (Val D × S) :=
  match c, m, args with
  | .detfn, "ValueAt", [.dbl x] => number (L.valueAt s x) s
  | .im, "get_lambda", [.dbl x] => number (L.imLambda s x) s
  | .im, "get_lambda", [.vec xs] => numbers (loop (L.imLambda s) xs) s
  | .im, "SetCollapse", [.dist d] => .ok (.none, L.setCollapse s d)
  | .im, "pCollapse", [.dbl x] => number (L.pCollapse s x) s
  | .im, "pCollapse", [.vec xs] => numbers (loop (L.pCollapse s) xs) s
  | .im, "CollapseRate", [] => number (L.collapseRate s) s
  | .im, "SetDemolition", [.dist d] => .ok (.none, L.setDemolition s d)
  | .im, "pDemolition", [.dbl x] => number (L.pDemolition s x) s
  | .im, "pDemolition", [.vec xs] => numbers (loop (L.pDemolition s) xs) s
  | .im, "DemolitionRate", [] => number (L.demolitionRate s) s
  | .im, "pRepair", [.dbl x] => number (L.pRepair s x) s
  | .im, "pRepair", [.vec xs] => numbers (loop (L.pRepair s) xs) s
  | .edp, "get_lambda", [.dbl x] => number (L.edpLambda s x) s
  | .edp, "get_lambda", [.vec xs] => numbers (loop (L.edpLambda s) xs) s
  | .edp, "P_exceedence", [.dbl x, .dbl y] => number (L.pExceedence s x y) s
  | .edp, "Mean", [.dbl x] => number (L.mean s x) s
  | .edp, "MeanLn", [.dbl x] => number (L.meanLn s x) s
  | .edp, "Median", [.dbl x] => number (L.median s x) s
  | .edp, "SD_ln", [.dbl x] => number (L.sdLn s x) s
  | .edp, "SD", [.dbl x] => number (L.sd s x) s
  | .edp, "X_at_exceedence", [.dbl x, .dbl p] => number (L.xAtExceedence s x p) s
  | .edp, "bulk_Mean", [.vec xs] => numbers (loop (L.mean s) xs) s
  | .edp, "bulk_MeanLn", [.vec xs] => numbers (loop (L.meanLn s) xs) s
  | .edp, "bulk_Median", [.vec xs] => numbers (loop (L.median s) xs) s
  | .edp, "bulk_SD_ln", [.vec xs] => numbers (loop (L.sdLn s) xs) s
  | .edp, "bulk_SD", [.vec xs] => numbers (loop (L.sd s) xs) s
  | .fragfn, "pExceeded", [.dbl x] => numbers (L.pExceeded s x) s
  | .fragfn, "pHighest", [.dbl x] => numbers (L.pHighest s x) s
  | .fragfn, "n_states", [] => .ok (.int (L.nStates s), s)
  | .lossfn, "n_states", [] => .ok (.int (L.nStates s), s)
  | .compgroup, "E_Cost_EDP", [.dbl x] => number (L.eCostEdp s x) s
  | .compgroup, "SD_ln_cost_EDP", [.dbl x] => number (L.sdLnCostEdp s x) s
  | .compgroup, "E_Cost_IM", [.dbl x] => number (L.eCostIm s x) s
  | .compgroup, "SD_ln_Cost_IM", [.dbl x] => number (L.sdLnCostIm s x) s
  | .compgroup, "E_annual_cost", [] => number (L.eAnnualCost s) s
  | .compgroup, "E_Delay_EDP", [.dbl x] => number (L.eDelayEdp s x) s
  | .compgroup, "SD_ln_Delay_EDP", [.dbl x] => number (L.sdLnDelayEdp s x) s
  | .compgroup, "E_Delay_IM", [.dbl x] => number (L.eDelayIm s x) s
  | .compgroup, "SD_ln_Delay_IM", [.dbl x] => number (L.sdLnDelayIm s x) s
  | .compgroup, "pDS_IM", [.dbl x] => numbers (L.pDsIm s x) s
  | .compgroup, "Rate", [] => numbers (L.groupRate s) s
  | .compgroup, "lambda_cost", [.dbl x] => number (L.lambdaCost s x) s
  | .structure, "Cost", [.dbl x, .bool b] => newDist (L.cost s x b) s
  | .structure, "TotalCost", [.dbl x] => newDist (L.totalCost s x) s
  | .structure, "DeaggregatedCost", [.dbl x] =>
    Out.ofLib ((L.deaggregated s x).map fun d => (.cores [d.1, d.2], s))
  | .structure, "CostsByFate", [.dbl x] => Out.ofLib do
    let r ← L.repairCost s x
    let d ← L.demolitionCost s x
    let c ← L.collapseCost s x
    return (.cores [r, d, c], s)
  | .structure, "E_cost", [.int t, .dbl r] => number (L.eCost s t r) s
  | .structure, "setRebuildCost", [.dist d] => .ok (.none, L.setRebuild s d)
  | .structure, "getRebuildCost", [] => .ok (.core (L.getRebuild s), s)
  | .structure, "setDemolitionCost", [.dist d] => .ok (.none, L.setDemolish s d)
  | .structure, "getDemolitionCost", [] => .ok (.core (L.getDemolish s), s)
  | .structure, "AnnualCost", [] => newDist (L.annualCost s) s
  | .structure, "pdf", [.dbl x] => number (L.pdf s x) s
  | .structure, "Clear_Cache", [] => .ok (.none, L.clearCache s)
  | _, _, _ => .missing

/-- The wrapper of distributions (/repo/src/pyslatcore.cpp:254-293). -/
def distBody (d : D) (m : String) (args : List (CVal D)) : Out (Val D) :=
  match m, args with
  | "p_at_least", [.dbl x] => .ok (.flt (L.distPAtLeast d x))
  | "p_at_most", [.dbl x] => .ok (.flt (L.distPAtMost d x))
  | "x_at_p", [.dbl p] => .ok (.flt (L.distXAtP d p))
  | "get_mu_lnX", [] => .ok (.flt (L.distMuLn d))
  | "get_median_X", [] => .ok (.flt (L.distMedian d))
  | "get_mean_X", [] => .ok (.flt (L.distMean d))
  | "get_sigma_lnX", [] => .ok (.flt (L.distSigmaLn d))
  | "get_sigma_X", [] => .ok (.flt (L.distSigma d))
  | _, _ => .missing

/-- Which overload of a method is called, and with what (SWIG, after the declarations in /repo/src/pyslatcore.i): a method
declared once converts its arguments; of several, the first one whose parameters fit, and if there is none a
`TypeError` (`NotImplementedError` before SWIG 4). -/
def resolve (c : Class) (m : String) (args : List (Arg D)) : Except Err (List (CVal D)) :=
  match (exported c).filter fun e => e.1 = m with
  | [] => .error .attributeError
  | [e] => convertAll e.2 args
  | es => match es.findSome? fun e => (convertAll e.2 args).toOption with
    | some vs => .ok vs
    | none => .error .typeError

/-- A method call on an object of the extension module. -/
def core (c : Class) (s : S) (m : String) (args : List (Arg D)) : Out (Val D × S) :=
  match resolve c m args with
  | .error e => .raises e
  | .ok vs => body L c s m vs

/-- A method call on a distribution of the extension module. -/
def coreDist (d : D) (m : String) (args : List (Arg D)) : Out (Val D) :=
  match resolve .dist m args with
  | .error e => .raises e
  | .ok vs => distBody L d m vs

/-- Python's `list(…)` of a result (/repo/src/pyslat.py:623-822): a tuple becomes a list, a number is not iterable. -/
def asList : Val D × S → Out (Val D × S)
  | (.tuple l, s) => .ok (.list l, s)
  | (.cores l, s) => .ok (.cores l, s)
  | (.list l, s) => .ok (.list l, s)
  | (.wrappeds l, s) => .ok (.wrappeds l, s)
  | _ => .raises .typeError

/-- `lognormaldist(…)` (/repo/src/pyslat.py:315-317): any object is taken. -/
def wrap : Val D × S → Val D × S
  | (.core d, s) => (.wrapped d, s)
  | r => r

/-- The pattern `if type(x) == list: list(f(x)) else: g(x)` (/repo/src/pyslat.py:623-628). -/
def perhapsList (c : Class) (s : S) (bulk single : String) (x : Arg D) : Out (Val D × S) :=
  match x with
  | .list l => (core L c s bulk [.list l]).then asList
  | _ => core L c s single [x]

/-- Methods of `lognormaldist` (/repo/src/pyslat.py:320-337). -/
def pyDist (d : D) (m : String) (args : List (Arg D)) : Out (Val D) :=
  match m, args with
  | "mean", [] => coreDist L d "get_mean_X" []
  | "median", [] => coreDist L d "get_median_X" []
  | "mean_ln", [] => coreDist L d "get_mu_lnX" []
  | "sd", [] => coreDist L d "get_sigma_X" []
  | "sd_ln", [] => coreDist L d "get_sigma_lnX" []
  | m, _ => if m ∈ ["mean", "median", "mean_ln", "sd", "sd_ln"] then .raises .typeError
    else .raises .attributeError

/-- Methods of `im` (/repo/src/pyslat.py:623-681). -/
def pyIm (s : S) (m : String) (args : List (Arg D)) : Out (Val D × S) :=
  match m, args with
  | "getlambda", [x] => perhapsList L .im s "get_lambda" "get_lambda" x
  | "pRepair", [x] => perhapsList L .im s "pRepair" "pRepair" x
  | "pCollapse", [x] => perhapsList L .im s "pCollapse" "pCollapse" x
  | "SetCollapse", [d] => (core L .im s "SetCollapse" [d]).then fun r => .ok (.none, r.2)
  | "CollapseRate", [] => core L .im s "CollapseRate" []
  | "pDemolition", [x] => perhapsList L .im s "pDemolition" "pDemolition" x
  | "SetDemolition", [d] => (core L .im s "SetDemolition" [d]).then fun r => .ok (.none, r.2)
  | "DemolitionRate", [] => core L .im s "DemolitionRate" []
  | m, _ =>
    if m ∈ ["getlambda", "pRepair", "pCollapse", "SetCollapse", "CollapseRate", "pDemolition", "SetDemolition",
      "DemolitionRate"] then .raises .typeError
    else .raises .attributeError

/-- Methods of `edp` (/repo/src/pyslat.py:770-835): with a list, `Mean` and `SD_ln` call a method that takes a vector,
`MeanLn`, `Median` and `SD` the one that takes a number. -/
def pyEdp (s : S) (m : String) (args : List (Arg D)) : Out (Val D × S) :=
  match m, args with
  | "Mean", [x] => perhapsList L .edp s "bulk_Mean" "Mean" x
  | "MeanLn", [x] => perhapsList L .edp s "MeanLn" "MeanLn" x
  | "Median", [x] => perhapsList L .edp s "Median" "Median" x
  | "SD_ln", [x] => perhapsList L .edp s "bulk_SD_ln" "SD_ln" x
  | "SD", [x] => perhapsList L .edp s "SD" "SD" x
  | "getlambda", [x] => perhapsList L .edp s "get_lambda" "get_lambda" x
  | "X_at_exceedence", [x, p] => core L .edp s "X_at_exceedence" [x, p]
  | m, _ =>
    if m ∈ ["Mean", "MeanLn", "Median", "SD_ln", "SD", "getlambda", "X_at_exceedence"] then .raises .typeError
    else .raises .attributeError

/-- Methods of `probfn` (/repo/src/pyslat.py:502-542). -/
def pyProbfn (s : S) (m : String) (args : List (Arg D)) : Out (Val D × S) :=
  match m, args with
  | "Mean", [x] => core L .probfn s "Mean" [x]
  | "MeanLn", [x] => core L .probfn s "MeanLn" [x]
  | "Median", [x] => core L .probfn s "Median" [x]
  | "SD_ln", [x] => core L .probfn s "SD_ln" [x]
  | "SD", [x] => core L .probfn s "SD" [x]
  | "X_at_exceedence", [x, p] => core L .probfn s "X_at_exceedence" [x, p]
  | m, _ =>
    if m ∈ ["Mean", "MeanLn", "Median", "SD_ln", "SD", "X_at_exceedence"] then .raises .typeError
    else .raises .attributeError

/-- Methods of `compgroup` (/repo/src/pyslat.py:1159-1222). -/
def pyGroup (s : S) (m : String) (args : List (Arg D)) : Out (Val D × S) :=
  match m, args with
  | "E_Cost_EDP", [x] => core L .compgroup s "E_Cost_EDP" [x]
  | "SD_ln_Cost_EDP", [x] => core L .compgroup s "SD_ln_cost_EDP" [x]
  | "E_Cost_IM", [x] => core L .compgroup s "E_Cost_IM" [x]
  | "SD_ln_Cost_IM", [x] => core L .compgroup s "SD_ln_Cost_IM" [x]
  | "E_cost", [t, l] => core L .compgroup s "E_cost" [t, l]
  | "E_annual_cost", [] => core L .compgroup s "E_annual_cost" []
  | "lambda_cost", [x] => core L .compgroup s "lambda_cost" [x]
  | "pDS_IM", [x] => core L .compgroup s "pDS_IM" [x]
  | "E_Delay_IM", [x] => core L .compgroup s "E_Delay_IM" [x]
  | "E_Delay_EDP", [x] => core L .compgroup s "E_Delay_EDP" [x]
  | "SD_ln_Delay_IM", [x] => core L .compgroup s "SD_ln_Delay_IM" [x]
  | "SD_ln_Delay_EDP", [x] => core L .compgroup s "SD_ln_Delay_EDP" [x]
  | "Rate", [] => core L .compgroup s "Rate" []
  | m, _ =>
    if m ∈ ["E_Cost_EDP", "SD_ln_Cost_EDP", "E_Cost_IM", "SD_ln_Cost_IM", "E_cost", "E_annual_cost", "lambda_cost",
      "pDS_IM", "E_Delay_IM", "E_Delay_EDP", "SD_ln_Delay_IM", "SD_ln_Delay_EDP", "Rate"] then .raises .typeError
    else .raises .attributeError

/-- The three elements of the result of `CostsByFate`, each wrapped (/repo/src/pyslat.py:1360-1364). -/
def wrapFates : Val D × S → Out (Val D × S)
  | (.cores (a :: b :: c :: _), s) => .ok (.wrappeds [a, b, c], s)
  | _ => .raises .typeError

/-- Methods of `structure` (/repo/src/pyslat.py:1286-1400). -/
def pyStructure (s : S) (m : String) (args : List (Arg D)) : Out (Val D × S) :=
  match m, args with
  | "pdf", [x] => core L .structure s "pdf" [x]
  | "setRebuildCost", [d] => (core L .structure s "setRebuildCost" [d]).then fun r => .ok (.none, r.2)
  | "getRebuildCost", [] => (core L .structure s "getRebuildCost" []).then fun r => .ok (wrap r)
  | "setDemolitionCost", [d] => (core L .structure s "setDemolitionCost" [d]).then fun r => .ok (.none, r.2)
  | "getDemolitionCost", [] => (core L .structure s "getDemolitionCost" []).then fun r => .ok (wrap r)
  | "Cost", [x, b] => (core L .structure s "Cost" [x, b]).then fun r => .ok (wrap r)
  | "TotalCost", [x] => (core L .structure s "TotalCost" [x]).then fun r => .ok (wrap r)
  | "CostsByFate", [x] => (core L .structure s "CostsByFate" [x]).then wrapFates
  | "AnnualCost", [] => (core L .structure s "AnnualCost" []).then fun r => .ok (wrap r)
  | "E_cost", [t, l] => core L .structure s "E_cost" [t, l]
  | "DeaggregatedCost", [x] => core L .structure s "DeaggregatedCost" [x]
  | "Clear_Cache", [] => core L .structure s "Clear_Cache" []
  | m, _ =>
    if m ∈ ["pdf", "setRebuildCost", "getRebuildCost", "setDemolitionCost", "getDemolitionCost", "Cost", "TotalCost",
      "CostsByFate", "AnnualCost", "E_cost", "DeaggregatedCost", "Clear_Cache"] then .raises .typeError
    else .raises .attributeError

/-- A method call on an object of the interface: `detfn` (/repo/src/pyslat.py:416-417), `fragfn` (898-899; `lossfn` has no
query), and the classes above. -/
def call (c : Class) (s : S) (m : String) (args : List (Arg D)) : Out (Val D × S) :=
  match c with
  | .detfn => match m, args with
    | "ValueAt", [x] => core L .detfn s "ValueAt" [x]
    | m, _ => if m = "ValueAt" then .raises .typeError else .raises .attributeError
  | .fragfn => match m, args with
    | "pExceeded", [x] => core L .fragfn s "pExceeded" [x]
    | m, _ => if m = "pExceeded" then .raises .typeError else .raises .attributeError
  | .probfn => pyProbfn L s m args
  | .im => pyIm L s m args
  | .edp => pyEdp L s m args
  | .compgroup => pyGroup L s m args
  | .structure => pyStructure L s m args
  | .dist | .lossfn => .raises .attributeError

/-- A method call on a result (a distribution, of the interface or of the extension module): an attribute of anything else is
an `AttributeError` (/repo/src/pyslat.py:312-337, /repo/src/pyslatcore.i:56-66). -/
def callResult (v : Val D) (m : String) (args : List (Arg D)) : Out (Val D) :=
  match v with
  | .wrapped d => pyDist L d m args
  | .core d => coreDist L d m args
  | _ => .raises .attributeError

/-- The attribute `_plot_max` of a new object: `im.__init__` sets it to `None` (/repo/src/pyslat.py:589), `edp.__init__` only
if there is a second function (721-728).  The outer `none`: there is no such attribute. -/
def newPlotMax (c : Class) (second : Bool) : Option (Option Num) :=
  match c with
  | .im => some none
  | .edp => if second then some none else none
  | _ => none

/-- `plot_max` of `im` and `edp` (/repo/src/pyslat.py:598-599, 752-753). -/
def plotMax : Option (Option Num) → Out (Option Num)
  | some v => .ok v
  | none => .raises .attributeError

/-- `set_plot_max` of `im` and `edp` (/repo/src/pyslat.py:603-604, 757-758). -/
def setPlotMax (_ : Option (Option Num)) (v : Num) : Option (Option Num) := some (some v)

end

end Slat.Py
