import Verif.FatesModel

/-!
# Model of the costs of a `Structure` (src/structure.cpp)

The cost distribution of each component group at the intensity, `CompGroup::CostDist_IM(im)`, is a parameter.
-/

namespace Slat

open Dbl

noncomputable section

/-- Data used by the cost functions of `Structure` (src/structure.h:57-60): the component groups' cost
distributions at a given intensity, the intensity measure (`none` is the null pointer of a structure
to which nothing was added), the rebuilding and the demolition cost. -/
structure StructCosts where
  comps : Dbl → List LogNormalDist
  im : Option Fates
  rebuild : LogNormalDist
  demolition : LogNormalDist

namespace StructCosts

/-- A structure before its costs were set (src/structure.h:59-60, default-constructed distributions). -/
def init : StructCosts := ⟨fun _ => [], none, LogNormalDist.unset, LogNormalDist.unset⟩

/-- `Structure::CostNC` (src/structure.cpp:83-92).  The parallel loop fills one cell per group and is
treated in `ParallelProps.lean`. -/
def costNC (s : StructCosts) (x : Dbl) : LogNormalDist := LogNormalDist.addDistributions (s.comps x)

/-- `Structure::Cost` (src/structure.cpp:94-112); `none` would be the exception of
`AddWeightedDistributions`. -/
def cost (s : StructCosts) (x : Dbl) (considerCollapse : Bool) : Option LogNormalDist :=
  let nc := s.costNC x
  if considerCollapse then
    match s.im with
    | some f =>
      let p := f.pCollapse x
      LogNormalDist.addWeighted [nc, s.rebuild] [1 - p, p]
    | none => some (LogNormalDist.ofMeanSigmaLn .nan .nan)
  else some nc

/-- `Structure::TotalCost` (src/structure.cpp:114-148); `none` is the use of a null pointer
(line 120 without an intensity measure). -/
def totalCost (s : StructCosts) (x : Dbl) : Option LogNormalDist :=
  match s.im with
  | none => none
  | some f =>
    let r := s.costNC x
    let d := s.demolition
    let c := s.rebuild
    let e := r.getMean * f.pRepair x
    let e := if 0 < f.pDemolition x then e + d.getMean * f.pDemolition x else e
    let e := if 0 < f.pCollapse x then e + c.getMean * f.pCollapse x else e
    let qr := r.getMean * r.getMean + r.getSigma * r.getSigma
    let qd := d.getMean * d.getMean + d.getSigma * d.getSigma
    let qc := c.getMean * c.getMean + c.getSigma * c.getSigma
    let q := qr * f.pRepair x
    let q := if 0 < f.pDemolition x then q + qd * f.pDemolition x else q
    let q := if 0 < f.pCollapse x then q + qc * f.pCollapse x else q
    let var := q - e * e
    some (LogNormalDist.ofMeanSigma e (sqrt var))

/-- `Structure::DeaggregatedCost` (src/structure.cpp:165-174); `none` is the use of a null pointer. -/
def deaggregated (s : StructCosts) (x : Dbl) : Option (LogNormalDist × LogNormalDist) :=
  s.im.map fun f =>
    ((s.costNC x).adjust (1 - f.pCollapse x), s.rebuild.adjust (f.pCollapse x))

/-- `Structure::CostsByFate` (src/structure.cpp:176-185): repair, demolition, collapse; unset distributions
without an intensity measure. -/
def costsByFate (s : StructCosts) (x : Dbl) : LogNormalDist × LogNormalDist × LogNormalDist :=
  match s.im with
  | some f => ((s.costNC x).adjust (f.pRepair x), s.demolition.adjust (f.pDemolition x),
      s.rebuild.adjust (f.pCollapse x))
  | none => (LogNormalDist.unset, LogNormalDist.unset, LogNormalDist.unset)

/-- `Structure::pdf` (src/structure.cpp:37-40), with the derivative of the hazard curve as parameter. -/
def pdf (s : StructCosts) (deriv : Dbl → Dbl) (x : Dbl) : Option Dbl :=
  (s.totalCost x).map fun d => d.getMean * abs (deriv x)

end StructCosts

/-- `Structure::E_cost(int, double)` (src/structure.cpp:150-153), with the mean annual cost as parameter.
The conversion of `year` to `double` is exact. -/
def discounted (annual : Dbl) (year : ℤ) (rate : Dbl) : Dbl :=
  ((1 - exp (-rate * .fin year)) / rate) * annual

/-- `Structure::calc_AnnualCost` (src/structure.cpp:187-231).  `maq` is `Integration::MAQ`: success flag and
integral.  `total` is `TotalCost`, `deriv` the derivative of the hazard curve, `nonempty` tells whether
there are components. -/
def calcAnnualCost (maq : (Dbl → Dbl) → Bool × Dbl) (nonempty : Bool) (total : Dbl → LogNormalDist)
    (deriv : Dbl → Dbl) : LogNormalDist :=
  if nonempty then
    let r1 := maq fun x => (total x).getMean * abs (deriv x)
    let mu := if r1.1 then r1.2 else .nan
    let r2 := maq fun x => ((total x).getMean * (total x).getMean + (total x).getSigma * (total x).getSigma) *
      abs (deriv x)
    let beta := if r2.1 then r2.2 else .nan
    let beta := sqrt (abs (beta - mu * mu))
    LogNormalDist.ofMeanSigma mu beta
  else LogNormalDist.ofMeanSigma .nan .nan

end

end Slat
