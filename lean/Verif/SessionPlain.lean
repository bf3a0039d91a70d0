import Verif.SessionModel
import Verif.MakeModel
import Verif.LogNormalFnModel
import Verif.FatesModel
import Verif.StructureModel

/-!
# A library for sessions: functions, intensity measures, demands, component groups and structures

The objects behind the commands `detfn`, `probfn`, `im`, `collapse`, `demolition`, `edp`, `fragfn`, `lossfn`,
`compgroup`, `structure`, `rebcost` and `democost`, as `pyslat` keeps them.  The other commands are outside this
module (`Stop.outside`).  What the library finds by integration (rates of demands, collapses, demolitions, damage,
losses at an intensity, annual costs) is a parameter; it is the subject of `RatesModel`, `GroupModel` and
`StructureModel`.

Simplifications: an intensity measure, demand, fragility function, loss function, component group or structure is
defined once (a second definition replaces the first in the library: C12, C56), and a combination of options whose
queries never return (C19) is outside, as is a call that ends the process (C82).
-/

namespace Slat.Session

open Dbl

noncomputable section

open Interp (Val Call Mu Sd)

/-- A loss function: `SimpleLossFn`, `BiLevelLossFn` (/repo/src/loss_functions.h:49-101). -/
inductive LossFn
  | simple (ds : List LogNormalDist)
  | biLevel (ls : List Loss.BiLevel)

/-- `CalculateLoss` (/repo/src/loss_functions.cpp:18-21). -/
def LossFn.loss (l : LossFn) (p : List Dbl) (count : ℤ) (adj : Dbl) : Loss.Outcome LogNormalDist :=
  match l with
  | .simple ds => Loss.simple ds p count adj
  | .biLevel ls => Loss.biLevel ls p count adj

/-- A `compgroup` (/repo/src/pyslat.py:1066-1140) with what it was made from; the demand counts with its intensity
measure, its curve and its law, the demand and the fragility function with their numbers and names. -/
structure Group where
  imId : String
  curve : Dbl → Dbl
  mu : Mu
  sp : Sd
  f : Dbl → Dbl
  g : Dbl → Dbl
  edp : ℕ × String
  frag : ℕ × String
  states : List LogNormalDist
  cost : LossFn
  delay : Option LossFn
  count : ℕ
  costAdj : ℝ
  delayAdj : ℝ

/-- `cost_EDP_dist`, `delay_EDP_dist` (/repo/src/comp_group.cpp:53-69).  Simplified: where the loss function throws or
overflows, which ends the process (C83) or is undefined (C24), the distribution counts as not set; the theorems
do not speak about such groups. -/
def Group.loss (g : Group) (l : LossFn) (adj : ℝ) (x : Dbl) : LogNormalDist :=
  match l.loss (Fragility.pHighest g.states x) g.count (.fin adj) with
  | .ok d => d
  | _ => LogNormalDist.unset

/-- What a component group finds by integration (/repo/src/comp_group.cpp:282-385, 410-535, 566-640), the last two
for each damage state. -/
structure GroupNumerics where
  eCostIm : Dbl → Dbl
  sdLnCostIm : Dbl → Dbl
  eDelayIm : Dbl → Dbl
  sdLnDelayIm : Dbl → Dbl
  pDsIm : LogNormalDist → Dbl → Dbl
  rate : LogNormalDist → Dbl
  lambdaCost : Dbl → Dbl

/-- What is found by integration, of a hazard curve and what else it depends on
(/repo/src/relationships.h:17-126, /repo/src/relationships.cpp:250-319). -/
structure Numerics where
  group : Group → GroupNumerics
  edpRate : (Dbl → Dbl) → Fates → (Dbl → LogNormalDist) → Dbl → Dbl
  collapseRate : (Dbl → Dbl) → Fates → Dbl
  demolitionRate : (Dbl → Dbl) → Fates → Dbl
  slope : (Dbl → Dbl) → Dbl → Dbl
  annual : (Dbl → Dbl) → (Dbl → LogNormalDist) → LogNormalDist

/-- A `structure` (/repo/src/pyslat.py:1244-1269, /repo/src/structure.h:57-62): its component groups, and the costs of
rebuilding and demolition, which are not set at first.  Its intensity measure is that of the first group
(/repo/src/structure.cpp:45-46, /repo/src/pyslat.py:1299-1301); it counts with its name, which belongs to one
intensity measure here. -/
structure Building where
  groups : List Group := []
  rebuild : LogNormalDist := LogNormalDist.unset
  demolition : LogNormalDist := LogNormalDist.unset

/-- `CompGroup::CostDist_IM` (/repo/src/comp_group.cpp:265-280). -/
def Group.costAt (N : Numerics) (g : Group) (x : Dbl) : LogNormalDist :=
  LogNormalDist.ofMeanSigmaLn ((N.group g).eCostIm x) ((N.group g).sdLnCostIm x)

/-- What the costs of a structure depend on (/repo/src/structure.cpp:83-185), `f` being the fates of its intensity
measure. -/
def Building.costs (N : Numerics) (b : Building) (f : Option Fates) : StructCosts where
  comps x := b.groups.map fun g => g.costAt N x
  im := f
  rebuild := b.rebuild
  demolition := b.demolition

/-- An object of `pyslat` with what it wraps: a `detfn` (/repo/src/pyslat.py:348-425), a `probfn` (430-551), an `im`
(557-689), an `edp` (694-841), whose intensity measure counts with its name, its number and its curve, a `fragfn` (846-947), a
`lossfn` (951-1065), a `compgroup` (1066-1230) and a `structure` (1244-1403). -/
inductive Thing
  | detfn (f : Dbl → Dbl)
  | probfn (mu : Mu) (sp : Sd) (f g : Dbl → Dbl)
  | im (id : String) (curve : Dbl → Dbl) (fates : Fates)
  | edp (imId : String) (im : ℕ) (curve : Dbl → Dbl) (mu : Mu) (sp : Sd) (f g : Dbl → Dbl)
  | fragfn (states : List LogNormalDist)
  | lossfn (l : LossFn)
  | group (g : Group)
  | building (b : Building)

/-- The dictionaries `defs` of the classes (/repo/src/pyslat.py:350, 432, 559, 696, 848, 953, 1068, 1246), newest entry first, and the
objects, numbered in the order in which they were made. -/
structure World where
  defs : List ((String × String) × ℕ) := []
  things : List Thing := []

/-- `lookup` (/repo/src/pyslat.py:403-404, 488-489, 609-610, 738-740, 876-878, 994-995,
1129-1131, 1273-1274). -/
def World.find (w : World) (registry id : String) : Option ℕ := w.defs.lookup (registry, id)

/-- The object with a name. -/
def World.thing (w : World) (registry id : String) : Option Thing :=
  (w.find registry id).bind fun n => w.things[n]?

/-- The fates of the intensity measure with a number, as they are now (/repo/src/relationships.cpp:36-74); a
demand asks it when a rate is wanted (276-287). -/
def World.fates (w : World) (n : ℕ) : Fates :=
  match w.things[n]? with
  | some (.im _ _ f) => f
  | _ => Fates.init

/-- The curve and the fates of the intensity measure with a name, as they are now. -/
def World.measure (w : World) (i : String) : Option ((Dbl → Dbl) × Fates) :=
  match w.thing "im" i with
  | some (.im _ c f) => some (c, f)
  | _ => none

/-- A new object is entered (/repo/src/pyslat.py:398-399, 479-480, 591-595, 729-733, 865-871, 983-989,
1121-1125, 1268-1269). -/
def World.add (w : World) (registry id : String) (t : Thing) : World :=
  ⟨((registry, id), w.things.length) :: w.defs, w.things ++ [t]⟩

/-- A number handed to the library: SWIG takes integers and floating-point numbers for `double`
(/repo/src/pyslatcore.i). -/
def number : Val → Option ℝ
  | .int z => some z
  | .flt x => some x
  | _ => none

/-- A list of numbers (/repo/src/pyslatcore.i, `std::vector<double>`). -/
def numbers : Val → Option (List ℝ)
  | .list l => l.mapM number
  | _ => none

/-- A list of pairs of numbers, as `fragfn_user` and `simplelossfn` take them apart (/repo/src/pyslat.py:934-935,
1018-1020). -/
def pairs : Val → Option (List (ℝ × ℝ))
  | .list l => l.mapM fun
    | .list [a, b] => do return (← number a, ← number b)
    | _ => none
  | _ => none

/-- A list of five numbers each, the first two integers that fit (/repo/src/pyslat.py:1053-1060). -/
def levels : Val → Option (List (List ℤ × List ℝ))
  | .list l => l.mapM fun
    | .list [.int lo, .int hi, a, b, c] =>
      if Loss.inInt lo ∧ Loss.inInt hi then do return ([lo, hi], [← number a, ← number b, ← number c])
      else none
    | _ => none
  | _ => none

/-- The names of the interpretations (/repo/src/pyslatcore.cpp:212-236). -/
def mtype : Mu → LogNormalFn.MType
  | .meanLn => .meanLnX
  | .median => .medianX
  | .mean => .meanX

/-- See `mtype`. -/
def stype : Sd → LogNormalFn.SType
  | .sd => .sigmaX
  | .sdLn => .sigmaLnX

/-- The same for distributions (/repo/src/SlatInterpreter.py:265-293). -/
def muType : Mu → Make.MuType
  | .meanLn => .meanLnX
  | .median => .medianX
  | .mean => .meanX

/-- See `muType`. -/
def sigmaType : Sd → Make.SigmaType
  | .sd => .sdX
  | .sdLn => .sdLnX

/-- Does a query of the function return (/repo/src/functions.cpp:316-361, C19)? -/
def returns : Mu → Sd → Bool
  | _, .sdLn => true
  | .mean, .sd => true
  | _, .sd => false

/-- `LogNormalFn::distribution` (/repo/src/functions.cpp:399-403); four nested calls are enough where queries return
at all. -/
def lawAt (mu : Mu) (sp : Sd) (f g : Dbl → Dbl) (x : Dbl) : LogNormalDist :=
  (LogNormalFn.distribution (mtype mu) (stype sp) (f x) (g x) 4).getD LogNormalDist.unset

/-- The queries of a probabilistic function (/repo/src/functions.cpp:369-397). -/
def stats (d : Dbl → LogNormalDist) : Rec.Stats where
  mean x := (d x).getMean
  meanLn x := (d x).getMuLn
  median x := (d x).getMedian
  sdLn x := (d x).getSigmaLn
  sd x := (d x).getSigma
  xAt x p := (d x).xAtP p

/-- A component group as a recorder sees it.  A group without a delay function gets one with a single damage state
(/repo/src/pyslat.py:230-233). -/
def Group.obj (N : Numerics) (g : Group) : Rec.GroupObj where
  imId := g.imId
  onsets := g.states
  eCostEdp := fun x => (g.loss g.cost g.costAdj x).getMean
  sdLnCostEdp := fun x => (g.loss g.cost g.costAdj x).getSigmaLn
  eCostIm := (N.group g).eCostIm
  sdLnCostIm := (N.group g).sdLnCostIm
  eDelayEdp := fun x => (g.loss (g.delay.getD (.simple [Make.defaultDist])) g.delayAdj x).getMean
  sdLnDelayEdp := fun x => (g.loss (g.delay.getD (.simple [Make.defaultDist])) g.delayAdj x).getSigmaLn
  eDelayIm := (N.group g).eDelayIm
  sdLnDelayIm := (N.group g).sdLnDelayIm
  pDsIm := fun x => g.states.map fun d => (N.group g).pDsIm d x
  rate := g.states.map (N.group g).rate
  lambdaCost := (N.group g).lambdaCost
  edpKey := g.edp.1
  fragKey := g.frag.1
  edpName := some (some g.edp.2)
  fragName := some (some g.frag.2)

/-- A structure as a recorder sees it (/repo/src/pyslat.py:1281-1286, 1345-1377); without a group, which scripts cannot
have, there are no costs. -/
def Building.obj (N : Numerics) (w : World) (b : Building) : Rec.StructObj :=
  let im := b.groups.head?.map Group.imId
  let m := im.bind w.measure
  let costs := b.costs N (m.map (·.2))
  let total := fun x => (costs.totalCost x).getD LogNormalDist.unset
  let annual := N.annual ((m.map (·.1)).getD fun _ => .nan) total
  { imId := im
    groups := b.groups.map (Group.obj N)
    totalCost := total
    annualCost := annual
    costsByFate := costs.costsByFate
    eCost := fun y r => discounted annual.getMean y r
    pdf := fun x => (costs.pdf (N.slope ((m.map (·.1)).getD fun _ => .nan)) x).getD .nan }

/-- An object as a recorder sees it.  No recorder is for a fragility or a loss function. -/
def Thing.obj (N : Numerics) (w : World) : Thing → Rec.Obj
  | .detfn f => .detfn f
  | .probfn mu sp f g => .probfn (stats (lawAt mu sp f g))
  | .im id curve fates => .im
    { id := id
      lambda := curve
      pDemolition := fates.pDemolition
      pCollapse := fates.pCollapse
      demolitionRate := N.demolitionRate curve fates
      collapseRate := N.collapseRate curve fates }
  | .edp imId n curve mu sp f g => .edp
    { imId := imId
      stats := stats (lawAt mu sp f g)
      lambda := N.edpRate curve (w.fates n) (lawAt mu sp f g) }
  | .fragfn _ => .none
  | .lossfn _ => .none
  | .group g => .group (g.obj N)
  | .building b => .struct (b.obj N w)

/-- `SetCollapse`, `SetDemolition` (/repo/src/SlatInterpreter.py:218-238): the distribution is made first, then the
intensity measure is looked up; `None` as an option is refused by SWIG, and `None` has no methods. -/
def setFate (w : World) (id : String) (mu sp : Val) (mo : Option Mu) (so : Option Sd)
    (set : Fates → LogNormalDist → Fates) : Except Stop World :=
  match number mu, number sp, mo, so with
  | some a, some b, some mo, some so =>
    match w.find "im" id with
    | none => .error .raised
    | some n => match w.things[n]? with
      | some (.im i c f) => .ok { w with
          things := w.things.set n (.im i c (set f
            (Make.logNormalDist (.fin a) (muType mo) (.fin b) (sigmaType so)))) }
      | _ => .error .outside
  | some _, some _, _, _ => .error .raised
  | _, _, _, _ => .error .outside

/-- `setRebuildCost`, `setDemolitionCost` (/repo/src/SlatInterpreter.py:381-396, /repo/src/pyslat.py:1319-1334): as for the
fates, the distribution is made after the structure is looked up, which makes no difference here. -/
def setCost (w : World) (id : String) (mu sp : Val) (mo : Option Mu) (so : Option Sd)
    (set : Building → LogNormalDist → Building) : Except Stop World :=
  match number mu, number sp, mo, so with
  | some a, some b, some mo, some so =>
    match w.find "structure" id with
    | none => .error .raised
    | some n => match w.things[n]? with
      | some (.building s) => .ok { w with
          things := w.things.set n (.building (set s
            (Make.logNormalDist (.fin a) (muType mo) (.fin b) (sigmaType so)))) }
      | _ => .error .outside
  | some _, some _, _, _ => .error .raised
  | _, _, _, _ => .error .outside

/-- A function made by a factory is entered, unless the process ended in the factory
(/repo/src/pyslat.py:930-937, 1013-1024, 1046-1062). -/
def World.enter {α : Type} (w : World) (registry id : String) (mk : α → Thing) : Make.Result α → Except Stop World
  | .value a => match w.find registry id with
    | none => .ok (w.add registry id (mk a))
    | some _ => .error .outside
  | .raises => .error .raised
  | _ => .error .outside

/-- `compgroup.__init__` (/repo/src/pyslat.py:1103-1125) called by `exitCompgroup_command`
(/repo/src/SlatInterpreter.py:345-368): a demand or fragility function that does not exist has no methods, a
cost function that does not exist is refused by SWIG (passed by value, /repo/src/pyslatcore.cpp:718), as is a
count that does not fit; a delay function that does not exist counts as none. -/
def World.group (w : World) (id e f k : String) (d : Option String) (n : ℕ) (x y : ℚ) : Except Stop World :=
  match w.find "edp" e, w.thing "edp" e, w.find "fragfn" f, w.thing "fragfn" f, w.thing "lossfn" k with
  | some en, some (.edp im _ c mu sp a b), some fn, some (.fragfn ds), some (.lossfn l) =>
    if n ≤ 2147483647 then
      match w.find "compgroup" id with
      | none => .ok (w.add "compgroup" id (.group
          { imId := im, curve := c, mu := mu, sp := sp, f := a, g := b, edp := (en, e), frag := (fn, f), states := ds
            cost := l
            delay := d.bind fun s => match w.thing "lossfn" s with
              | some (.lossfn l) => some l
              | _ => none
            count := n, costAdj := x, delayAdj := y }))
      | some _ => .error .outside
    else .error .raised
  | _, _, _, _, _ => .error .raised

/-- `structure.AddCompGroup` (/repo/src/pyslat.py:1297-1306): a group that does not exist has no methods, and a group with
another intensity measure ends the process (/repo/src/structure.cpp:56-58). -/
def World.addGroup (w : World) (id k : String) : Except Stop World :=
  match w.find "structure" id with
  | none => .error .outside
  | some n => match w.things[n]?, w.thing "compgroup" k with
    | some (.building b), some (.group g) =>
      if ∀ h ∈ b.groups.head?, h.imId = g.imId then
        .ok { w with things := w.things.set n (.building { b with groups := b.groups ++ [g] }) }
      else .error .outside
    | some (.building _), _ => .error .raised
    | _, _ => .error .outside

/-- The functions of `pyslat` that the handlers call (/repo/src/SlatInterpreter.py:79-102, 199-247, 295-396). -/
def World.call (w : World) : Call → Except Stop World
  | .detfn id type v => match numbers v with
    | none => .error .outside
    | some l => match Make.detfn type (.numbers l) with
      | .value (some f) => .ok (w.add "detfn" id (.detfn f))
      | .raises => .error .raised
      | _ => .error .outside
  | .probfn id mu mufn sp sdfn => match w.thing "detfn" mufn, w.thing "detfn" sdfn with
    | some (.detfn f), some (.detfn g) => match mu, sp with
      | some mu, some sp =>
        if returns mu sp then .ok (w.add "probfn" id (.probfn mu sp f g)) else .error .outside
      | _, _ => .error .raised
    | _, _ => .error .raised
  | .im id fn => match w.thing "detfn" fn with
    | some (.detfn f) => match w.find "im" id with
      | none => .ok (w.add "im" id (.im id f Fates.init))
      | some _ => .error .outside
    | _ => .error .raised
  | .edp id im fn => match w.find "im" im, w.thing "im" im, w.thing "probfn" fn with
    | some n, some (.im i c _), some (.probfn mu sp f g) => match w.find "edp" id with
      | none => .ok (w.add "edp" id (.edp i n c mu sp f g))
      | some _ => .error .outside
    | _, _, _ => .error .raised
  | .dist .collapse id mu mo sp so => setFate w id mu sp mo so Fates.setCollapse
  | .dist .demolition id mu mo sp so => setFate w id mu sp mo so Fates.setDemolition
  | .fragfnUser id mu sp v => match pairs v with
    | none => .error .outside
    | some ps => w.enter "fragfn" id .fragfn (Make.fragfnUser ⟨mu.map muType, sp.map sigmaType⟩ ps)
  | .simpleLoss id mu sp v => match pairs v with
    | none => .error .outside
    | some ps => w.enter "lossfn" id (fun ds => .lossfn (.simple ds))
        (Make.simplelossfn ⟨mu.map muType, sp.map sigmaType⟩ ps)
  | .bilevelLoss id v => match levels v with
    | none => .error .outside
    | some rs => w.enter "lossfn" id (fun ls => .lossfn (.biLevel ls)) (Make.bilevellossfn rs)
  | .compgroup id e f k d n x y => w.group id e f k d n x y
  | .structure_ id => match w.find "structure" id with
    | none => .ok (w.add "structure" id (.building {}))
    | some _ => .error .outside
  | .addCompGroup id k => w.addGroup id k
  | .dist .rebuildCost id mu mo sp so => setCost w id mu sp mo so fun b d => { b with rebuild := d }
  | .dist .demolitionCost id mu mo sp so => setCost w id mu sp mo so fun b d => { b with demolition := d }
  | .inputdir _ => .ok w
  | _ => .error .outside

/-- The library of this module; the texts of `print` are a parameter. -/
def plain (N : Numerics) (describe : World → Interp.Printed → String) : Lib World where
  call := World.call
  find := World.find
  obj w n := match w.things[n]? with
    | some t => t.obj N w
    | none => .none
  describe := describe

end

end Slat.Session
