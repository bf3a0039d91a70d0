import Verif.FragilityModel
import Verif.GroupModel

/-!
# The recorders of `pyslat.py`

A recorder (`/repo/src/pyslat.py:1410-1952`) holds an object of the library, a list of arguments and
a list of columns; `generate_output` prints a table.  The model has the constructors and every branch
of `generate_output` of the four recorder classes.

Simplifications:

* a printed line is the list of its fields; how a field is padded and a number is rounded to six
  digits is left out.  What the format `:>15.6` refuses (an integer, `None`) and what it cuts off (a
  string after six characters) is in the model;
* the methods of the library are functions that return; a C++ exception would end the
  interpreter (`pyslatcore.i` has no `%exception`) and is left out;
* the messages printed by the constructors (1440-1445, 1475, 1719-1724) are left out;
* of the objects, only the methods reached from a recorder are modelled.  A method which the class
  does not have is an `AttributeError`.
-/

namespace Slat.Rec

noncomputable section

/-! ## Python values -/

/-- The exceptions raised in the modelled code. -/
inductive PyErr
  | typeError
  | valueError
  | attributeError
  | nameError
  | keyError
  | unboundLocal
  | zeroDivision
  deriving DecidableEq, Repr

/-- A Python number: the library takes both kinds where it expects a `double`. -/
inductive Num
  | flt (v : Dbl)
  | int (z : ℤ)

/-- The conversion made by SWIG for a parameter of type `double`. -/
def Num.toDbl : Num → Dbl
  | .flt v => v
  | .int z => .fin z

/-- A value handed to `str.format`. -/
inductive PVal
  | num (n : Num)
  | str (s : String)
  | none

/-- A printed field. -/
inductive Cell
  | num (v : Dbl)
  | int (z : ℤ)
  | text (s : String)

/-- A printed line. -/
abbrev Row := List Cell

/-- `"{:>15}".format(v)`, also with other widths (/repo/src/pyslat.py:1551, 1709, 1779). -/
def fmt : PVal → Except PyErr Cell
  | .num (.flt v) => .ok (.num v)
  | .num (.int z) => .ok (.int z)
  | .str s => .ok (.text s)
  | .none => .error .typeError

/-- `"{:>15.6}".format(v)` (/repo/src/pyslat.py:1558 and most others): a precision is not allowed for
integers, and cuts strings. -/
def fmt6 : PVal → Except PyErr Cell
  | .num (.flt v) => .ok (.num v)
  | .num (.int _) => .error .valueError
  | .str s => .ok (.text (String.ofList (s.toList.take 6)))
  | .none => .error .typeError

/-- Several fields of a line, from left to right. -/
def fields {α : Type} (f : α → Except PyErr Cell) : List α → Except PyErr Row
  | [] => .ok []
  | a :: l => do
    let c ← f a
    let cs ← fields f l
    return c :: cs

/-- The value of a `double` returned by the library. -/
def ret (v : Dbl) : PVal := .num (.flt v)

/-! ## Objects -/

/-- The methods of `probfn` (/repo/src/pyslat.py:502-542) and `edp` (770-835) that describe a
distribution at an argument. -/
structure Stats where
  mean : Dbl → Dbl
  meanLn : Dbl → Dbl
  median : Dbl → Dbl
  sdLn : Dbl → Dbl
  sd : Dbl → Dbl
  xAt : Dbl → Dbl → Dbl

/-- `im` (/repo/src/pyslat.py:557-689); one made without an identifier is left out. -/
structure ImObj where
  id : String
  lambda : Dbl → Dbl
  pDemolition : Dbl → Dbl
  pCollapse : Dbl → Dbl
  demolitionRate : Dbl
  collapseRate : Dbl

/-- `edp` (/repo/src/pyslat.py:694-841); `imId` is `get_IM().id()`. -/
structure EdpObj where
  imId : String
  stats : Stats
  lambda : Dbl → Dbl

/-- `compgroup` (/repo/src/pyslat.py:1072-1239).  `edpKey` and `fragKey` are the addresses of the
library's EDP and fragility function; `edpName` is `edp.lookup(c.get_EDP()).id()` as in line 1768
(`none` if no registered EDP has that address), `fragName` is
`compgroup.lookup(c).fragfn().id()` as in line 1816 (`none` if no registered group has the address
of this one).  The identifier of an object made without one is Python's `None`. -/
structure GroupObj where
  imId : String
  onsets : List LogNormalDist
  eCostEdp : Dbl → Dbl
  sdLnCostEdp : Dbl → Dbl
  eCostIm : Dbl → Dbl
  sdLnCostIm : Dbl → Dbl
  eDelayEdp : Dbl → Dbl
  sdLnDelayEdp : Dbl → Dbl
  eDelayIm : Dbl → Dbl
  sdLnDelayIm : Dbl → Dbl
  pDsIm : Dbl → List Dbl
  rate : List Dbl
  lambdaCost : Dbl → Dbl
  edpKey : ℕ
  fragKey : ℕ
  edpName : Option (Option String)
  fragName : Option (Option String)

/-- `structure` (/repo/src/pyslat.py:1244-1403); `imId` is the identifier of `_im`, which is `None`
until a group is added. -/
structure StructObj where
  imId : Option String
  groups : List GroupObj
  totalCost : Dbl → LogNormalDist
  annualCost : LogNormalDist
  costsByFate : Dbl → LogNormalDist × LogNormalDist × LogNormalDist
  eCost : ℤ → Dbl → Dbl
  pdf : Dbl → Dbl

/-- The object of a recorder.  The interpreter passes the result of a registry's `lookup`, which is
`None` for an unknown identifier (/repo/src/SlatInterpreter.py:602-618). -/
inductive Obj
  | detfn (valueAt : Dbl → Dbl)
  | probfn (s : Stats)
  | im (i : ImObj)
  | edp (e : EdpObj)
  | group (g : GroupObj)
  | struct (s : StructObj)
  | none

/-- `self._function.get_IM().id()` (/repo/src/pyslat.py:1540): `edp` 761, `compgroup` 1142,
`structure` 1282. -/
def Obj.imId : Obj → Except PyErr String
  | .edp e => .ok e.imId
  | .group g => .ok g.imId
  | .struct s => match s.imId with
    | some i => .ok i
    | Option.none => .error .attributeError
  | _ => .error .attributeError

/-! ## Recorders -/

/-- `recorder_type` and the other recorder keywords (/repo/src/SlatInterpreter.py:533-562). -/
inductive Kind
  | detfn | probfn | imrate | edpim | edprate | dsedp | dsim | lossds | costedp | costim
  | delayim | delayedp | dsrate | collrate | costrate | collapse | deagg | totalcost | pdf
  | structcost
  deriving DecidableEq, Repr

/-- `options['structcost-type']` (/repo/src/SlatInterpreter.py:564-581). -/
inductive CostType
  | annual | byEdp | byFrag | byFate | npv
  /-- any other string -/
  | other
  deriving DecidableEq, Repr

/-- The entries of `options` which `generate_output` reads; `structType` and `discountRate` are
absent (`KeyError`) unless set. -/
structure Opts where
  structType : Option CostType := Option.none
  discountRate : Option Dbl := Option.none
  normalise : Bool := false

/-- A column: a name, or a probability. -/
inductive Col
  | name (s : String)
  | prob (p : Num)

/-- `recorder` (/repo/src/pyslat.py:1410-1475) and its subclasses; the kind decides the class
(`MakeRecorder`, 1944-1952). -/
structure Recorder where
  kind : Kind
  fn : Obj
  opts : Opts
  columns : Option (List Col)
  at_ : List Num

/-- The headings `DS1`, `DS2`, … and `E(DS)` (/repo/src/pyslat.py:1461-1463). -/
def dsColumns (n : ℕ) : List Col :=
  (List.range n).map (fun i => Col.name s!"DS{i + 1}") ++ [Col.name "E(DS)"]

/-- The columns if none are given (/repo/src/pyslat.py:1459-1470).  `function.size()` is
`self._frag.size()`, the number of damage states (1150-1151, 946-947). -/
def defaultColumns (k : Kind) (fn : Obj) : Option (List Col) → Except PyErr (Option (List Col))
  | some l => .ok (some l)
  | Option.none => match k with
    | .dsedp | .dsim => match fn with
      | .group g => .ok (some (dsColumns g.onsets.length))
      | _ => .error .attributeError
    | .probfn | .edpim => .ok (some [.name "mean_ln_x", .name "sd_ln_x"])
    | .costedp | .costim | .delayedp | .delayim | .totalcost =>
      .ok (some [.name "mean_x", .name "sd_ln_x"])
    | _ => .ok Option.none

/-- `recorder.__init__` (/repo/src/pyslat.py:1437-1475).  `at == None` is refused except for three
types; those without arguments never use them. -/
def mkBase (k : Kind) (fn : Obj) (o : Opts) (columns : Option (List Col)) (at_ : Option (List Num)) :
    Except PyErr Recorder :=
  if at_.isNone ∧ k ≠ .dsrate ∧ k ≠ .collrate ∧ k ≠ .structcost then .error .valueError
  else do
    let columns ← defaultColumns k fn columns
    return ⟨k, fn, o, columns, at_.getD []⟩

/-- `MakeRecorder` (/repo/src/pyslat.py:1944-1952) with `StructcostRecorder.__init__` (1718-1732).  A
`structcost` recorder of another kind than `annual` without arguments is refused, one without columns
gets `mean_x`. -/
def make (k : Kind) (fn : Obj) (o : Opts) (columns : Option (List Col)) (at_ : Option (List Num)) :
    Except PyErr Recorder :=
  if k = .structcost then
    match o.structType with
    | Option.none => .error .keyError
    | some t =>
      if t ≠ .annual ∧ at_.isNone then .error .valueError
      else
        let columns := match columns with
          | Option.none => [Col.name "mean_x"]
          | some [] => [Col.name "mean_x"]
          | some l => l
        mkBase k fn o (some columns) at_
  else mkBase k fn o columns at_

/-! ## Output

`generate_output` prints line after line until it returns or an exception stops it.  It is modelled as
the list of the lines in order, each of which may turn out to be an exception; `printed` is what
appears. -/

/-- The lines printed before the first exception, and that exception. -/
def printed : List (Except PyErr Row) → List Row × Option PyErr
  | [] => ([], Option.none)
  | .ok r :: l => let (rs, e) := printed l; (r :: rs, e)
  | .error e :: _ => ([], some e)

/-- A part of the output that is computed before its first line is printed. -/
def lines (l : Except PyErr (List (Except PyErr Row))) : List (Except PyErr Row) :=
  match l with
  | .ok l => l
  | .error e => [.error e]

/-- The first heading (/repo/src/pyslat.py:1518-1540). -/
def xLabel (k : Kind) (fn : Obj) : Except PyErr PVal :=
  match k with
  | .detfn | .probfn => .ok (.str "x")
  | .edprate | .dsedp | .costedp | .delayedp => .ok (.str "EDP")
  | .lossds => .ok (.str "DS")
  | .costrate => .ok (.str "t")
  | .imrate | .edpim | .dsim | .costim | .delayim | .totalcost | .collapse | .deagg =>
    match fn with
    | .im i => .ok (.str i.id)
    | _ => do return .str (← fn.imId)
  | .dsrate | .collrate | .pdf | .structcost => .error .keyError

/-- The heading of a column. -/
def Col.label : Col → PVal
  | .name s => .str s
  | .prob p => .num p

/-- The other headings (/repo/src/pyslat.py:1541-1551): fixed for some types, else the columns;
`for y in None` is a `TypeError`. -/
def yLabels (k : Kind) (columns : Option (List Col)) : Except PyErr (List PVal) :=
  match k with
  | .detfn => .ok [.str "y"]
  | .imrate | .edprate => .ok [.str "lambda"]
  | .costrate => .ok [.str "Rate"]
  | .collapse => .ok [.str "p(Demolition)", .str "p(Collapse)"]
  | .deagg => .ok [.str "mean_nc", .str "sd_nc", .str "mean_c", .str "sd_c"]
  | _ => match columns with
    | some l => .ok (l.map Col.label)
    | Option.none => .error .typeError

/-- The line of headings (/repo/src/pyslat.py:1535-1552). -/
def header (r : Recorder) : Except PyErr Row := do
  let x ← xLabel r.kind r.fn
  let ys ← yLabels r.kind r.columns
  fields fmt (x :: ys)

/-- The values of an `edpim` column at all arguments (/repo/src/pyslat.py:1567-1576); `none` for a
column that no branch matches, which is skipped.  `edp` passes a list to `bulk_Mean` and `bulk_SD_ln`,
but to `MeanLn`, `Median` and `SD` (770-811), of which SWIG knows only the version for one number
(`pyslatcore.i:99-109`): a `TypeError`.  Objects of other classes that get here have no such
methods. -/
def edpimColumn (fn : Obj) (at_ : List Dbl) : Col → Except PyErr (Option (List Dbl))
  | .name c =>
    if c = "mean_x" then bulk Stats.mean
    else if c = "mean_ln_x" then noBulk
    else if c = "median_x" then noBulk
    else if c = "sd_ln_x" then bulk Stats.sdLn
    else if c = "sd_x" then noBulk
    else .ok Option.none
  | .prob _ => .ok Option.none
where
  /-- A method of `edp` that takes a list. -/
  bulk (f : Stats → Dbl → Dbl) : Except PyErr (Option (List Dbl)) :=
    match fn with
    | .edp e => .ok (some (at_.map (f e.stats)))
    | _ => .error .attributeError
  /-- One that passes its list on. -/
  noBulk : Except PyErr (Option (List Dbl)) :=
    match fn with
    | .edp _ => .error .typeError
    | _ => .error .attributeError

/-- The loop over the columns of `edpim` (/repo/src/pyslat.py:1565-1576). -/
def edpimColumns (fn : Obj) (at_ : List Dbl) : List Col → Except PyErr (List (List Dbl))
  | [] => .ok []
  | c :: cs => do
    let y ← edpimColumn fn at_ c
    let ys ← edpimColumns fn at_ cs
    return match y with
      | some y => y :: ys
      | Option.none => ys

/-- `map(list, zip(*yvals))` (/repo/src/pyslat.py:1577): the rows of a table of columns, as many as the
shortest column has; no columns, no rows. -/
def zipColumns (n : ℕ) (cols : List (List Dbl)) : List (List Dbl) :=
  if cols = [] then []
  else (List.range (cols.foldl (fun k l => min k l.length) n)).map
    (fun i => cols.map (fun l => l.getD i .nan))

/-- A line of numbers after an argument (/repo/src/pyslat.py:1558, 1563, 1578-1581). -/
def numRow (x : Num) (ys : List Dbl) : Except PyErr Row := do
  let c ← fmt6 (.num x)
  return c :: ys.map Cell.num

/-- A method of `probfn` (/repo/src/pyslat.py:502-529) or `edp` (770-811); no other class has it.
Those of `probfn` call methods of a `ProbabilisticFn`, a class that
/repo/src/pyslatcore.i does not declare (51, 115 only name it): SWIG makes an object without
attributes, and the call is an `AttributeError`. -/
def statOf (f : Stats → Dbl → Dbl) (fn : Obj) (x : Dbl) : Except PyErr PVal :=
  match fn with
  | .probfn _ => .error .attributeError
  | .edp e => .ok (ret (f e.stats x))
  | _ => .error .attributeError

/-- A method of `compgroup` (/repo/src/pyslat.py:1159-1217). -/
def groupOf (f : GroupObj → Dbl → Dbl) (fn : Obj) (x : Dbl) : Except PyErr PVal :=
  match fn with
  | .group g => .ok (ret (f g x))
  | _ => .error .attributeError

/-- A method of `TotalCost(x)` (/repo/src/pyslat.py:1351, 320-337). -/
def totalOf (f : LogNormalDist → Dbl) (fn : Obj) (x : Dbl) : Except PyErr PVal :=
  match fn with
  | .struct s => .ok (ret (f (s.totalCost x)))
  | _ => .error .attributeError

/-- The column `mean_x` (/repo/src/pyslat.py:1620-1632). -/
def meanOf (k : Kind) (fn : Obj) (x : Dbl) : Except PyErr PVal :=
  match k with
  | .costedp => groupOf GroupObj.eCostEdp fn x
  | .costim => groupOf GroupObj.eCostIm fn x
  | .delayim => groupOf GroupObj.eDelayIm fn x
  | .delayedp => groupOf GroupObj.eDelayEdp fn x
  | .totalcost => totalOf LogNormalDist.getMean fn x
  | _ => statOf Stats.mean fn x

/-- The column `mean_ln_x` (/repo/src/pyslat.py:1633-1637). -/
def meanLnOf (k : Kind) (fn : Obj) (x : Dbl) : Except PyErr PVal :=
  match k with
  | .totalcost => totalOf LogNormalDist.getMuLn fn x
  | _ => statOf Stats.meanLn fn x

/-- The column `median_x` (/repo/src/pyslat.py:1638-1642). -/
def medianOf (k : Kind) (fn : Obj) (x : Dbl) : Except PyErr PVal :=
  match k with
  | .totalcost => totalOf LogNormalDist.getMedian fn x
  | _ => statOf Stats.median fn x

/-- The column `sd_ln_x` (/repo/src/pyslat.py:1643-1655). -/
def sdLnOf (k : Kind) (fn : Obj) (x : Dbl) : Except PyErr PVal :=
  match k with
  | .costedp => groupOf GroupObj.sdLnCostEdp fn x
  | .costim => groupOf GroupObj.sdLnCostIm fn x
  | .delayim => groupOf GroupObj.sdLnDelayIm fn x
  | .delayedp => groupOf GroupObj.sdLnDelayEdp fn x
  | .totalcost => totalOf LogNormalDist.getSigmaLn fn x
  | _ => statOf Stats.sdLn fn x

/-- The column `sd_x` (/repo/src/pyslat.py:1656-1660). -/
def sdOf (k : Kind) (fn : Obj) (x : Dbl) : Except PyErr PVal :=
  match k with
  | .totalcost => totalOf LogNormalDist.getSigma fn x
  | _ => statOf Stats.sd fn x

/-- The value in a column at an argument (/repo/src/pyslat.py:1612-1662); for `probfn` see `statOf`. -/
def colValue (k : Kind) (fn : Obj) (x : Dbl) : Col → Except PyErr PVal
  | .prob p => match fn with
    | .probfn _ => .error .attributeError
    | .edp e => .ok (ret (e.stats.xAt x p.toDbl))
    | _ => .ok (.str "----")
  | .name c =>
    if c = "mean_x" then meanOf k fn x
    else if c = "mean_ln_x" then meanLnOf k fn x
    else if c = "median_x" then medianOf k fn x
    else if c = "sd_ln_x" then sdLnOf k fn x
    else if c = "sd_x" then sdOf k fn x
    else .ok (.str "+++++++++")

/-- The value of a type without columns (/repo/src/pyslat.py:1665-1675).  `IM` and `EDP` are not
defined in the module: looking at anything but the first three is a `NameError`. -/
def plainValue (fn : Obj) (x : Dbl) : Except PyErr PVal :=
  match fn with
  | .detfn f => .ok (ret (f x))
  | .im i => .ok (ret (i.lambda x))
  | .edp e => .ok (ret (e.lambda x))
  | _ => .error .nameError

/-- Python's `sum` of a tuple of floats: starts with the integer 0. -/
def pySum (l : List Dbl) : Num :=
  match l with
  | [] => .int 0
  | _ => .flt (l.foldl (· + ·) 0)

/-- A line with the damage states and their sum (/repo/src/pyslat.py:1590-1598). -/
def dsRow (x : Num) (ys : List Dbl) : Except PyErr Row := do
  let c ← fmt6 (.num x)
  let e ← fmt6 (.num (pySum ys))
  return c :: ys.map Cell.num ++ [e]

/-- A line of the types handled one argument at a time (/repo/src/pyslat.py:1587-1677).
`DeaggregatedLoss` (1603) is not a method of anything. -/
def lineAt (r : Recorder) (x : Num) : Except PyErr Row :=
  match r.kind with
  | .dsedp => match r.fn with
    | .group g => dsRow x (Fragility.pExceeded g.onsets x.toDbl)
    | _ => do let _ ← fmt6 (.num x); .error .attributeError
  | .dsim => match r.fn with
    | .group g => dsRow x (g.pDsIm x.toDbl)
    | _ => do let _ ← fmt6 (.num x); .error .attributeError
  | .costrate => match r.fn with
    | .group g => numRow x [g.lambdaCost x.toDbl]
    | _ => do let _ ← fmt6 (.num x); .error .attributeError
  | .deagg => do let _ ← fmt6 (.num x); .error .attributeError
  | k => match r.columns with
    | some cols => do
      let c ← fmt6 (.num x)
      let cs ← fields (fun c => do fmt6 (← colValue k r.fn x.toDbl c)) cols
      return c :: cs
    | Option.none => do
      let c ← fmt6 (.num x)
      let y ← fmt6 (← plainValue r.fn x.toDbl)
      return [c, y]

/-- `recorder.generate_output` (/repo/src/pyslat.py:1505-1677). -/
def baseOutput (r : Recorder) : List (Except PyErr Row) :=
  let ats := r.at_.map Num.toDbl
  if r.kind = .dsrate then
    match r.fn with
    | .group g =>
      [.ok ((List.range g.rate.length).map (fun i => Cell.text s!"DS{i + 1}")),
        .ok (g.rate.map Cell.num)]
    | _ => [.error .attributeError]
  else
    match header r with
    | .error e => [.error e]
    | .ok h => .ok h ::
      match r.kind with
      | .imrate => lines (match r.fn with
        | .im i => .ok ((r.at_.zip (ats.map i.lambda)).map (fun p => numRow p.1 [p.2]))
        | .edp e => .ok ((r.at_.zip (ats.map e.lambda)).map (fun p => numRow p.1 [p.2]))
        | _ => .error .attributeError)
      | .collapse => lines (match r.fn with
        | .im i => .ok ((r.at_.zip ((ats.map i.pDemolition).zip (ats.map i.pCollapse))).map
            (fun p => numRow p.1 [p.2.1, p.2.2]))
        | _ => .error .attributeError)
      | .edpim => lines (do
          let ys ← edpimColumns r.fn ats (r.columns.getD [])
          return (r.at_.zip (zipColumns ats.length ys)).map (fun p => numRow p.1 p.2))
      | _ => r.at_.map (lineAt r)

/-- `CollRateRecorder.generate_output` (/repo/src/pyslat.py:1708-1711). -/
def collRateOutput (r : Recorder) : List (Except PyErr Row) :=
  .ok [.text "IM", .text "rate(Demolition)", .text "rate(Collapse)"] ::
    match r.fn with
    | .im i => [.ok [.text i.id, .num i.demolitionRate, .num i.collapseRate]]
    | _ => [.error .attributeError]

/-! ### `structcost` -/

/-- `value` after a column of the annual cost (/repo/src/pyslat.py:1751-1760): a column that no branch
matches leaves the previous value, and there is none before the first (`UnboundLocalError`). -/
def annualValue (d : LogNormalDist) (prev : Option Dbl) : Col → Option Dbl
  | .name c =>
    if c = "mean_x" then some d.getMean
    else if c = "mean_ln_x" then some d.getMuLn
    else if c = "median_x" then some d.getMedian
    else if c = "sd_ln_x" then some d.getSigmaLn
    else if c = "sd_x" then some d.getSigma
    else prev
  | .prob _ => prev

/-- The two lines of the annual cost (/repo/src/pyslat.py:1745-1763). -/
def annualLines (d : LogNormalDist) : Option Dbl → List Col → Except PyErr (Row × Row)
  | _, [] => .ok ([], [])
  | prev, c :: cs => do
    let l ← fmt c.label
    match annualValue d prev c with
    | Option.none => .error .unboundLocal
    | some v => do
      let (r1, r2) ← annualLines d (some v) cs
      return (l :: r1, .num v :: r2)

/-- The value of a column of a deaggregated cost (/repo/src/pyslat.py:1795-1806, 1843-1854, 1884-1895):
the names tested are not those of the language. -/
def distValue (d : LogNormalDist) : Col → PVal
  | .name c =>
    if c = "mean_x" then ret d.getMean
    else if c = "mean_ln" then ret d.getMuLn
    else if c = "median" then ret d.getMedian
    else if c = "sd_ln_x" then ret d.getSigmaLn
    else if c = "sd_x" then ret d.getSigma
    else .none
  | .prob _ => .none

/-- `d[k] = v` of a Python dictionary. -/
def dictSet {K V : Type} [DecidableEq K] (d : List (K × V)) (k : K) (v : V) : List (K × V) :=
  match d with
  | [] => [(k, v)]
  | (k', v') :: d => if k' = k then (k', v) :: d else (k', v') :: dictSet d k v

/-- The dictionary `groups` (/repo/src/pyslat.py:1766-1768, 1814-1816): one entry per list of
components, under the name found for its first component. -/
def groupsByName (name : GroupObj → Option (Option String)) :
    List (Option String × List GroupObj) → List (List GroupObj) →
    Except PyErr (List (Option String × List GroupObj))
  | d, [] => .ok d
  | _, [] :: _ => .error .valueError
  | d, (g :: c) :: l => match name g with
    | Option.none => .error .attributeError
    | some n => groupsByName name (dictSet d n (g :: c)) l

/-- Text of a Python value in `"{}".format(v)`. -/
def pyText : Option String → String
  | some s => s
  | Option.none => "None"

/-- `categories.sort()` (/repo/src/pyslat.py:1772-1773): `None` cannot be compared. -/
def sortNames (l : List (Option String)) : Except PyErr (List (Option String)) :=
  if 1 < l.length ∧ Option.none ∈ l then .error .typeError
  else .ok (l.mergeSort (fun a b => pyText a ≤ pyText b))

/-- `"{}.{}".format(c, y)` (/repo/src/pyslat.py:1779); the text of a number is left out. -/
def joined (c : String) : Col → Cell
  | .name y => .text s!"{c}.{y}"
  | .prob _ => .text s!"{c}.<number>"

/-- The distribution of the cost of a list of groups (/repo/src/pyslat.py:1785-1792, 1833-1840):
`MakeLogNormalDist(mean, MEAN_X, sd_ln, SD_LN_X)` of each, summed. -/
def sumOf (gs : List GroupObj) (x : Dbl) : LogNormalDist :=
  LogNormalDist.addDistributions
    (gs.map fun g => LogNormalDist.ofMeanSigmaLn (g.eCostIm x) (g.sdLnCostIm x))

/-- The table of a deaggregated cost: one block of columns per category
(/repo/src/pyslat.py:1775-1809, 1823-1857, 1863-1898). -/
def categoryTable (xl : String) (cats : List (String × (Dbl → LogNormalDist))) (cols : List Col)
    (at_ : List Num) : List (Except PyErr Row) :=
  .ok (.text xl :: (cats.map fun c => cols.map (joined c.1)).flatten) ::
    at_.map fun x => do
      let c ← fmt6 (.num x)
      let cs ← fields (fun p : (Dbl → LogNormalDist) × Col => fmt6 (distValue (p.1 x.toDbl) p.2))
        (cats.map fun c => cols.map fun y => (c.2, y)).flatten
      return c :: cs

/-- The value stored under a key of the dictionary `groups`. -/
def dictGet (d : List (Option String × List GroupObj)) (k : Option String) : List GroupObj :=
  match d with
  | [] => []
  | (k', v) :: d => if k' = k then v else dictGet d k

/-- The outputs `by-edp` and `by-frag` (/repo/src/pyslat.py:1764-1857). -/
def byName (s : StructObj) (key : GroupObj → ℕ) (name : GroupObj → Option (Option String))
    (cols : List Col) (at_ : List Num) : List (Except PyErr Row) :=
  lines (do
    let d ← groupsByName name [] (Grouping.components key s.groups)
    let xl ← (Obj.struct s).imId
    let cats ← sortNames (d.map Prod.fst)
    return categoryTable xl (cats.map fun c => (pyText c, sumOf (dictGet d c))) cols at_)

/-- The output `npv` (/repo/src/pyslat.py:1899-1906).  `E_cost` has an `int` parameter
(`pyslatcore.i:188`), for which SWIG does not take a float. -/
def npvOutput (s : StructObj) (rate : Option Dbl) (at_ : List Num) : List (Except PyErr Row) :=
  match rate with
  | Option.none => [.error .keyError]
  | some rate => .ok [.text "Year", .text "E[ALt]"] ::
    at_.map fun
      | .int y => .ok [.int y, .num (s.eCost y rate)]
      | .flt _ => .error .typeError

/-- `StructcostRecorder.generate_output` (/repo/src/pyslat.py:1744-1908). -/
def structOutput (r : Recorder) : List (Except PyErr Row) :=
  let cols := r.columns.getD []
  match r.fn, r.opts.structType with
  | .struct s, some .annual => lines (do
      let (a, b) ← annualLines s.annualCost Option.none cols
      return [.ok a, .ok b])
  | .struct s, some .byEdp => byName s GroupObj.edpKey GroupObj.edpName cols r.at_
  | .struct s, some .byFrag => byName s GroupObj.fragKey GroupObj.fragName cols r.at_
  | .struct s, some .byFate => lines (do
      let xl ← (Obj.struct s).imId
      return categoryTable xl [("repair", fun x => (s.costsByFate x).1),
        ("demo", fun x => (s.costsByFate x).2.1), ("coll", fun x => (s.costsByFate x).2.2)] cols r.at_)
  | .struct s, some .npv => npvOutput s r.opts.discountRate r.at_
  | _, some .other => [.error .valueError]
  | _, Option.none => [.error .keyError]
  | _, some .npv => match r.opts.discountRate with
    | Option.none => [.error .keyError]
    | some _ => .ok [.text "Year", .text "E[ALt]"] :: r.at_.map fun _ => .error .attributeError
  | _, _ => [.error .attributeError]

/-! ### `pdf` -/

/-- The largest of the values and 0 (/repo/src/pyslat.py:1925-1930). -/
def maxPdf (l : List Dbl) : Dbl := l.foldl (fun m y => if m < y then y else m) 0

/-- `PdfRecorder.generate_output` (/repo/src/pyslat.py:1922-1938): division by zero raises. -/
def pdfOutput (r : Recorder) : List (Except PyErr Row) :=
  lines (do
    let xl ← r.fn.imId
    let h1 ← fmt6 (.str xl)
    let h2 ← fmt6 (.str "pdf")
    return .ok [h1, h2] ::
      match r.fn with
      | .struct s =>
        let results := r.at_.map fun x => s.pdf x.toDbl
        let divisor := if r.opts.normalise then maxPdf results else 1
        (r.at_.zip results).map fun p =>
          if Dbl.feq divisor 0 then .error .zeroDivision
          else numRow p.1 [p.2 / divisor]
      | _ => r.at_.map fun _ => .error .attributeError)

/-- `generate_output` of the class chosen by `MakeRecorder` (/repo/src/pyslat.py:1944-1952). -/
def output (r : Recorder) : List (Except PyErr Row) :=
  match r.kind with
  | .collrate => collRateOutput r
  | .structcost => structOutput r
  | .pdf => pdfOutput r
  | _ => baseOutput r

end

end Slat.Rec
