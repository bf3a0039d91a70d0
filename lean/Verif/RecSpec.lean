import Verif.RecModel

/-!
# What a recorder should print

After the section *Recorders* of `/repo/slat-lang.org` (385-810): a line of headings, then one line
for each argument, in order, with the argument and the values asked for.  Nothing here uses the
functions of `RecModel`, only its data types and the statistics of a log-normal distribution.
-/

namespace Slat.Rec.Spec

noncomputable section

/-- The statistic that a column name stands for (/repo/slat-lang.org:506-530; the names are those of the
grammar, /repo/src/slatParser.g4, `placement_type` and `spread_type`). -/
def named (mean meanLn median sdLn sd : Dbl → Dbl) (c : String) : Option (Dbl → Dbl) :=
  [("mean_x", mean), ("mean_ln_x", meanLn), ("median_x", median), ("sd_ln_x", sdLn),
    ("sd_x", sd)].lookup c

/-- A column of a probabilistic function: a statistic, or the value at a probability. -/
def statistic (s : Stats) : Col → Option (Dbl → Dbl)
  | .name c => named s.mean s.meanLn s.median s.sdLn s.sd c
  | .prob p => some (fun x => s.xAt x p.toDbl)

/-- A column of a cost or delay of which the library gives the mean and the dispersion. -/
def moment (mean sdLn : Dbl → Dbl) : Col → Option (Dbl → Dbl)
  | .name c => [("mean_x", mean), ("sd_ln_x", sdLn)].lookup c
  | .prob _ => none

/-- A column of a distribution. -/
def ofDist (d : Dbl → LogNormalDist) : Col → Option (Dbl → Dbl)
  | .name c => named (fun x => (d x).getMean) (fun x => (d x).getMuLn) (fun x => (d x).getMedian)
      (fun x => (d x).getSigmaLn) (fun x => (d x).getSigma) c
  | .prob _ => none

/-- The headings and values of the chosen columns; `none` if one of them means nothing. -/
def chosen (f : Col → Option (Dbl → Dbl)) : List Col → Option (List (Cell × (Dbl → Dbl)))
  | [] => some []
  | c :: cs => do
    let v ← f c
    let vs ← chosen f cs
    return ((match c with
      | .name s => .text s
      | .prob (.flt p) => .num p
      | .prob (.int z) => .int z), v) :: vs

/-- One column per damage state, and the expected number of states exceeded
(/repo/slat-lang.org:630-660). -/
def stateColumns (n : ℕ) (p : Dbl → List Dbl) : List (Cell × (Dbl → Dbl)) :=
  (List.range n).map (fun i => (Cell.text s!"DS{i + 1}", fun x => (p x).getD i .nan)) ++
    [(Cell.text "E(DS)", fun x => (p x).foldl (· + ·) 0)]

/-- The probability that a state is reached is the probability of exceeding its onset. -/
def exceeded (onsets : List LogNormalDist) (x : Dbl) : List Dbl :=
  onsets.map fun d => d.pAtMost x

/-- The headings and values that a recorder of a kind on an object should print; `none` if the
documentation gives no meaning to the combination.  `cols` are the columns asked for, if any; they
are only for distributions and damage states (/repo/slat-lang.org:440-443). -/
def columns (k : Kind) (fn : Obj) (cols : Option (List Col)) :
    Option (List (Cell × (Dbl → Dbl))) :=
  match k, fn with
  | .detfn, .detfn f => some [(.text "y", f)]
  | .imrate, .im i => some [(.text "lambda", i.lambda)]
  | .edprate, .edp e => some [(.text "lambda", e.lambda)]
  | .costrate, .group g => some [(.text "Rate", g.lambdaCost)]
  | .collapse, .im i => some [(.text "p(Demolition)", i.pDemolition),
      (.text "p(Collapse)", i.pCollapse)]
  | .probfn, .probfn s => chosen (statistic s) (cols.getD [.name "mean_ln_x", .name "sd_ln_x"])
  | .edpim, .edp e => chosen (statistic e.stats) (cols.getD [.name "mean_ln_x", .name "sd_ln_x"])
  | .costedp, .group g => chosen (moment g.eCostEdp g.sdLnCostEdp)
      (cols.getD [.name "mean_x", .name "sd_ln_x"])
  | .costim, .group g => chosen (moment g.eCostIm g.sdLnCostIm)
      (cols.getD [.name "mean_x", .name "sd_ln_x"])
  | .delayedp, .group g => chosen (moment g.eDelayEdp g.sdLnDelayEdp)
      (cols.getD [.name "mean_x", .name "sd_ln_x"])
  | .delayim, .group g => chosen (moment g.eDelayIm g.sdLnDelayIm)
      (cols.getD [.name "mean_x", .name "sd_ln_x"])
  | .totalcost, .struct s => chosen (ofDist s.totalCost)
      (cols.getD [.name "mean_x", .name "sd_ln_x"])
  | .dsedp, .group g => match cols with
    | none => some (stateColumns g.onsets.length (exceeded g.onsets))
    | some cs => chosen (stateOf g.onsets.length (exceeded g.onsets)) cs
  | .dsim, .group g => match cols with
    | none => some (stateColumns g.onsets.length g.pDsIm)
    | some cs => chosen (stateOf g.onsets.length g.pDsIm) cs
  | _, _ => none
where
  /-- `cols` with the numbers of states (/repo/slat-lang.org:660-682). -/
  stateOf (n : ℕ) (p : Dbl → List Dbl) : Col → Option (Dbl → Dbl)
    | .prob (.int z) => if 1 ≤ z ∧ z ≤ n then some fun x => (p x).getD (z.toNat - 1) .nan else none
    | _ => none

/-- The heading of the arguments. -/
def argument (k : Kind) (fn : Obj) : Option Cell :=
  match k, fn with
  | .detfn, _ => some (.text "x")
  | .probfn, _ => some (.text "x")
  | .edprate, _ => some (.text "EDP")
  | .dsedp, _ => some (.text "EDP")
  | .costedp, _ => some (.text "EDP")
  | .delayedp, _ => some (.text "EDP")
  | .costrate, _ => some (.text "t")
  | .imrate, .im i => some (.text i.id)
  | .collapse, .im i => some (.text i.id)
  | .edpim, .edp e => some (.text e.imId)
  | .dsim, .group g => some (.text g.imId)
  | .costim, .group g => some (.text g.imId)
  | .delayim, .group g => some (.text g.imId)
  | .totalcost, .struct s => s.imId.map .text
  | _, _ => none

/-- The table. -/
def table (k : Kind) (fn : Obj) (cols : Option (List Col)) (at_ : List Dbl) : Option (List Row) := do
  let x ← argument k fn
  let cs ← columns k fn cols
  return (x :: cs.map Prod.fst) :: at_.map fun a => .num a :: cs.map fun c => .num (c.2 a)

/-- The forms of the command that work.  The others: chosen columns of an `edprate`, `detfn`, `dsedp` or
`dsim` recorder, an `edpim` recorder with anything but `mean_x` and `sd_ln_x`, even without
`--cols`, and every `probfn` recorder. -/
def Working (k : Kind) (cols : Option (List Col)) : Prop :=
  match k with
  | .detfn | .edprate | .dsedp | .dsim => cols = none
  | .probfn => False
  | .edpim => ∃ l, cols = some l ∧ l ≠ [] ∧ ∀ c ∈ l, c = .name "mean_x" ∨ c = .name "sd_ln_x"
  | _ => True

end

end Slat.Rec.Spec
