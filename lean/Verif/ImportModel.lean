import Verif.MakeModel
import Verif.LogNormalFnModel

/-!
# Importing demand and hazard functions from files (src/pyslat.py:1955-2007)

`numpy.loadtxt` is external: a file with `r` rows of `c` numbers each is an array of shape `(r, c)` from which dimensions of
length 1 are removed; rows of different lengths are an error.  `numpy.mean` and `numpy.std(ddof=1)` are the mean and the
sample standard deviation, NaN where the divisor is zero.  Numbers in files are finite.
-/

namespace Slat.Import

open Slat Dbl Slat.Make

noncomputable section

/-- A row of the file: the intensity and the results (src/pyslat.py:1964-1975). -/
structure Row where
  x : ℝ
  ys : List ℝ

/-- The logarithms of the results that are not zero (src/pyslat.py:1968-1972); `none` is the `ValueError` of `math.log` for a
negative number. -/
def lnValues : List ℝ → Option (List ℝ)
  | [] => some []
  | y :: ys =>
    open Classical in
    if y = 0 then lnValues ys
    else if y < 0 then none
    else (lnValues ys).map (fun l => Real.log y :: l)

/-- The number of results that are zero (src/pyslat.py:1967, 1969-1970).  Its share is stored in a list (1975) that is never
used. -/
def collapses : List ℝ → ℕ
  | [] => 0
  | y :: ys =>
    open Classical in
    if y = 0 then collapses ys + 1 else collapses ys

/-- `np.mean` (external, used at src/pyslat.py:1973). -/
def mean (l : List ℝ) : Dbl := .fin l.sum / .fin (l.length : ℝ)

/-- The mean as a number, used inside `np.std` (external, src/pyslat.py:1974). -/
def meanR (l : List ℝ) : ℝ := l.sum / l.length

/-- `np.std(_, ddof=1)` (external, used at src/pyslat.py:1974): the divisor is one less than the number of values; numpy's
result is NaN when it is not positive. -/
def std (l : List ℝ) : Dbl :=
  if l.length < 2 then .nan
  else .fin (Real.sqrt ((l.map (fun v => (v - meanR l) ^ 2)).sum / ((l.length : ℝ) - 1)))

/-- The points added for one row (src/pyslat.py:1965-1975): intensity, `exp` of the mean, deviation. -/
def point (r : Row) : Option (ℝ × Dbl × Dbl) :=
  (lnValues r.ys).map (fun l => (r.x, exp (mean l), std l))

/-- A piecewise linear function through points whose ordinates may be NaN: `gsl_interp_linear`'s formula
`y_lo + (x - x_lo) / (x_hi - x_lo) * (y_hi - y_lo)` in the cell found for `x` (external; src/functions.cpp:213-227).
Agrees with `Functions.interp` when the ordinates are numbers (`interpD_fin`). -/
def interpD : List (ℝ × Dbl) → ℝ → Dbl
  | p :: q :: rest, x =>
    if x < q.1 ∨ rest.length = 0 then p.2 + .fin ((x - p.1) / (q.1 - p.1)) * (q.2 - p.2)
    else interpD (q :: rest) x
  | [p], _ => p.2
  | [], _ => .nan

/-- The check of `gsl_spline_alloc` and `gsl_spline_init` (external): at least two points, strictly increasing. -/
def tableOk (pts : List (ℝ × Dbl)) : Prop := 2 ≤ pts.length ∧ pts.Pairwise (fun p q => p.1 < q.1)

/-- `LinearInterpolatedFn::Evaluate` (src/functions.cpp:213-227) with ordinates that may be NaN. -/
def linear (first last : ℝ × Dbl) (pts : List (ℝ × Dbl)) (x : Dbl) : Dbl :=
  if x < .fin first.1 then first.2
  else if .fin last.1 < x then last.2
  else match x with
    | .fin r => interpD pts r
    | _ => .nan

/-- `detfn(None, 'linear', [x, y])` (src/pyslat.py:1986-1987, 377-399, src/pyslatcore.cpp:111-120): a null function for fewer
than two points, the end of the process (GSL) if the abscissae do not increase. -/
def linearFn (pts : List (ℝ × Dbl)) : Result Wrapped :=
  open Classical in
  if pts.length < 2 then .value none
  else if tableOk pts then
    match pts.head?, pts.getLast? with
    | some a, some b => .value (some (linear a b pts))
    | _, _ => .dies
  else .dies

/-- The array `loadtxt` gives (src/pyslat.py:1957): rows all of the same length; a single row, or a single column, is an array of
one dimension, whose elements cannot be indexed (`d[0]` raises). -/
inductive Array2 where
  | rows (l : List Row)
  | flat
  | ragged

/-- `np.loadtxt(filename, skiprows=2)` (external, src/pyslat.py:1957): `file` is the rows of numbers. -/
def loadtxt (file : List (List ℝ)) : Array2 :=
  match file with
  | [] => .rows []
  | r :: rs =>
    if rs.all (fun s => s.length == r.length) then
      if rs.length = 0 ∨ r.length < 2 then .flat
      else .rows ((r :: rs).map (fun s => ⟨s.headD 0, s.tail⟩))
    else .ragged

/-- The tables built by `ImportProbFn` (src/pyslat.py:1958-1975): a point at the origin, then one per row. -/
def tables (rows : List Row) : Option (List (ℝ × Dbl) × List (ℝ × Dbl)) :=
  (rows.mapM point).map (fun ps =>
    ((0, .fin 0) :: ps.map (fun p => (p.1, p.2.1)), (0, .fin 0) :: ps.map (fun p => (p.1, p.2.2))))

/-- The two functions of a log-normal demand function (src/pyslat.py:1988-1990): a null function is dereferenced by the
constructor (src/functions.cpp:287-303). -/
def probfn (mu sigma : Result Wrapped) : Result ((Dbl → Dbl) × (Dbl → Dbl)) :=
  match mu, sigma with
  | .value (some f), .value (some g) => .value (f, g)
  | .value _, .value _ => .undefined
  | .dies, _ => .dies
  | _, .dies => .dies
  | .undefined, _ => .undefined
  | _, .undefined => .undefined
  | .raises, _ => .raises
  | _, .raises => .raises

/-- `ImportProbFn` (src/pyslat.py:1955-1990): the functions for the median and the logarithmic standard deviation. -/
def importProbFn (file : List (List ℝ)) : Result ((Dbl → Dbl) × (Dbl → Dbl)) :=
  match loadtxt file with
  | .ragged => .raises
  | .flat => .raises
  | .rows rows =>
    match tables rows with
    | none => .raises
    | some t => probfn (linearFn t.1) (linearFn t.2)

/-- The distribution of the demand at an intensity (src/functions.cpp:338-346, 399-403 with the types of
src/pyslat.py:1989-1990). -/
def demandAt (f : (Dbl → Dbl) × (Dbl → Dbl)) (x : Dbl) : Option LogNormalDist :=
  LogNormalFn.distribution .medianX .sigmaLnX (f.1 x) (f.2 x) 2

/-- `ImportIMFn` (src/pyslat.py:1998-2007): a log-log function of the first two columns.  A null function is dereferenced when the
intensity measure is made (src/relationships.cpp:49-57).  Positive data only, as `Functions.logLogFn`. -/
def importIMFn (file : List (List ℝ)) : Result (Dbl → Dbl) :=
  match loadtxt file with
  | .ragged => .raises
  | .flat => .raises
  | .rows rows =>
    match rows.mapM (fun r => r.ys.head?.map (fun y => (r.x, y))) with
    | none => .raises
    | some pts =>
      match factory3 .loglog (pts.map Prod.fst) (pts.map Prod.snd) with
      | .value (some f) => .value f
      | .value none => .undefined
      | .dies => .dies
      | .undefined => .undefined
      | .raises => .raises

end

end Slat.Import
