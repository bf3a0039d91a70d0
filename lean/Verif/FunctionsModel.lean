import Verif.Dbl
import Mathlib.Analysis.SpecialFunctions.Pow.Real

/-!
# Model of the deterministic functions (src/functions.cpp:151-278)

`gsl_interp_linear` is external; it is modelled as documented: the interval `[x_i, x_{i+1}]` containing the
argument is located (the last one at the right end) and the straight line through its ends is evaluated.
`gsl_spline_alloc/_init` abort (default GSL error handler) on fewer than two points or abscissae that do not
strictly increase; this is the outcome `none` of the constructors.
-/

namespace Slat.Functions

open Slat Dbl

noncomputable section

/-- C's `pow` on finite values. -/
def powD (x b : ℝ) : Dbl :=
  if 0 < x then .fin (x ^ b)
  else if x = 0 then (if 0 < b then .fin 0 else if b = 0 then .fin 1 else .pinf)
  else if b = ⌊b⌋ then .fin (x ^ ⌊b⌋) else .nan

/-- `NonLinearHyperbolicLaw::Evaluate` (src/functions.cpp:151-158). -/
def nlh (vAsy imAsy alpha : ℝ) (x : Dbl) : Dbl :=
  if .fin imAsy ≤ x then .fin 0 else .fin vAsy * exp (.fin alpha / log (x / .fin imAsy))

/-- `PowerLawParametricCurve::Evaluate` (src/functions.cpp:166-169), finite argument. -/
def plc (a b : ℝ) (x : ℝ) : Dbl := .fin a * powD x b

/-- The piecewise linear interpolant of `gsl_interp_linear` for an argument in the range of the table. -/
def interp : List (ℝ × ℝ) → ℝ → ℝ
  | p :: q :: rest, x =>
    if x < q.1 ∨ rest = [] then p.2 + (x - p.1) / (q.1 - p.1) * (q.2 - p.2)
    else interp (q :: rest) x
  | [p], _ => p.2
  | [], _ => 0

/-- Check made by `gsl_spline_alloc`/`gsl_spline_init` (external): at least two points, strictly increasing. -/
def tableOk (pts : List (ℝ × ℝ)) : Prop := 2 ≤ pts.length ∧ pts.Pairwise (fun p q => p.1 < q.1)

/-- `LinearInterpolatedFn::Evaluate` (src/functions.cpp:213-227) with the end points stored by the base
constructor (177-186).  A NaN argument passes both tests and yields NaN from the GSL. -/
def linear (first last : ℝ × ℝ) (pts : List (ℝ × ℝ)) (x : Dbl) : Dbl :=
  if x < .fin first.1 then .fin first.2
  else if .fin last.1 < x then .fin last.2
  else match x with
    | .fin r => .fin (interp pts r)
    | _ => .nan

/-- `LinearInterpolatedFn` (src/functions.cpp:177-200): construction followed by evaluation. -/
def linearFn (pts : List (ℝ × ℝ)) : Option (Dbl → Dbl) :=
  open Classical in
  if tableOk pts then
    match pts.head?, pts.getLast? with
    | some a, some b => some (linear a b pts)
    | _, _ => none
  else none

/-- Table in log scale (src/functions.cpp:241-246), for positive data. -/
def logTable (pts : List (ℝ × ℝ)) : List (ℝ × ℝ) := pts.map (fun p => (Real.log p.1, Real.log p.2))

/-- `LogLogInterpolatedFn::Evaluate` (src/functions.cpp:265-278). -/
def logLog (first last : ℝ × ℝ) (pts : List (ℝ × ℝ)) (x : Dbl) : Dbl :=
  if x < .fin first.1 then .fin first.2
  else if .fin last.1 < x then .fin last.2
  else match log x with
    | .fin r => exp (.fin (interp (logTable pts) r))
    | _ => .nan

/-- `LogLogInterpolatedFn` (src/functions.cpp:234-248), modelled for positive data only (zero or negative
data put infinities or NaN in the GSL table). -/
def logLogFn (pts : List (ℝ × ℝ)) : Option (Dbl → Dbl) :=
  open Classical in
  if tableOk (logTable pts) then
    match pts.head?, pts.getLast? with
    | some a, some b => some (logLog a b pts)
    | _, _ => none
  else none

end

end Slat.Functions
