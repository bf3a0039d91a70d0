import Verif.LnFModel
import Verif.LogNormalModel

/-!
# Rate and probability curves in machine arithmetic

The curves of `FunctionsModel`, `LogNormalModel` and `FragilityModel` again, with every operation rounded.  Rounding may overflow,
underflow and round to zero; the library functions (`exp`, `log`, `pow`, the Gaussian cdfs of the GSL) are external.
-/

namespace Slat.CurveF

open Dbl

noncomputable section

/-- A machine (`LnF.Machine`) with `pow` of a positive number and `gsl_cdf_ugaussian_P`, `gsl_cdf_ugaussian_Q` of a finite number. -/
structure Platform extends LnF.Machine where
  rpow : ℝ → ℝ → Dbl
  rP : ℝ → Dbl
  rQ : ℝ → Dbl

namespace Platform

variable (C : Platform)

/-- `NonLinearHyperbolicLaw::Evaluate` (src/functions.cpp:151-158). -/
def nlh (vAsy imAsy alpha x : Dbl) : Dbl :=
  if imAsy ≤ x then 0 else C.mul vAsy (C.exp (C.div alpha (C.log (C.div x imAsy))))

/-- C's `pow` for finite arguments; a negative base is not modelled here (NaN). -/
def pow (x b : ℝ) : Dbl :=
  if 0 < x then C.rpow x b else if x = 0 then (if 0 < b then 0 else if b = 0 then 1 else .pinf) else .nan

/-- `PowerLawParametricCurve::Evaluate` (src/functions.cpp:166-169), finite arguments. -/
def plc (a b x : ℝ) : Dbl := C.mul (.fin a) (C.pow x b)

/-- `linear_eval` of `gsl_interp_linear` (gsl, `interpolation/linear.c`) on the interval found. -/
def cell (p q : Dbl × Dbl) (x : Dbl) : Dbl :=
  if 0 < C.sub q.1 p.1 then
    C.add p.2 (C.mul (C.div (C.sub x p.1) (C.sub q.1 p.1)) (C.sub q.2 p.2))
  else 0

/-- `gsl_spline_eval_e` for an argument in the range of the table: the interval is found by comparisons
(`gsl_interp_accel_find`; the last one at the right end). -/
def interp : List (Dbl × Dbl) → Dbl → Dbl
  | p :: q :: rest, x => if x < q.1 ∨ rest = [] then C.cell p q x else interp (q :: rest) x
  | _, _ => .nan

/-- `LinearInterpolatedFn::Evaluate` (src/functions.cpp:213-227). -/
def linear (first last : Dbl × Dbl) (pts : List (Dbl × Dbl)) (x : Dbl) : Dbl :=
  if x < first.1 then first.2 else if last.1 < x then last.2 else C.interp pts x

/-- Table in log scale (src/functions.cpp:241-246). -/
def logTable (pts : List (Dbl × Dbl)) : List (Dbl × Dbl) := pts.map fun p => (C.log p.1, C.log p.2)

/-- `LogLogInterpolatedFn::Evaluate` (src/functions.cpp:265-278). -/
def logLog (first last : Dbl × Dbl) (pts : List (Dbl × Dbl)) (x : Dbl) : Dbl :=
  if x < first.1 then first.2 else if last.1 < x then last.2 else C.exp (C.interp (C.logTable pts) (C.log x))

/-- `gsl_cdf_ugaussian_P` (external). -/
def gaussP : Dbl → Dbl
  | .fin u => C.rP u
  | .pinf => 1
  | .ninf => 0
  | .nan => .nan

/-- `gsl_cdf_ugaussian_Q` (external). -/
def gaussQ : Dbl → Dbl
  | .fin u => C.rQ u
  | .pinf => 0
  | .ninf => 1
  | .nan => .nan

/-- `p_at_least` (src/lognormaldist.cpp:82-103) with `gsl_cdf_lognormal_Q` (gsl, `cdf/lognormal.c`). -/
def pAtLeast (d : LogNormalDist) (x : Dbl) : Dbl :=
  if isNaN d.mu ∧ isNaN d.sigma then .nan
  else if isNaN d.mu then 0
  else
    let result := C.gaussQ (C.div (C.sub (C.log x) d.mu) d.sigma)
    if result < 0 then 0 else result

/-- `p_at_most` (src/lognormaldist.cpp:105-121) with `gsl_cdf_lognormal_P` (gsl, `cdf/lognormal.c`). -/
def pAtMost (d : LogNormalDist) (x : Dbl) : Dbl :=
  if isNaN d.mu ∧ isNaN d.sigma then .nan
  else
    let result := C.gaussP (C.div (C.sub (C.log x) d.mu) d.sigma)
    if result < 0 then 0 else result

/-- `pExceeded` (src/fragility.cpp:54-61). -/
def pExceeded (states : List LogNormalDist) (edp : Dbl) : List Dbl := states.map fun d => C.pAtMost d edp

/-- Loop of `pHighest` (src/fragility.cpp:66-71). -/
def differences : List Dbl → List Dbl
  | a :: b :: l => (if C.sub a b < 0 then 0 else C.sub a b) :: differences (b :: l)
  | l => l

/-- `pHighest` (src/fragility.cpp:63-73). -/
def pHighest (states : List LogNormalDist) (edp : Dbl) : List Dbl := C.differences (C.pExceeded states edp)

end Platform

/-- What is assumed of a platform.  The rounding laws hold for the formats of IEEE-754 with gradual underflow in all rounding
directions; monotone library functions are an assumption about the libraries. -/
structure Laws (C : Platform) : Prop where
  mono : ∀ x y, x ≤ y → C.rnd x ≤ C.rnd y
  idem : ∀ x y, C.rnd x = .fin y → C.rnd y = .fin y
  zero : C.rnd 0 = .fin 0
  one : C.rnd 1 = .fin 1
  minus : ∀ x, C.rnd x = .fin x → C.rnd (-x) = .fin (-x)
  /-- different numbers have a quotient different from one -/
  below : ∀ x y, C.rnd x = .fin x → C.rnd y = .fin y → 0 < x → x < y → ∃ q, C.rnd (x / y) = .fin q ∧ q < 1
  /-- and a difference different from zero -/
  apart : ∀ x y, C.rnd x = .fin x → C.rnd y = .fin y → x < y → .fin 0 < C.rnd (y - x)
  expMono : ∀ x y, x ≤ y → C.rexp x ≤ C.rexp y
  expZero : C.rexp 0 = .fin 1
  expNonneg : ∀ x, .fin 0 ≤ C.rexp x
  expRounded : ∀ x y, C.rexp x = .fin y → C.rnd y = .fin y
  logMono : ∀ x y, 0 < x → x ≤ y → C.rlog x ≤ C.rlog y
  logOne : C.rlog 1 = .fin 0
  logNeg : ∀ x, 0 < x → x < 1 → C.rnd x = .fin x → C.rlog x < .fin 0
  logRounded : ∀ x, 0 < x → C.rnd x = .fin x → ∃ l, C.rlog x = .fin l ∧ C.rnd l = .fin l
  powMono : ∀ x y b, 0 < x → x ≤ y → 0 ≤ b → C.rpow x b ≤ C.rpow y b
  powNonneg : ∀ x b, 0 < x → .fin 0 ≤ C.rpow x b
  pMono : ∀ x y, x ≤ y → C.rP x ≤ C.rP y
  pNonneg : ∀ x, .fin 0 ≤ C.rP x
  pLeOne : ∀ x, C.rP x ≤ .fin 1
  pRounded : ∀ x y, C.rP x = .fin y → C.rnd y = .fin y
  qMono : ∀ x y, x ≤ y → C.rQ y ≤ C.rQ x
  qNonneg : ∀ x, .fin 0 ≤ C.rQ x
  qLeOne : ∀ x, C.rQ x ≤ .fin 1

/-- How precise the rounding is: relative error `u`, and `eta` more when a result underflows.  Sums do not underflow, and differences
of numbers within a factor of two are exact. -/
structure Precise (C : Platform) (u eta : ℝ) : Prop where
  u0 : 0 ≤ u
  u1 : u ≤ 1 / 100
  eta0 : 0 ≤ eta
  eta1 : eta ≤ 1 / 100
  near : ∀ x y, C.rnd x = .fin y → |y - x| ≤ u * |x| + eta
  sum : ∀ x y z, C.rnd x = .fin x → C.rnd y = .fin y → C.rnd (x + y) = .fin z → |z - (x + y)| ≤ u * |x + y|
  close : ∀ x y, C.rnd x = .fin x → C.rnd y = .fin y → 0 < x → 0 < y → x ≤ 2 * y → y ≤ 2 * x → C.rnd (x - y) = .fin (x - y)

end

end Slat.CurveF
