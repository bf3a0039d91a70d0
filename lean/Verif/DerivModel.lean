import Verif.LnFModel
import Verif.RatesModel

/-!
# Numerical derivatives (`gsl_deriv_central` and its fallbacks)

`DeterministicFn::DerivativeAt`, `IM::DerivativeAt`, `EDP::DerivativeAt` and the calculations of component groups leave
differentiation to the GSL, with a step of 1E-8.  The routines are external; their source (gsl, `deriv/deriv.c`) is transcribed here
so that something can be said about what the calculations get.  All operations are those of a machine (`LnF.Machine`: rounded; the
machine `exact` does not round).
-/

namespace Slat.Deriv

open Dbl

noncomputable section

/-- A machine with `pow(·, 1.0/3.0)` and `pow(·, 1.0/2.0)` of positive numbers (external). -/
structure Lib extends LnF.Machine where
  cube : ℝ → Dbl
  square : ℝ → Dbl

namespace Lib

variable (L : Lib)

/-- `GSL_DBL_EPSILON` (gsl, `gsl_machine.h`). -/
def epsilon : Dbl := .fin (1 / 2 ^ 52)

/-- `GSL_MAX` (gsl, `gsl_minmax.h`). -/
def gslMax (a b : Dbl) : Dbl := if b < a then a else b

/-- `pow (y, 1.0 / 3.0)`; special values of `y` are not distinguished from NaN (they do not occur: `y` is a quotient of positive numbers). -/
def pow3 : Dbl → Dbl
  | .fin y => L.cube y
  | _ => .nan

/-- `pow (y, 1.0 / 2.0)`, as `pow3`. -/
def pow2 : Dbl → Dbl
  | .fin y => L.square y
  | _ => .nan

/-- `r3` of `central_deriv` (gsl, `deriv/deriv.c`). -/
def r3 (f : Dbl → Dbl) (x h : Dbl) : Dbl :=
  L.mul (.fin (1 / 2)) (L.sub (f (L.add x h)) (f (L.sub x h)))

/-- `r5` of `central_deriv` (gsl, `deriv/deriv.c`). -/
def r5 (f : Dbl → Dbl) (x h : Dbl) : Dbl :=
  L.sub (L.mul (L.div (.fin 4) (.fin 3)) (L.sub (f (L.add x (L.div h (.fin 2)))) (f (L.sub x (L.div h (.fin 2))))))
    (L.mul (L.div 1 (.fin 3)) (L.r3 f x h))

/-- `e3` of `central_deriv` (gsl, `deriv/deriv.c`). -/
def e3 (f : Dbl → Dbl) (x h : Dbl) : Dbl := L.mul (L.add (abs (f (L.add x h))) (abs (f (L.sub x h)))) epsilon

/-- `e5` of `central_deriv` (gsl, `deriv/deriv.c`). -/
def e5 (f : Dbl → Dbl) (x h : Dbl) : Dbl :=
  L.add (L.mul (L.mul (.fin 2) (L.add (abs (f (L.add x (L.div h (.fin 2))))) (abs (f (L.sub x (L.div h (.fin 2))))))) epsilon) (L.e3 f x h)

/-- `dy` of `central_deriv` (gsl, `deriv/deriv.c`). -/
def dy (f : Dbl → Dbl) (x h : Dbl) : Dbl :=
  L.mul (L.mul (gslMax (abs (L.div (L.r3 f x h) h)) (abs (L.div (L.r5 f x h) h))) (L.div (abs x) h)) epsilon

/-- `*result` of `central_deriv`. -/
def centralResult (f : Dbl → Dbl) (x h : Dbl) : Dbl := L.div (L.r5 f x h) h
/-- `*abserr_trunc` of `central_deriv`. -/
def centralTrunc (f : Dbl → Dbl) (x h : Dbl) : Dbl := abs (L.div (L.sub (L.r5 f x h) (L.r3 f x h)) h)
/-- `*abserr_round` of `central_deriv`. -/
def centralRound (f : Dbl → Dbl) (x h : Dbl) : Dbl := L.add (abs (L.div (L.e5 f x h) h)) (L.dy f x h)

/-- The choice between two steps, common to `gsl_deriv_central` and `gsl_deriv_forward` (gsl, `deriv/deriv.c`): result, rounding and
truncation error of the given step, the same for the second step. -/
def choose (r round trunc r' round' trunc' : Dbl) : Dbl :=
  if (round < trunc ∧ (0 < round ∧ 0 < trunc)) ∧ (L.add round' trunc' < L.add round trunc ∧
      abs (L.sub r' r) < L.mul (.fin 4) (L.add round trunc)) then r' else r

/-- `gsl_deriv_central` (gsl, `deriv/deriv.c`). -/
def central (h : Dbl) (f : Dbl → Dbl) (x : Dbl) : Dbl :=
  let hOpt := L.mul h (L.pow3 (L.div (L.centralRound f x h) (L.mul (.fin 2) (L.centralTrunc f x h))))
  L.choose (L.centralResult f x h) (L.centralRound f x h) (L.centralTrunc f x h)
    (L.centralResult f x hOpt) (L.centralRound f x hOpt) (L.centralTrunc f x hOpt)

/-- The points of `forward_deriv` (gsl, `deriv/deriv.c`): `x + h / 4.0`, `x + h / 2.0`, `x + (3.0 / 4.0) * h`, `x + h`. -/
def f1 (f : Dbl → Dbl) (x h : Dbl) : Dbl := f (L.add x (L.div h (.fin 4)))
/-- See `f1`. -/
def f2 (f : Dbl → Dbl) (x h : Dbl) : Dbl := f (L.add x (L.div h (.fin 2)))
/-- See `f1`. -/
def f3 (f : Dbl → Dbl) (x h : Dbl) : Dbl := f (L.add x (L.mul (L.div (.fin 3) (.fin 4)) h))
/-- See `f1`. -/
def f4 (f : Dbl → Dbl) (x h : Dbl) : Dbl := f (L.add x h)

/-- `r2` of `forward_deriv` (gsl, `deriv/deriv.c`). -/
def r2 (f : Dbl → Dbl) (x h : Dbl) : Dbl := L.mul (.fin 2) (L.sub (L.f4 f x h) (L.f2 f x h))

/-- `r4` of `forward_deriv` (gsl, `deriv/deriv.c`). -/
def r4 (f : Dbl → Dbl) (x h : Dbl) : Dbl :=
  L.add (L.sub (L.mul (L.div (.fin 22) (.fin 3)) (L.sub (L.f4 f x h) (L.f3 f x h)))
    (L.mul (L.div (.fin 62) (.fin 3)) (L.sub (L.f3 f x h) (L.f2 f x h))))
    (L.mul (L.div (.fin 52) (.fin 3)) (L.sub (L.f2 f x h) (L.f1 f x h)))

/-- `e4` of `forward_deriv` (gsl, `deriv/deriv.c`). -/
def e4 (f : Dbl → Dbl) (x h : Dbl) : Dbl :=
  L.mul (L.mul (L.mul (.fin 2) (.fin (2067 / 100)))
    (L.add (L.add (L.add (abs (L.f4 f x h)) (abs (L.f3 f x h))) (abs (L.f2 f x h))) (abs (L.f1 f x h)))) epsilon

/-- `dy` of `forward_deriv` (gsl, `deriv/deriv.c`). -/
def dyF (f : Dbl → Dbl) (x h : Dbl) : Dbl :=
  L.mul (L.mul (gslMax (abs (L.div (L.r2 f x h) h)) (abs (L.div (L.r4 f x h) h))) (abs (L.div x h))) epsilon

/-- `*result` of `forward_deriv`. -/
def forwardResult (f : Dbl → Dbl) (x h : Dbl) : Dbl := L.div (L.r4 f x h) h
/-- `*abserr_trunc` of `forward_deriv`. -/
def forwardTrunc (f : Dbl → Dbl) (x h : Dbl) : Dbl := abs (L.div (L.sub (L.r4 f x h) (L.r2 f x h)) h)
/-- `*abserr_round` of `forward_deriv`. -/
def forwardRound (f : Dbl → Dbl) (x h : Dbl) : Dbl := L.add (abs (L.div (L.e4 f x h) h)) (L.dyF f x h)

/-- `gsl_deriv_forward` (gsl, `deriv/deriv.c`); `gsl_deriv_backward` is this with `-h`. -/
def forward (h : Dbl) (f : Dbl → Dbl) (x : Dbl) : Dbl :=
  let hOpt := L.mul h (L.pow2 (L.div (L.forwardRound f x h) (L.forwardTrunc f x h)))
  L.choose (L.forwardResult f x h) (L.forwardRound f x h) (L.forwardTrunc f x h)
    (L.forwardResult f x hOpt) (L.forwardRound f x hOpt) (L.forwardTrunc f x hOpt)

/-- The literal `1E-8`. -/
def step : Dbl := L.rnd (1 / 10 ^ 8)

/-- The routines as the calculations call them (src/functions.cpp:133-135, src/relationships.cpp:147-149, src/comp_group.cpp:305-307,
353-355, 458-460, 506-508, 590-592). -/
def gsl : Rates.Gsl where
  central := L.central L.step
  forward := L.forward L.step
  backward := L.forward (L.sub 0 L.step)

/-- `DeterministicFn::DerivativeAt` and `IM::DerivativeAt` (src/functions.cpp:109-138, src/relationships.cpp:123-151): central, if that
is NaN forward, if that is NaN backward. -/
def derivativeAt (f : Dbl → Dbl) (x : Dbl) : Dbl := L.gsl.deriv f x

/-- `EDP::DerivativeAt` (src/relationships.cpp:208-234): forward only. -/
def edpDerivativeAt (f : Dbl → Dbl) (x : Dbl) : Dbl := L.forward L.step f x

end Lib

/-- A machine that does not round, with the roots `cube` and `square` not above one for arguments below one. -/
structure Exact (L : Lib) : Prop where
  rnd : ∀ x, L.rnd x = .fin x
  cube : ∀ y, 0 < y → y < 1 → ∃ p, L.cube y = .fin p ∧ 0 < p ∧ p ≤ 1
  square : ∀ y, 0 < y → y < 1 → ∃ p, L.square y = .fin p ∧ 0 < p ∧ p ≤ 1

end

end Slat.Deriv
