import Verif.CurveFModel

/-!
# Discounted costs in machine arithmetic
-/

namespace Slat.CurveF

open Dbl

noncomputable section

/-- `Structure::E_cost(int, double)` (src/structure.cpp:150-153) for a mean annual cost, with every operation rounded.  The conversion
of the `int` to `double` is exact. -/
def Platform.discounted (C : Platform) (annual : Dbl) (year : ℤ) (rate : Dbl) : Dbl :=
  C.mul (C.div (C.sub 1 (C.exp (C.mul (-rate) (.fin year)))) rate) annual

/-- `Structure::E_cost(std::vector<int>, double)` (src/structure.cpp:155-163); the iterations are independent. -/
def Platform.discountedAll (C : Platform) (annual : Dbl) (years : List ℤ) (rate : Dbl) : List Dbl :=
  years.map fun y => C.discounted annual y rate

end

end Slat.CurveF
