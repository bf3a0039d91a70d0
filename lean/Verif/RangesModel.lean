import Verif.Dbl

/-!
# Model of the ranges of arguments of recorders (src/pyslat.py, src/SlatInterpreter.py)

Floating-point operations are the real ones followed by a rounding `rnd`, which is a parameter.
-/

namespace Slat.Ranges

noncomputable section

/-- The loop of `frange` (/repo/src/pyslat.py:76-78): the values yielded, provided that the loop ends within the given
number of tests of its condition; `none`: it does not. -/
def loop (rnd : ℝ → ℝ) (limit step : ℝ) (i : ℝ) : ℕ → Option (List ℝ)
  | 0 => none
  | n + 1 => if i ≤ limit then (loop rnd limit step (rnd (i + step)) n).map (i :: ·) else some []

/-- `frange(start, stop, step)` (/repo/src/pyslat.py:74-78). -/
def frange (rnd : ℝ → ℝ) (start stop step : ℝ) (tests : ℕ) : Option (List ℝ) :=
  loop rnd (rnd (stop + rnd (step / 2))) step start tests

/-- The handler of `FLOAT_VAL COLON FLOAT_VAL COLON FLOAT_VAL` (/repo/src/SlatInterpreter.py:625-634): the second
number is the increment, the third the end. -/
def colons (rnd : ℝ → ℝ) (a b c : ℝ) (tests : ℕ) : Option (List ℝ) := frange rnd a c b tests

/-- Outcome of a Python call: an exception, no end (within a number of tests), or a list. -/
inductive Res (α : Type)
  | error
  | running
  | list (l : List α)

/-- The outcome of `list(generator)`. -/
def Res.of {α : Type} : Option (List α) → Res α
  | none => .running
  | some l => .list l

/-- `linrange(start, end, count)` (/repo/src/pyslat.py:93-94); a division by 0 raises `ZeroDivisionError`. -/
def linrange (rnd : ℝ → ℝ) (start stop : ℝ) (count : ℤ) (tests : ℕ) : Res ℝ :=
  if count - 1 = 0 then .error
  else Res.of (frange rnd start stop (rnd (rnd (stop - start) / ((count - 1 : ℤ) : ℝ))) tests)

/-- One value of `logrange` (/repo/src/pyslat.py:84-87); numpy divides by 0 without an exception, here 0 by 0.
Simplified: no rounding. -/
def logValue (start stop : ℝ) (count k : ℕ) : Dbl :=
  if count = 1 then .nan
  else .fin (Real.exp (Real.log start + (k : ℝ) * Real.log (stop / start) / ((count : ℝ) - 1)))

/-- `logrange(start, end, count)` (/repo/src/pyslat.py:84-87); `math.log` raises `ValueError` for arguments that are not
positive, and `end/start` `ZeroDivisionError`.  `count` is a non-negative integer literal
(/repo/src/SlatInterpreter.py:640). -/
def logrange (start stop : ℝ) (count : ℕ) : Res Dbl :=
  if start ≤ 0 ∨ stop / start ≤ 0 then .error
  else .list ((List.range count).map (logValue start stop count))

/-- Python `range(first, last, incr)` for a positive increment, as used for the years of `--npv`
(/repo/src/SlatInterpreter.py:575-578): values below `last`.  An increment of 0 raises `ValueError`. -/
def years (first incr last : ℕ) : Res ℕ :=
  if incr = 0 then .error
  else .list ((List.range ((last - first + incr - 1) / incr)).map fun k => first + k * incr)

end

end Slat.Ranges
