import Mathlib.Data.Real.Basic

/-!
# Model of the descriptions written by the C++ library (src/functions.cpp, src/relationships.cpp)

`operator<<` of functions and demands writes `ToString()` (/repo/src/functions.cpp:55-59, 68-72, relationships.cpp:117-121).
Objects are given by what their members refer to at the moment (functions.h, relationships.h: `replaceable_ptr`), as
trees.  The text of a number on a stream (six significant digits) is a parameter.
-/

namespace Slat.Describe

/-- Deterministic functions: the non-linear hyperbolic law, the power law, and the two interpolated functions with their
tables (/repo/src/functions.h:114-303). -/
inductive Fn
  | hyperbolic (vAsy imAsy alpha : ℝ)
  | power (a b : ℝ)
  | linear (table : List (ℝ × ℝ))
  | logLog (table : List (ℝ × ℝ))

/-- `LogNormalFn` (/repo/src/functions.h:443-546): two functions, and what they give (numbers of `M_TYPE` and
`S_TYPE`, lines 449-450). -/
structure Prob where
  mu : Fn
  muKind : ℕ
  sigma : Fn
  sigmaKind : ℕ

/-- `IM` (/repo/src/relationships.h:32-137); its collapse and demolition distributions are not described. -/
structure Im where
  f : Fn

/-- `EDP` (/repo/src/relationships.h:146-232) and `CompoundEDP`, which has a second demand function and the same `ToString`
(240-283). -/
structure Edp where
  base : Im
  dependent : Prob
  second : Option Prob := none

/-- A string literal of the source. -/
@[irreducible] def lit (s : String) : List Char := s.toList

variable (num : ℝ → List Char)

/-- `ToString` of deterministic functions (/repo/src/functions.cpp:29-53). -/
def Fn.text : Fn → List Char
  | .hyperbolic v i a => lit "Hyperbolic(" ++ num v ++ lit ", " ++ num i ++ lit ", " ++ num a ++ lit ")"
  | .power a b => lit "Power(" ++ num a ++ lit ", " ++ num b ++ lit ")"
  | .linear _ => lit "LinearInterpolatedFn"
  | .logLog _ => lit "LogLogInterpolatedFn"

/-- `LogNormalFn::ToString` (/repo/src/functions.cpp:61-66). -/
def Prob.text (p : Prob) : List Char :=
  lit "LogNormal(" ++ p.mu.text num ++ lit ", " ++ p.sigma.text num ++ lit ")"

/-- `IM::ToString` (/repo/src/relationships.cpp:106-109). -/
def Im.text (i : Im) : List Char := lit "IM(" ++ i.f.text num ++ lit ")"

/-- `EDP::ToString` (/repo/src/relationships.cpp:111-115). -/
def Edp.text (e : Edp) : List Char :=
  lit "EDP((" ++ e.base.text num ++ lit ", " ++ e.dependent.text num ++ lit ")"

end Slat.Describe
