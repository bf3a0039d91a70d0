import Verif.DescribeModel

/-!
# Model of the descriptions of groups and of what they are made of (src/comp_group.cpp, fragility.cpp, loss_functions.cpp,
lognormaldist.cpp)
-/

namespace Slat.Describe

/-- `LogNormalDist` (/repo/src/lognormaldist.h:19-55), by the two values that are printed: `get_mean_X` and
`get_sigma_lnX`. -/
structure Dist where
  mean : ℝ
  sdLn : ℝ

/-- `SimpleLossFn` and `BiLevelLossFn` (/repo/src/loss_functions.h:49-67, 84-101); of a `BiLevelLoss` the five parameters of its
constructor (71). -/
inductive Loss
  | simple (l : List Dist)
  | biLevel (l : List (ℤ × ℤ × ℝ × ℝ × ℝ))

/-- `CompGroup` (/repo/src/comp_group.h:229-265): its members.  A function of cost or delay that is not given is a null
pointer. -/
structure Group where
  name : List Char
  count : ℤ
  edp : Edp
  frag : List Dist
  cost : Option Loss
  delay : Option Loss
  costAdj : ℝ
  delayAdj : ℝ

variable (num : ℝ → List Char) (int : ℤ → List Char)

/-- `operator<<` of `LogNormalDist` (/repo/src/lognormaldist.cpp:233-238). -/
def Dist.text (d : Dist) : List Char :=
  lit "(lognormal mean=" ++ num d.mean ++ lit ", sd_ln=" ++ num d.sdLn ++ lit ")"

/-- The loops over states (/repo/src/fragility.cpp:78-81, loss_functions.cpp:68-71). -/
def states (l : List Dist) : List Char := l.flatMap fun d => d.text num ++ lit "; "

/-- `operator<<` of `FragilityFn` (/repo/src/fragility.cpp:75-83). -/
def fragText (l : List Dist) : List Char := lit "FragilityFn: " ++ states num l ++ lit "\n"

/-- `operator<<` of `LossFn` (/repo/src/loss_functions.cpp:29-33) writes the virtual `to_string`: that of `SimpleLossFn`
(64-73); `BiLevelLossFn` has none of its own (loss_functions.h:84-101), so that it is the one of `LossFn` (35-41). -/
def Loss.text : Loss → List Char
  | .simple l => lit "SimpleLossFn: " ++ states num l ++ lit "\n"
  | .biLevel _ => lit "LossFn: " ++ lit "\n"

/-- `operator<<` of `CompGroup` (/repo/src/comp_group.cpp:646-656).  `none`: undefined behaviour, a null pointer is
dereferenced (lines 652, 653). -/
def Group.text (g : Group) : Option (List Char) :=
  match g.cost, g.delay with
  | some c, some d => some (lit "CompGroup " ++ g.name ++ lit ": " ++ int g.count ++ lit ", " ++ g.edp.text num ++ lit ", " ++
      fragText num g.frag ++ lit ", " ++ c.text num ++ lit ", " ++ d.text num ++ lit "\n")
  | _, _ => none

end Slat.Describe
