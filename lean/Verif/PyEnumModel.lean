import Verif.PyModel
import Verif.LogNormalFnModel

/-!
# How parameters of probabilistic functions are named on the way to the library

`pyslat` takes the constants of the extension module, these are the enumerators of `/repo/src/pyslatcore.h`, and
`MakeLogNormalProbabilisticFn` translates them to the enumerators of the library, which are numbered in another order.
-/

namespace Slat.Py

open LogNormalFn (MType SType)

noncomputable section

/-- `LOGNORMAL_MU_TYPE` (/repo/src/pyslatcore.h:12, /repo/src/pyslatcore.i:34). -/
def muNames : List String := ["MEAN_X", "MEDIAN_X", "MEAN_LN_X"]

/-- `LOGNORMAL_SIGMA_TYPE` (/repo/src/pyslatcore.h:13, /repo/src/pyslatcore.i:35). -/
def sdNames : List String := ["SD_X", "SD_LN_X"]

/-- A constant of `pyslat.LOGNORMAL_MU_TYPE` or `LOGNORMAL_SIGMA_TYPE` (/repo/src/pyslat.py:112-128): an integer, the position
of the name; `none` if the class has no such attribute. -/
def constant (names : List String) (name : String) : Option ℤ :=
  (names.findIdx? fun n => n = name).map Int.ofNat

/-- The translation of the first type (/repo/src/pyslatcore.cpp:217-229).  SWIG hands over any integer of 32 bits. -/
def muSwitch (z : ℤ) : MType :=
  if some z = constant muNames "MEAN_X" then .meanX
  else if some z = constant muNames "MEDIAN_X" then .medianX
  else if some z = constant muNames "MEAN_LN_X" then .meanLnX
  else .invalid

/-- The translation of the second type (/repo/src/pyslatcore.cpp:231-240). -/
def sdSwitch (z : ℤ) : SType :=
  if some z = constant sdNames "SD_X" then .sigmaX
  else if some z = constant sdNames "SD_LN_X" then .sigmaLnX
  else .invalid

/-- The conversion of a Python object to an enumeration: an integer (or boolean) of 32 bits. -/
def toEnum {D : Type} (a : Arg D) : Out ℤ :=
  match convert .int a with
  | .ok (.int z) => .ok z
  | .ok _ => .raises .typeError
  | .error e => .raises e

/-- `MakeLogNormalProbabilisticFn` (/repo/src/pyslatcore.cpp:209-245), called by `probfn.__init__` (/repo/src/pyslat.py:472-478):
the types of the function made.  An exception of the constructor ends the process. -/
def makeTypes {D : Type} (mt st : Arg D) : Out (MType × SType) :=
  (toEnum mt).then fun m => (toEnum st).then fun s =>
    Out.ofLib (LogNormalFn.construct (muSwitch m) (sdSwitch s))

/-- The distribution of such a function at a point where its two functions have the values `mu` and `sigma`, with a bound on
nested calls (/repo/src/functions.cpp:364-403). -/
def distributionOf {D : Type} (mt st : Arg D) (mu sigma : Dbl) (n : ℕ) : Out (Option LogNormalDist) :=
  (makeTypes mt st).then fun p => .ok (LogNormalFn.distribution p.1 p.2 mu sigma n)

end

end Slat.Py
