import Verif.DefineModel

/-!
# Model of `lookup` by library object (src/pyslat.py)

Reports by demand and by fragility function go from a library object back to the Python object that was made with it, and
from there to its name (/repo/src/pyslat.py:1765-1768, 1813-1816).  The state is that of `DefineModel`.
-/

namespace Slat.Define

/-- What `lookup` gives for a library object: the object of Python with this number, `None`, or an exception. -/
inductive Answer
  | found (n : ℕ) | nothing | raises
deriving DecidableEq

/-- `defs.values()` of a class, in some order (/repo/src/pyslat.py:741, 883, 1136).  Simplified: any order, although Python
from 3.7 on has that in which the names were first entered. -/
def Values (s : St) (c : Cls) (vals : List ℕ) : Prop :=
  ∃ ids : List Id, ids.Nodup ∧ (∀ id, id ∈ ids ↔ s.defs c id ≠ none) ∧ vals = ids.filterMap (s.defs c)

/-- The loop of `lookup` (/repo/src/pyslat.py:741-744, 883-886, 1136-1139) for the library object that was made by call
`n`.  `AreSame` compares pointers (/repo/src/pyslatcore.cpp:493-496, 571-574, 713-716), and every call makes its own
object; `None` has no `AreSame` (`AttributeError`). -/
def lookupObj (s : St) : List ℕ → ℕ → Answer
  | [], _ => .nothing
  | m :: vals, n => if s.wraps m = false then .raises else if m = n then .found m else lookupObj s vals n

end Slat.Define
