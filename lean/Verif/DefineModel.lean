import Mathlib.Logic.Function.Basic
import Mathlib.Tactic.Common

/-!
# Model of the constructors of pyslat (src/pyslat.py), statement by statement, with what they leave behind when they raise

The dictionaries `defs` are changed by the constructors only.  `NamesModel` has the constructors that succeed, with the
library objects behind them; here a constructor may raise at any of its statements, and what it has done until then
stays.  The library objects are not modelled: which statements that make them succeed is a parameter (`Making`).

Simplified: an identifier is `None` or a text; recorders are left out (their dictionary is in `SinkModel` and `RecModel`).
-/

namespace Slat.Define

/-- The classes with a dictionary `defs` (/repo/src/pyslat.py:350, 432, 559, 696, 848, 953, 1074, 1246). -/
inductive Cls
  | detfn | probfn | im | edp | fragfn | lossfn | compgroup | struct
deriving DecidableEq

/-- An identifier: a text, or `None`. -/
abbrev Id := Option String

/-- How the statements of a constructor end that make the library object (they change no dictionary): the object is
made; a Python exception is raised (an argument of a wrong type, or `None` from an unsuccessful `lookup`); a C++
exception ends the program (pyslatcore.i has no `%exception`). -/
inductive Making
  | done | raises | ends
deriving DecidableEq

/-- Calls of constructors: `detfn` (/repo/src/pyslat.py:377-399), `probfn` (469-483), `im` (583-594), `edp` (717-733),
`fragfn_user` (931-938), `fragfn_db` (913-915), `simplelossfn` and `bilevellossfn` (1013-1024, 1046-1062), `compgroup`
(1107-1128), `structure` (1264-1269). -/
inductive Def
  | detfn (id : Id) (type : String) (m : Making)
  | probfn (id : Id) (type : String) (m : Making)
  | im (id : Id) (m : Making)
  | edp (id : Id) (m : Making)
  | fragUser (id : Id) (m : Making)
  | fragDb (id : Id)
  | lossfn (id : Id) (m : Making)
  | compgroup (id : Id) (m : Making)
  | struct (id : Id) (m : Making)

/-- How a call ends: it returns, raises a Python exception, or ends the program. -/
inductive Outcome
  | returned | raised | crashed
deriving DecidableEq

/-- State of `pyslat.py`.  Objects are numbered in the order in which the constructors are called.  `wraps`: `_func` of
the object is not `None`.  `calls`: the calls of `replace` (/repo/src/pyslatcore.cpp:374, 498, 586, 611, 649) so far,
of the first object with the second. -/
structure St where
  defs : Cls → Id → Option ℕ
  wraps : ℕ → Bool
  next : ℕ
  calls : List (ℕ × ℕ)

/-- After `import pyslat`. -/
def St.init : St := ⟨fun _ _ => none, fun _ => false, 0, []⟩

/-- `defs[id] = self`. -/
def enter (s : St) (c : Cls) (id : Id) (n : ℕ) : St :=
  { s with defs := fun c' id' => if c' = c ∧ id' = id then some n else s.defs c' id' }

/-- `old = lookup(id)`, `if old: defs[id]._func.replace(self._func)`, `defs[id] = self` for a text `id`
(/repo/src/pyslat.py:591-594, 730-733, 870-874, 984-988, 1125-1128).  `None` has no `replace` (`AttributeError`);
`replace(None)` reaches the library, which reads from the null pointer (pyslatcore.cpp:586-589). -/
def succeed (s : St) (c : Cls) (id : Id) (n : ℕ) : St × Outcome :=
  match s.defs c id with
  | none => (enter s c id n, .returned)
  | some old =>
    if s.wraps old then
      if s.wraps n then (enter { s with calls := s.calls ++ [(old, n)] } c id n, .returned) else (s, .crashed)
    else (s, .raised)

/-- The same below `if id != None` (/repo/src/pyslat.py:590, 869, 983, 1124). -/
def register (s : St) (c : Cls) (id : Id) (n : ℕ) : St × Outcome :=
  if id ≠ none then succeed s c id n else (s, .returned)

/-- `if id != None: defs[id] = self` (/repo/src/pyslat.py:398-399, 479-480, 1268-1269). -/
def record (s : St) (c : Cls) (id : Id) (n : ℕ) : St := if id ≠ none then enter s c id n else s

/-- What follows when the library object is made. -/
def after (s : St) (m : Making) (k : St × Outcome) : St × Outcome :=
  match m with
  | .done => k
  | .raises => (s, .raised)
  | .ends => (s, .crashed)

/-- The types of `detfn` (/repo/src/pyslat.py:378-387). -/
def detTypes : List String := ["power law", "hyperbolic", "loglog", "linear"]

/-- The constructor of the object `n` (lines listed at `Def`).  `edp` enters the object also without an identifier (733, outside of
the `if`); `probfn` looks at the type last (482-483). -/
def body (s : St) (n : ℕ) : Def → St × Outcome
  | .detfn id type m => if type ∈ detTypes then after s m (record s .detfn id n, .returned) else (s, .raised)
  | .probfn id type m =>
    after s m (if type = "lognormal" then (record s .probfn id n, .returned) else (record s .probfn id n, .raised))
  | .im id m => after s m (register s .im id n)
  | .edp id m => after s m (if id ≠ none then succeed s .edp id n else (enter s .edp id n, .returned))
  | .fragUser id m => after s m (register s .fragfn id n)
  | .fragDb id => register s .fragfn id n
  | .lossfn id m => after s m (register s .lossfn id n)
  | .compgroup id m => after s m (register s .compgroup id n)
  | .struct id m => after s m (record s .struct id n, .returned)

/-- `_func` of a function from the database stays `None` (/repo/src/pyslat.py:862, 915). -/
def Def.wraps : Def → Bool
  | .fragDb _ => false
  | _ => true

/-- A call of a constructor. -/
def exec (s : St) (d : Def) : St × Outcome :=
  body { s with next := s.next + 1, wraps := Function.update s.wraps s.next d.wraps } s.next d

/-- `lookup` of the classes for texts and `None` (/repo/src/pyslat.py:403-404, 488-489, 609-610, 737-739, 879-881,
993-994, 1132-1134, 1273-1274). -/
def lookup (s : St) (c : Cls) (id : Id) : Option ℕ := s.defs c id

/-- The state after the calls listed, with the outcome of each; a user of Python may go on after an exception, not
after the program has ended. -/
inductive Runs : List (Def × Outcome) → St → Prop
  | start : Runs [] St.init
  | call {h : List (Def × Outcome)} {s s' : St} {d : Def} {o : Outcome} :
      Runs h s → exec s d = (s', o) → o ≠ .crashed → Runs (h ++ [(d, o)]) s'

end Slat.Define
