import Verif.GraphModel

/-!
# Integration settings and cached results (src/maq.cpp:100-172, src/pyslatcore.cpp:45-90, src/caching.cpp:67-73)

The settings are global variables read by every integration when it starts (src/maq.cpp:561-563, 585).  The calculations of the
object graph therefore depend on the settings in force when they run: one `Calc` per setting.  Setters assign the global
variables and do nothing else.
-/

namespace Slat.Tune

open Slat.Graph

variable {S V L X Y : Type}

/-- What a program does: operations on objects, a change of the integration settings (`IntegrationSettings`,
`Set_Integration_Tolerance`, `Set_Integration_Method`, ...: src/pyslatcore.cpp:45-90; the `integration` command,
src/SlatInterpreter.py:477-511), and `Clear_Caches` (src/caching.cpp:67-73), which only a C++ program can call: it is not among
the functions of the Python extension. -/
inductive Op (S V L X : Type) where
  | op (o : Graph.Op V L X)
  | tune (s : S)
  | clearCaches

/-- The objects and the settings in force. -/
structure World (S V L X Y : Type) where
  objects : Graph.World V L X Y
  setting : S

/-- `Clear_Caches` (src/caching.cpp:67-73): every live object's caches are emptied.  Nobody is notified. -/
def clearCaches (w : Graph.World V L X Y) : Graph.World V L X Y :=
  { w with heap := fun n => (w.heap n).map fun o => { o with cache := fun _ _ => none } }

/-- One step.  A setter (src/maq.cpp:139-172) touches no cache. -/
def step (C : S → Calc V L X Y) (w : World S V L X Y) : Op S V L X → World S V L X Y
  | .op o => { w with objects := Graph.step (C w.setting) w.objects o }
  | .tune s => { w with setting := s }
  | .clearCaches => { w with objects := clearCaches w.objects }

/-- A history, from an empty heap and the settings `s` (defaults: src/maq.cpp:95-98). -/
def run (C : S → Calc V L X Y) (w : World S V L X Y) (ops : List (Op S V L X)) : World S V L X Y :=
  ops.foldl (step C) w

/-- The empty heap (src/maq.cpp:95-98 for the initial settings). -/
def init (V L X Y : Type) (s : S) : World S V L X Y := ⟨Graph.init V L X Y, s⟩

/-- A result as reported now: the cached value, or the calculation with the settings in force (src/caching.h:144-282). -/
def report (C : S → Calc V L X Y) (w : World S V L X Y) (n : ℕ) (c : CacheId) (x : X) : Y :=
  view (C w.setting) w.objects.heap n c x

end Slat.Tune
