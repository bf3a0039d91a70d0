import Verif.MaqModel

/-!
# Model of `IntegrationSettings` (src/maq.h:32-70, src/maq.cpp:95-172)

The four static members form a `Maq.Cfg`.  Not modelled: the log messages; `Use_Default_Integration_Search_Limit`
and `Use_Default_Method`, which are declared (src/maq.h:44-45) but nowhere defined.
-/

namespace Slat.Settings

open Dbl Maq

noncomputable section

/-- The initial values (src/maq.h:60-63, src/maq.cpp:95-98). -/
def initial : Cfg := ⟨.fin (1 / 1000), 2048, 2048, .directed⟩

/-- The public operations; limits are 32-bit unsigned. -/
inductive Op where
  | setTolerance (tol : Dbl)
  | setEvalLimit (n : Fin (2 ^ 32))
  | setSearchLimit (n : Fin (2 ^ 32))
  | setMethod (m : Method)
  | useDefaultTolerance
  | useDefaultEvalLimit
  | reset
  /-- `IntegrationSettings(tolerance, limit)` of the Python interface (src/pyslatcore.cpp:45-49). -/
  | both (tol : Dbl) (n : Fin (2 ^ 32))

/-- `Set_Tolerance` (src/maq.cpp:139-147). -/
def setTolerance (tol : Dbl) (s : Cfg) : Cfg := if 0 < tol then { s with tol := tol } else s

/-- `Set_Integration_Eval_Limit` (src/maq.cpp:149-157). -/
def setEvalLimit (n : ℕ) (s : Cfg) : Cfg := if 0 < n then { s with maxeval := n } else s

/-- `Set_Integration_Search_Limit` (src/maq.cpp:159-167). -/
def setSearchLimit (n : ℕ) (s : Cfg) : Cfg := if 0 < n then { s with bineval := n } else s

/-- `Set_Integration_Method` (src/maq.cpp:169-172). -/
def setMethod (m : Method) (s : Cfg) : Cfg := { s with method := m }

/-- `Use_Default_Tolerance` (src/maq.cpp:129-132). -/
def useDefaultTolerance (s : Cfg) : Cfg := { s with tol := .fin (1 / 1000) }

/-- `Use_Default_Integration_Eval_Limit` (src/maq.cpp:134-137). -/
def useDefaultEvalLimit (s : Cfg) : Cfg := { s with maxeval := 2048 }

/-- `Reset` (src/maq.cpp:100-107). -/
def reset (s : Cfg) : Cfg :=
  { useDefaultTolerance s with tol := .fin (1 / 1000), maxeval := 2048, bineval := 2048, method := .directed }

/-- One operation. -/
def step (s : Cfg) : Op → Cfg
  | .setTolerance t => setTolerance t s
  | .setEvalLimit n => setEvalLimit n s
  | .setSearchLimit n => setSearchLimit n s
  | .setMethod m => setMethod m s
  | .useDefaultTolerance => useDefaultTolerance s
  | .useDefaultEvalLimit => useDefaultEvalLimit s
  | .reset => reset s
  | .both t n => setEvalLimit n (setTolerance t s)

/-- A history of operations from the start of the program. -/
def run (ops : List Op) : Cfg := ops.foldl step initial

end

end Slat.Settings
