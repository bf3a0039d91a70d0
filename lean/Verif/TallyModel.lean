import Verif.StatsModel
import Verif.SettingsModel

/-!
# Model of the report on the integrations (src/maq.cpp:43-90, src/pyslatcore.cpp:65-90, 914-924, src/pyslat.py:281-288)

A program is a series of calls of the Python interface: settings, calculations (each a number of `MAQ` calls that may
overlap, as in `StatsModel`, and that have ended when the calculation returns), `Reset_Statistics` and
`Format_Statistics`.  The text of a number in the default format of a stream is decimal for integers and a parameter for
doubles.  Not modelled: streams with another format or locale.
-/

namespace Slat.Tally

open Slat

noncomputable section

/-- `Set_Integration_Method` of the interface (src/pyslatcore.cpp:65-90, src/pyslatcore.h:14-18): the number of a method, or an
exception. -/
def chosen : ℕ → Option Maq.Method
  | 0 => some .binary
  | 1 => some .reverse
  | 2 => some .lowFirst
  | 3 => some .scattered
  | 4 => some .directed
  | _ => none

/-- What a program does. -/
inductive Item where
  /-- a setting (src/pyslatcore.cpp:45-64, src/maq.cpp:100-172) -/
  | setting (op : Settings.Op)
  /-- `Set_Integration_Method` (src/pyslat.py:281-282) -/
  | method (k : ℕ)
  /-- a calculation: `MAQ` calls and their steps -/
  | calculation (evs : List Stats.Ev)
  /-- `Reset_Statistics` (src/pyslat.py:284-285) -/
  | resetStatistics
  /-- `Format_Statistics` (src/pyslat.py:287-288), also the query `get_statistics` (src/maq.cpp:43-50) -/
  | query

/-- The settings, the counters, and the settings in the structure of the counters (src/maq.h:88-94). -/
structure State where
  cfg : Maq.Cfg
  counters : Stats.Counters
  copied : Maq.Cfg

/-- The start of the program (src/maq.cpp:26, 95-98); the copies are zero. -/
def start : State := ⟨Settings.initial, Stats.reset, ⟨.fin 0, 0, 0, .binary⟩⟩

/-- The `MAQ` calls of a calculation, from given counters (see `Stats.run`). -/
def calls (c : Stats.Counters) (evs : List Stats.Ev) : Stats.State := evs.foldl Stats.next ⟨c, []⟩

/-- `get_statistics` (src/maq.cpp:43-50). -/
def getStatistics (σ : State) : State :=
  { σ with copied := { method := σ.cfg.method, tol := σ.cfg.tol, maxeval := σ.cfg.maxeval, bineval := σ.cfg.bineval } }

/-- One item. -/
def step (σ : State) : Item → State
  | .setting op => { σ with cfg := Settings.step σ.cfg op }
  | .method k => match chosen k with
    | some m => { σ with cfg := Settings.step σ.cfg (.setMethod m) }
    | none => σ
  | .calculation evs => { σ with counters := (calls σ.counters evs).counters }
  | .resetStatistics => { σ with counters := Stats.reset }
  | .query => getStatistics σ

/-- A program from its start. -/
def run (p : List Item) : State := p.foldl step start

/-- The name of a method (src/maq.cpp:58-76). -/
def methodText : Maq.Method → List Char
  | .binary => "Binary Subdivision".toList
  | .reverse => "Reverse Binary Subdivision".toList
  | .lowFirst => "Low-First Reverse Binary Subdivision".toList
  | .scattered => "Scattered".toList
  | .directed => "Directed".toList

/-- An integer on a stream. -/
def decimal (n : ℕ) : List Char := Nat.toDigits 10 n

/-- The lines of the report (src/maq.cpp:56-89); `double` is the text of a double. -/
def lines (double : Dbl → List Char) (c : Maq.Cfg) (s : Stats.Counters) : List (List Char) :=
  ["Integration Statistics:".toList,
   "Search Algorithm: ".toList ++ methodText c.method,
   "Tolerance: ".toList ++ double c.tol,
   "Integration Eval Limit: ".toList ++ decimal c.maxeval,
   "Search Eval Limit: ".toList ++ decimal c.bineval,
   "Max Integration Evals: ".toList ++ decimal s.maxInt,
   "Integration Failures: ".toList ++ decimal s.intFails,
   "Total Integration Evals: ".toList ++ decimal s.totalInt,
   "Max Search Evals: ".toList ++ decimal s.maxSearch,
   "Number Search Fails: ".toList ++ decimal s.searchFails,
   "Total Search Evals: ".toList ++ decimal s.totalSearch,
   "Number of Calls: ".toList ++ decimal s.calls,
   "Successes: ".toList ++ decimal s.successes,
   "NANs: ".toList ++ decimal s.nans]

/-- `format_statistics` (src/maq.cpp:52-90, src/pyslatcore.cpp:919-924): the text, and the state behind it. -/
def formatStatistics (double : Dbl → List Char) (σ : State) : List Char × State :=
  let σ := getStatistics σ
  ((lines double σ.copied σ.counters).flatMap (· ++ ['\n']), σ)

end

end Slat.Tally
