import Mathlib.Logic.Function.Basic
import Mathlib.Data.List.Basic

/-!
# Destinations of log messages (src/pyslatcore.cpp:13-42, src/SlatInterpreter.py:707-713)

The core of Boost.Log is external.  Assumed of it (Boost.Log v2): a record goes to every registered sink, once for each registration; a
core without sinks hands the record to its default sink, which prints to the standard output; the file of a file sink is opened,
created or emptied by the first record that the sink receives.  Paths contain no `%` (place holders of file names) and can be opened;
buffered text counts as written.
-/

namespace Slat.Sink

/-- What a registered sink writes to.  `opened`: the file of the sink has been opened. -/
inductive Dest (P : Type)
  | console
  | file (path : P) (opened : Bool)

/-- Sinks of the core, oldest first, each with the identity of its object; the two static pointers (src/pyslatcore.cpp:13-14); the number of
sinks made so far; texts written to the two streams, and contents of the files. -/
structure St (P M : Type) where
  core : List (ℕ × Dest P)
  stdErrorSink : Option ℕ
  fileSink : Option ℕ
  made : ℕ
  err : List M
  out : List M
  files : P → Option (List M)

variable {P M : Type}

/-- The process before `import pyslat`, with the files there are. -/
def init (files : P → Option (List M)) : St P M := ⟨[], none, none, 0, [], [], files⟩

/-- `logging::add_console_log` and `logging::add_file_log` (external): a new sink in the core. -/
def add (s : St P M) (d : Dest P) : St P M := { s with core := s.core ++ [(s.made, d)], made := s.made + 1 }

/-- `logging::core::remove_sink` (external). -/
def remove (s : St P M) (k : ℕ) : St P M := { s with core := s.core.filter fun x => x.1 != k }

/-- `Initialise` (src/pyslatcore.cpp:16-20), called when pyslat is imported (src/pyslat.py:21).  The log contexts it initialises are
modelled in `ContextModel`. -/
def initialise (s : St P M) : St P M := { add s .console with stdErrorSink := some s.made }

/-- `SetLogFile` (src/pyslatcore.cpp:22-28, src/pyslat.py:307-308). -/
def setLogFile (s : St P M) (path : P) : St P M :=
  let s₁ := match s.fileSink with
    | some k => remove s k
    | none => s
  { add s₁ (.file path false) with fileSink := some s₁.made }

/-- `LogToStdErr` (src/pyslatcore.cpp:30-42, src/pyslat.py:295-296). -/
def logToStdErr (s : St P M) (flag : Bool) : St P M :=
  if flag then
    match s.stdErrorSink with
    | none => add s .console
    | some _ => s
  else
    match s.stdErrorSink with
    | some k => { remove s k with stdErrorSink := none }
    | none => s

/-- A registered sink consumes a record (external): standard error and files afterwards, and whether the file is open. -/
def consume [DecidableEq P] (m : M) (w : List M × (P → Option (List M))) : Dest P → (List M × (P → Option (List M))) × Dest P
  | .console => ((w.1 ++ [m], w.2), .console)
  | .file p false => ((w.1, Function.update w.2 p (some [m])), .file p true)
  | .file p true => ((w.1, Function.update w.2 p (some ((w.2 p).getD [] ++ [m]))), .file p true)

/-- All sinks in turn (external). -/
def deliver [DecidableEq P] (m : M) (w : List M × (P → Option (List M))) :
    List (ℕ × Dest P) → (List M × (P → Option (List M))) × List (ℕ × Dest P)
  | [] => (w, [])
  | (k, d) :: rest =>
    let r := consume m w d
    let q := deliver m r.1 rest
    (q.1, (k, r.2) :: q.2)

/-- A record is pushed to the core (external), for example by `BOOST_LOG_TRIVIAL` in `Set_Tolerance` (src/maq.cpp:144). -/
def log [DecidableEq P] (s : St P M) (m : M) : St P M :=
  if s.core.isEmpty then { s with out := s.out ++ [m] }
  else
    let r := deliver m (s.err, s.files) s.core
    { s with core := r.2, err := r.1.1, files := r.1.2 }

/-- What a user can do after `import pyslat`. -/
inductive Op (P M : Type)
  | setLogFile (path : P)
  | logToStdErr (flag : Bool)
  | log (message : M)

/-- One call. -/
def step [DecidableEq P] (s : St P M) : Op P M → St P M
  | .setLogFile p => setLogFile s p
  | .logToStdErr b => logToStdErr s b
  | .log m => log s m

/-- Calls after `import pyslat`. -/
def run [DecidableEq P] (files : P → Option (List M)) (ops : List (Op P M)) : St P M := ops.foldl step (initialise (init files))

/-- The flags of the `log` command (src/slatParser.g4:14). -/
inductive Flag
  | stdErr
  | noStdErr
deriving DecidableEq

/-- `exitLog_command` (src/SlatInterpreter.py:707-713): the calls it makes. -/
def command (flag : Option Flag) (file : Option P) : List (Op P M) :=
  (if flag = some .stdErr then [.logToStdErr true] else []) ++
  (if flag = some .noStdErr then [.logToStdErr false] else []) ++
  (match file with
    | some p => [.setLogFile p]
    | none => [])

end Slat.Sink
