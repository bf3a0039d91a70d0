import Mathlib.Data.List.Basic
import Mathlib.Data.List.DropRight
import Mathlib.Tactic

/-!
# Recorders, their files and `analyze` (src/pyslat.py:34-68, 1472-1486, 1682-1694, src/SlatInterpreter.py:462-474, 684-688)

Paths are lists of characters.  `os.path` is external and modelled as on POSIX.  What a recorder prints is a parameter: its lines,
and whether it finishes or raises after printing them (`RecModel` says what the lines are).  Opening a file succeeds or not
(`openable`, a parameter); a file that was opened can be written.
-/

namespace Slat.Output

/-- A path. -/
abbrev Path := List Char

/-- The part of a path after the last slash (used inside `os.path.dirname` and `os.path.splitext`, external;
src/pyslat.py:62, 65). -/
def basename (p : Path) : Path := p.rtakeWhile (fun c => c != '/')

/-- The part of a path up to and including the last slash (external, as `basename`; src/pyslat.py:62). -/
def upToSlash (p : Path) : Path := p.rdropWhile (fun c => c != '/')

/-- `os.path.dirname` (external, src/pyslat.py:43, 62): trailing slashes are removed unless there is nothing else. -/
def dirname (p : Path) : Path :=
  if (upToSlash p).all (fun c => c == '/') then upToSlash p else (upToSlash p).rdropWhile (fun c => c == '/')

/-- `os.path.join` of two (external, src/pyslat.py:44, 63). -/
def join (a b : Path) : Path :=
  if b.head? = some '/' then b
  else if a = [] ∨ a.getLast? = some '/' then a ++ b
  else a ++ '/' :: b

/-- The extension found by `os.path.splitext` (external, src/pyslat.py:46, 65): from the last dot of the last component on, unless
only dots precede it. -/
def ext (p : Path) : Path :=
  if '.' ∈ (basename p).dropWhile (fun c => c == '.') then
    '.' :: ((basename p).dropWhile (fun c => c == '.')).rtakeWhile (fun c => c != '.')
  else []

/-- The directory used when `set` was set, if anything was (`_Output_directory or _DEFAULT_OUTPUT_DIRECTORY`, src/pyslat.py:51-59, 63;
the same for input, src/pyslat.py:34-40, 44): the empty string is false in Python. -/
def dirOf (set : Option Path) : Path :=
  match set with
  | none => ".".toList
  | some [] => ".".toList
  | some d => d

/-- `full_output_path` (src/pyslat.py:61-68) and `full_input_path` (src/pyslat.py:42-49): `dir` is given by
`dirOf`. -/
def fullPath (dir : Path) (p : Path) : Path :=
  let p' := if dirname p = [] then join dir p else p
  if ext p' = [] then p' ++ ".csv".toList else p'

/-- A recorder: the file of its options if any, whether to append (src/SlatInterpreter.py:462-474), the lines it prints, and whether
it then finishes or raises (src/pyslat.py:1682-1694). -/
structure Rec where
  file : Option Path
  append : Bool
  out : List String
  ok : Bool

/-- The contents of files. -/
abbrev Files := Path → Option (List String)

/-- Printing to a file opened with mode "a" or "w" (src/pyslat.py:1686-1691). -/
def write (fs : Files) (f : Path) (append : Bool) (lines : List String) : Files :=
  Function.update fs f (some ((if append then (fs f).getD [] else []) ++ lines))

/-- `recorder.run` (src/pyslat.py:1682-1694): the files afterwards and whether it returned normally.  Without a file
`full_output_path(None)` raises `TypeError` (`os.path.dirname(None)`), so the branch of lines 1693-1694 is never reached. -/
def runRec (dir : Path) (openable : Path → Bool) (fs : Files) (r : Rec) : Files × Bool :=
  match r.file with
  | none => (fs, false)
  | some p =>
    let f := fullPath dir p
    if openable f then (write fs f r.append r.out, r.ok) else (fs, false)

/-- `exitAnalyze_command` (src/SlatInterpreter.py:684-688): the recorders in turn; an exception ends the script. -/
def analyze (dir : Path) (openable : Path → Bool) : Files → List Rec → Files × Bool
  | fs, [] => (fs, true)
  | fs, r :: rs =>
    if (runRec dir openable fs r).2 then analyze dir openable (runRec dir openable fs r).1 rs
    else ((runRec dir openable fs r).1, false)

/-- `recorder.defs[id] = self` (src/pyslat.py:1472-1473): a Python dictionary keeps its keys in order of insertion; assigning to an
existing key keeps its place. -/
def define (defs : List (String × Rec)) (d : String × Rec) : List (String × Rec) :=
  match defs with
  | [] => [d]
  | e :: es => if e.1 = d.1 then d :: es else e :: define es d

/-- The recorders of a script: all definitions in turn, then `recorder.all()` (src/pyslat.py:1485-1486). -/
def recorders (ds : List (String × Rec)) : List (String × Rec) := ds.foldl define []

end Slat.Output
