import Verif.SessionSpec

/-!
# What a session should leave in every file

The files after a script, in terms of its commands: recorders write at each analysis, in the order in which their
names were first used, `print` commands write at once; each either starts the file anew or appends.
-/

namespace Slat.Session.Spec

noncomputable section

open Interp (Cmd RecBody PrintOpts PrintWhat Cfg Env Err)
open Output (Path)

/-- The names of the recorders of a script, in the order in which they were first used
(/repo/slat-lang.org, "Recorder"). -/
def names (l : List Cmd) : List String :=
  (l.filterMap fun
    | .recorder i _ _ => some i
    | _ => none).eraseDups

/-- Where the recorder that has a name after a script writes to. -/
def home (i : String) (l : List Cmd) : Option PrintOpts :=
  (l.filterMap fun
    | .recorder j _ po => if j = i then some po else none
    | _ => none).getLast?.join

/-- The last command for a recorder: what comes before it, what it orders, where it writes to. -/
def Latest (i : String) (l A : List Cmd) (b : RecBody) (po : PrintOpts) : Prop :=
  ∃ B, l = A ++ .recorder i b (some po) :: B ∧ ∀ b' po', Cmd.recorder i b' po' ∉ B

/-- Writing to a file that is started anew or appended to. -/
def put (append : Bool) (new : List String) (old : Option (List String)) : Option (List String) :=
  some ((if append then old.getD [] else []) ++ new)

/-- One command: what it does to a file, after the commands `l`. -/
def entry (table : List Cmd → String → List String) (text : List Cmd → PrintWhat → String) (p : Path) (l : List Cmd)
    (old : Option (List String)) : Cmd → Option (List String)
  | .print w (some po) => if po.file.toList = p then put po.append [text l w] old else old
  | .analyze => (names l).foldl (fun old i => match home i l with
    | some po => if Output.fullPath (Output.dirOf (directory l)) po.file.toList = p then put po.append (table l i) old else old
    | none => old) old
  | _ => old

/-- A file after further commands: `table l i` is what recorder `i` prints at an analysis after the commands `l`,
`text l w` what a `print` command prints there. -/
def ledger (table : List Cmd → String → List String) (text : List Cmd → PrintWhat → String) (p : Path) :
    List Cmd → Option (List String) → List Cmd → Option (List String)
  | _, old, [] => old
  | l, old, m :: C => ledger table text p (l ++ [m]) (entry table text p l old m) C

/-- Variables and titles after a script. -/
def environment (c : Cfg) (l : List Cmd) : Except Err Env :=
  l.foldlM (fun E m => m.env c E) ⟨fun _ => none, []⟩

end

end Slat.Session.Spec
