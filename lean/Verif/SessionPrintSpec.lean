import Verif.SessionSpec

/-!
# What the `print` commands of a script should leave in a file
-/

namespace Slat.Session.Spec

open Interp (Cmd PrintWhat)
open Output (Path)

/-- The words printed: a message, or the title, each of whose lines is preceded by a line break
(/repo/slat-lang.org, "Print Command", "Title"). -/
def words (read : String → String) (titles : List String) : PrintWhat → Option String
  | .emptyMessage => some ""
  | .message t => some (read t)
  | .title => some (String.join (titles.map fun t => "\n" ++ t))
  | _ => none

/-- The lines of a file after a script, if it is written to by `print` commands only: a command that does not
append starts the file anew.  `read` is what a string literal stands for. -/
def paper (read : String → String) (p : Path) :
    List String → Option (List String) → List Cmd → Option (List String)
  | _, c, [] => c
  | ts, c, .title t :: l => paper read p (ts ++ [read t]) c l
  | ts, c, .print w (some po) :: l =>
    if po.file.toList = p then
      match words read ts w with
      | some s => paper read p ts (some ((if po.append then c.getD [] else []) ++ [s])) l
      | none => none
    else paper read p ts c l
  | ts, c, _ :: l => paper read p ts c l

/-- Only messages and titles are printed to a file. -/
def OnlyWords (p : Path) (l : List Cmd) : Prop :=
  ∀ w po, Cmd.print w (some po) ∈ l → po.file.toList = p →
    w = .emptyMessage ∨ (∃ t, w = .message t) ∨ w = .title

/-- No recorder that is run writes to a file, after the commands of the first list. -/
def NoTable (p : Path) : List Cmd → List Cmd → Prop
  | _, [] => True
  | l, m :: C => (m = .analyze → ∀ i b po, Cmd.recorder i b (some po) ∈ l →
      Output.fullPath (Output.dirOf (directory l)) po.file.toList ≠ p) ∧ NoTable p (l ++ [m]) C

end Slat.Session.Spec
