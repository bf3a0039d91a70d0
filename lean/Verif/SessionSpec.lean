import Verif.SessionModel
import Verif.InterpSpec
import Verif.RecSpec

/-!
# What a session should leave behind

A recorder command orders a table: a kind of report on a named object, columns, arguments, a file.  The
table itself is `Rec.Spec.table`.
-/

namespace Slat.Session.Spec

noncomputable section

open Interp (Cmd RecBody RecType AtType At)
open Output (Path)

/-- The directory named by the last `outputdir` command (/repo/slat-lang.org, "Output"). -/
def directory (l : List Cmd) : Option Path :=
  (l.filterMap fun
    | .outputdir d => some d.toList
    | _ => none).getLast?

/-- No recorder but `rid` is for the file of `rid`. -/
def Alone (dir : Path) (rid file : String) (l : List Cmd) : Prop :=
  ∀ rid' b po, Cmd.recorder rid' b (some po) ∈ l → rid' ≠ rid →
    Output.fullPath dir po.file.toList ≠ Output.fullPath dir file.toList

/-- The report that a word stands for. -/
def kind : RecType → Rec.Kind
  | .detfn => .detfn | .probfn => .probfn | .imrate => .imrate | .edpim => .edpim
  | .edprate => .edprate | .dsedp => .dsedp | .dsim => .dsim | .lossds => .lossds
  | .costedp => .costedp | .costim => .costim | .delayim => .delayim | .delayedp => .delayedp

/-- The same for the words that do not take columns. -/
def kindAt : AtType → Rec.Kind
  | .costrate => .costrate | .collapse => .collapse | .deagg => .deagg | .totalcost => .totalcost

/-- The arguments: the numbers listed, or those of a range (what these are is C68). -/
def arguments (M : Machine) : At → Option (List Dbl)
  | .floats l => some (l.map fun (x : ℚ) => Dbl.fin x)
  | .range a i b => (Ranges.colons M.rnd a i b M.tests).map (List.map Dbl.fin)
  | .counted a b true n => match Ranges.logrange a b n with
    | .list l => some l
    | _ => none
  | .counted a b false n => match Ranges.linrange M.rnd a b n M.tests with
    | .list l => some (l.map Dbl.fin)
    | _ => none
  | .py _ => none
  | .var _ => none

/-- A column written as a word or a number. -/
def column : Interp.Col → Option Rec.Col
  | .placement .mean => some (.name "mean_x")
  | .placement .meanLn => some (.name "mean_ln_x")
  | .placement .median => some (.name "median_x")
  | .spread .sdLn => some (.name "sd_ln_x")
  | .spread .sd => some (.name "sd_x")
  | .scalar (.num (.flt x)) => some (.prob (.flt (.fin x)))
  | .scalar (.num (.int n)) => some (.prob (.int n))
  | _ => none

/-- What is ordered, for the commands with arguments that are written out. -/
def order (M : Machine) : RecBody → Option (Rec.Kind × Option (List Rec.Col) × List Dbl)
  | .fn t _ a none => do return (kind t, none, ← arguments M a)
  | .fn t _ a (some cs) => do return (kind t, some (← cs.mapM column), ← arguments M a)
  | .rates t _ a => do return (kindAt t, none, ← arguments M a)
  | _ => none

/-- The costs that a word stands for. -/
def costs : Interp.ByType → Rec.CostType
  | .fate => .byFate | .edp => .byEdp | .frag => .byFrag

/-- The name of a column with the attribute of an option. -/
def attributes (mu : Interp.Mu) (sp : Interp.Sd) : List Rec.Col :=
  [.name (match mu with | .mean => "mean_x" | .meanLn => "mean_ln_x" | .median => "median_x"),
    .name (match sp with | .sdLn => "sd_ln_x" | .sd => "sd_x")]

/-- The same for every kind of recorder: kind, columns, arguments, options. -/
def request (M : Machine) :
    RecBody → Option (Rec.Kind × Option (List Rec.Col) × Option (List Rec.Num) × Rec.Opts)
  | .fn t i a cs => do
    let (k, cols, xs) ← order M (.fn t i a cs)
    return (k, cols, some (xs.map .flt), {})
  | .rates t i a => do
    let (k, cols, xs) ← order M (.rates t i a)
    return (k, cols, some (xs.map .flt), {})
  | .dsrate _ => some (.dsrate, none, none, {})
  | .collrate _ => some (.collrate, none, none, {})
  | .pdf _ a n => do return (.pdf, none, some ((← arguments M a).map .flt), { normalise := n })
  | .npv _ f i l r => match Ranges.years f i l with
    | .list q => some (.structcost, none, some (q.map fun (y : ℕ) => .int y),
        { structType := some .npv, discountRate := some (.fin r) })
    | _ => none
  | .by_ t _ a none => do
    return (.structcost, none, some ((← arguments M a).map .flt), { structType := some (costs t) })
  | .by_ t _ a (some cs) => do
    return (.structcost, some (← cs.mapM column), some ((← arguments M a).map .flt),
      { structType := some (costs t) })
  | .annual _ ⟨some mu, some sp⟩ none =>
    some (.structcost, some (attributes mu sp), none, { structType := some .annual })
  | _ => none

/-- After the commands `l`, the commands of the second list do not write to a file. -/
def Untouched (p : Path) : List Cmd → List Cmd → Prop
  | _, [] => True
  | l, m :: C => (match m with
    | .analyze => ∀ i b po, Cmd.recorder i b (some po) ∈ l →
        Output.fullPath (Output.dirOf (directory l)) po.file.toList ≠ p
    | .print _ (some po) => po.file.toList ≠ p
    | _ => True) ∧ Untouched p (l ++ [m]) C

end

end Slat.Session.Spec
