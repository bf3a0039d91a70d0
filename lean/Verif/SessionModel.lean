import Verif.GramModel
import Verif.RecModel
import Verif.OutputModel
import Verif.RangesModel

/-!
# A whole session: from the text of a script to the files it leaves behind

`main` (`/repo/src/SlatInterpreter.py:735-745`) reads a text, parses it and walks the tree; the
handlers call `pyslat`, which makes objects, keeps recorders and, at `analyze`, writes files.  The
parts have their own models: the lexer (`LexModel`), the parser (`GramModel`), the handlers
(`InterpModel`), the recorders (`RecModel`), the ranges of arguments (`RangesModel`) and the files
(`OutputModel`).  This module puts them together.  The library underneath is a parameter (`Lib`);
`SessionPlain` has an instance.

Simplifications:

* two different paths are two different files (no links, no `x` next to `./x`);
* a query made by a recorder does not change the library (caches do not show: C02, C69);
* of an exception only the fact is kept, that it ends the script.
-/

namespace Slat.Session

noncomputable section

open Interp (Val Call Cmd Cfg Err)
open Output (Path Files)

/-- Why a session ends before its script does: the parser refuses the text
(/repo/src/SlatInterpreter.py:740-741), a handler or a function called by it raises an exception, or
something happens that is not modelled. -/
inductive Stop
  | refused
  | raised
  | outside
  deriving DecidableEq, Repr

/-- The library as seen from a session.  `call`: a function of `pyslat` other than those for recorders
and directories; `find`: `lookup` of a registry (for instance /repo/src/pyslat.py:403-404, 609-610);
`obj`: what an object is at this moment; `describe`: the text of what is printed
(/repo/src/SlatInterpreter.py:435). -/
structure Lib (W : Type) where
  call : W → Call → Except Stop W
  find : W → String → String → Option ℕ
  obj : W → ℕ → Rec.Obj
  describe : W → Interp.Printed → String

/-- The machine: rounding, a number of tests after which a range of arguments counts as endless, which
files can be opened, how a line of a table is laid out. -/
structure Machine where
  rnd : ℝ → ℝ
  tests : ℕ
  openable : Path → Bool
  render : Rec.Row → String

/-- A recorder kept in `recorder.defs` (/repo/src/pyslat.py:1410-1475): its parts, the object it reports on
(a reference), and the entries `filename` and `append` of its options. -/
structure Held where
  parts : Rec.Recorder
  target : Option ℕ
  file : Option Path
  append : Bool

/-- State of a session: the library, `recorder.defs` (/repo/src/pyslat.py:1412), `_Output_directory` (51-59)
and the files. -/
structure State (W : Type) where
  lib : W
  recs : List (String × Held) := []
  outDir : Option Path := none
  files : Files

/-! ## Arguments of recorders -/

/-- The names of recorder types (/repo/src/SlatInterpreter.py:533-562, /repo/src/pyslat.py:1944-1952). -/
def kindOf (t : String) : Option Rec.Kind :=
  [("detfn", .detfn), ("probfn", .probfn), ("imrate", .imrate), ("edpim", .edpim),
    ("edprate", .edprate), ("dsedp", .dsedp), ("dsim", .dsim), ("lossds", .lossds),
    ("costedp", .costedp), ("costim", .costim), ("delayim", .delayim), ("delayedp", .delayedp),
    ("dsrate", .dsrate), ("collrate", .collrate), ("costrate", .costrate), ("collapse", .collapse),
    ("deagg", .deagg), ("totalcost", .totalcost), ("pdf", .pdf),
    ("structcost", Rec.Kind.structcost)].lookup t

/-- The entry `structcost-type` (/repo/src/SlatInterpreter.py:564-581, /repo/src/pyslat.py:1745-1908). -/
def costType (s : String) : Rec.CostType :=
  if s = "annual" then .annual
  else if s = "by-edp" then .byEdp
  else if s = "by-frag" then .byFrag
  else if s = "by-fate" then .byFate
  else if s = "npv" then .npv
  else .other

/-- The options of a recorder that `generate_output` reads (/repo/src/SlatInterpreter.py:518-592). -/
def optsOf (o : Interp.ROpts) : Rec.Opts where
  structType := o.structType.map costType
  discountRate := o.discountRate.map fun (x : ℚ) => Dbl.fin x
  normalise := o.normalise

/-- A column: a string or a number; other Python values are not modelled
(/repo/src/SlatInterpreter.py:657-674). -/
def colOf : Val → Except Stop Rec.Col
  | .str s => .ok (.name s)
  | .int z => .ok (.prob (.int z))
  | .flt x => .ok (.prob (.flt (.fin x)))
  | _ => .error .outside

/-- A number in a list of arguments; other Python values are not modelled
(/repo/src/SlatInterpreter.py:649-654). -/
def numOf : Val → Except Stop Rec.Num
  | .int z => .ok (.int z)
  | .flt x => .ok (.flt (.fin x))
  | _ => .error .outside

/-- The columns of a recorder (/repo/src/SlatInterpreter.py:523-526). -/
def colsOf : Option Val → Except Stop (Option (List Rec.Col))
  | none => .ok none
  | some (.list l) => (l.mapM colOf).map some
  | some _ => .error .outside

/-- The arguments: `list(at)` (/repo/src/pyslat.py:1450-1451).  A range is a generator
(/repo/src/SlatInterpreter.py:625-646). -/
def atOf (M : Machine) : Val → Except Stop (List Rec.Num)
  | .list l => l.mapM numOf
  | .frange a b i => match Ranges.frange M.rnd a b i M.tests with
    | some l => .ok (l.map fun x => .flt (.fin x))
    | none => .error .outside
  | .linrange a b n => match Ranges.linrange M.rnd a b n M.tests with
    | .list l => .ok (l.map fun x => .flt (.fin x))
    | .running => .error .outside
    | .error => .error .raised
  | .logrange a b n => match Ranges.logrange a b n with
    | .list l => .ok (l.map .flt)
    | .running => .error .outside
    | .error => .error .raised
  | .range f l i => match Ranges.years f i l with
    | .list l => .ok (l.map fun n => .int n)
    | .running => .error .outside
    | .error => .error .raised
  | _ => .error .outside

/-- The same if there are any (/repo/src/SlatInterpreter.py:528-531). -/
def atsOf (M : Machine) : Option Val → Except Stop (Option (List Rec.Num))
  | none => .ok none
  | some v => (atOf M v).map some

/-! ## Calls -/

variable {W : Type}

/-- The object behind a reference; `None` is an object without methods
(/repo/src/SlatInterpreter.py:602-620). -/
def seen (L : Lib W) (w : W) : Option ℕ → Rec.Obj
  | some n => L.obj w n
  | none => .none

/-- `MakeRecorder` called by `exitRecorder_command` (/repo/src/SlatInterpreter.py:515-622): the object is
looked up, the recorder made and entered into `recorder.defs` (/repo/src/pyslat.py:1472-1473). -/
def record (L : Lib W) (M : Machine) (σ : State W) (rid type registry id : String)
    (o : Interp.ROpts) (cols at_ : Option Val) : Except Stop (State W) := do
  let cols ← colsOf cols
  let at_ ← atsOf M at_
  let n := L.find σ.lib registry id
  match kindOf type with
  | none => .error .raised
  | some k => match Rec.make k (seen L σ.lib n) (optsOf o) cols at_ with
    | .error _ => .error .raised
    | .ok r => .ok { σ with
        recs := Rec.dictSet σ.recs rid ⟨r, n, o.filename.map String.toList, o.append⟩ }

/-- What a recorder prints when it is run: the object is asked then, not when the recorder was made
(/repo/src/pyslat.py:1505-1677). -/
def Held.run (L : Lib W) (M : Machine) (w : W) (h : Held) : Output.Rec where
  file := h.file
  append := h.append
  out := (Rec.printed (Rec.output { h.parts with fn := seen L w h.target })).1.map M.render
  ok := (Rec.printed (Rec.output { h.parts with fn := seen L w h.target })).2.isNone

/-- `exitAnalyze_command` (/repo/src/SlatInterpreter.py:684-688). -/
def analyze (L : Lib W) (M : Machine) (σ : State W) : State W × Option Stop :=
  let r := Output.analyze (Output.dirOf σ.outDir) M.openable σ.files
    (σ.recs.map fun p => p.2.run L M σ.lib)
  ({ σ with files := r.1 }, if r.2 then none else some .raised)

/-- The end of `exitPrint_command` (/repo/src/SlatInterpreter.py:435-446): the file is opened under its own
name, not in the output directory. -/
def print (L : Lib W) (M : Machine) (σ : State W) (what : Interp.Printed) (file : Option String)
    (append : Bool) : State W × Option Stop :=
  match file with
  | none => (σ, none)
  | some f =>
    if M.openable f.toList then
      ({ σ with files := Output.write σ.files f.toList append [L.describe σ.lib what] }, none)
    else (σ, some .raised)

/-- One call made by a handler. -/
def exec (L : Lib W) (M : Machine) (σ : State W) : Call → State W × Option Stop
  | .recorder rid type registry id o cols at_ =>
    match record L M σ rid type registry id o cols at_ with
    | .ok σ' => (σ', none)
    | .error e => (σ, some e)
  | .analyze => analyze L M σ
  | .outputdir d => ({ σ with outDir := some d.toList }, none)
  | .print what file append => print L M σ what file append
  | c => match L.call σ.lib c with
    | .ok w => ({ σ with lib := w }, none)
    | .error e => (σ, some e)

/-- The calls of one handler, in turn; an exception ends them. -/
def execAll (L : Lib W) (M : Machine) : List Call → State W → State W × Option Stop
  | [], σ => (σ, none)
  | c :: cs, σ => match exec L M σ c with
    | (σ', none) => execAll L M cs σ'
    | (σ', some e) => (σ', some e)

/-- The commands of a script (/repo/src/SlatInterpreter.py:742-745): the handlers of a command and the calls
they make.  Simplified: a handler that raises has made no calls (only that of a `structure` command
makes several that may raise, and those are in `execAll`). -/
def run (L : Lib W) (M : Machine) (c : Cfg) : List Cmd → Interp.St → State W → State W × Option Stop
  | [], _, σ => (σ, none)
  | m :: l, s, σ => match Interp.walkCommand c m { s with calls := [] } with
    | .error _ => (σ, some .raised)
    | .ok s' => match execAll L M s'.calls σ with
      | (σ', none) => run L M c l s' σ'
      | (σ', some e) => (σ', some e)

/-- `main` on the text of a script (/repo/src/SlatInterpreter.py:735-745). -/
def session (L : Lib W) (M : Machine) (ev : String → Except Err Val) (σ : State W) (text : List Char) :
    State W × Option Stop :=
  match Gram.parse (Lex.tokens (Lex.lex text)) with
  | none => (σ, some .refused)
  | some l => run L M ⟨ev, Gram.preprocessString⟩ l {} σ

end

end Slat.Session
