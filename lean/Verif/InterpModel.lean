import Mathlib.Data.Rat.Defs
import Mathlib.Data.List.Basic

/-!
# The SLAT command interpreter

`SlatInterpreter` (`/repo/src/SlatInterpreter.py`) is an ANTLR listener: the tree walker calls
its `enterX` and `exitX` methods in tree order, and the methods pass intermediate results to each
other on a stack (`_stack`) and on a stack of stacks (`_stack_stack`, for nested lists).  This
module has the parse trees of `/repo/src/slatParser.g4`, the state of the listener, and every
handler as a state transformer.

Simplifications, all of them at the edge of the interpreter:

* a command is a parse tree of the grammar; how a text becomes one is in `LexModel` and
  `GramModel`;
* calls into `pyslat` are recorded in the order in which they are made (`Call`), with the
  arguments given to them; what they do, and the errors they raise, belong to `pyslat`.  The one
  exception is a call with a number of arguments its constructor does not have;
* registry lookups (`pyslat.detfn.lookup(id)` and the like) appear in a call as the name which is
  looked up;
* a literal `float(text)` is the decimal number written in the text;
* `eval` of a Python expression and `preprocess_string` are parameters (`Cfg`).
-/

namespace Slat.Interp

/-! ## Values -/

/-- The two parameters of a log-normal distribution's location
(`LOGNORMAL_MU_TYPE`, /repo/src/SlatInterpreter.py:270-281). -/
inductive Mu | meanLn | median | mean
  deriving DecidableEq, Repr

/-- The parameters of a log-normal distribution's spread
(`LOGNORMAL_SIGMA_TYPE`, /repo/src/SlatInterpreter.py:286-294). -/
inductive Sd | sd | sdLn
  deriving DecidableEq, Repr

/-- Keys of a dictionary made by `exitDictionary_entry` (/repo/src/SlatInterpreter.py:194-197):
`ctx.ID()` is the node of the parse tree, not its text; it hashes and compares by identity.
A node is represented by its text, and two nodes are never the same key. -/
inductive Key
  | node (text : String)
  | str (s : String)
  deriving DecidableEq, Repr

/-- Python values which the handlers put on the stack. -/
inductive Val
  | none
  | int (z : ℤ)
  | flt (x : ℚ)
  | str (s : String)
  | list (l : List Val)
  /-- a two-element list `[key, value]` made by `exitDictionary_entry` -/
  | entry (k : Key) (v : Val)
  | dict (l : List (Key × Val))
  /-- `{"mu": …, "sd": …}` of `exitLognormal_options` -/
  | opts (mu : Option Mu) (sd : Option Sd)
  /-- `{'filename': …, 'append': …}` of `exitPrint_options` -/
  | printOpts (file : String) (append : Bool)
  /-- `{'key': …, 'database': …}` of `exitFragfn_db_params` -/
  | dbParams (key : String) (file : String)
  /-- `pyslat.frange(start, stop, step)` -/
  | frange (start stop step : ℚ)
  | linrange (start stop : ℚ) (count : ℕ)
  | logrange (start stop : ℚ) (count : ℕ)
  /-- `list(range(first, last, increment))` -/
  | range (first last increment : ℕ)
  /-- any other Python object which `eval` may return -/
  | obj (n : ℕ)

/-- Python exceptions which end the interpretation. -/
inductive Err
  /-- `pop` from an empty list (`IndexError`) -/
  | popEmpty
  /-- `exitCommand` finds a value on the stack (/repo/src/SlatInterpreter.py:70-71) -/
  | stackNotEmpty
  /-- `exitCommand` finds a saved stack (/repo/src/SlatInterpreter.py:72-73) -/
  | stackStackNotEmpty
  | typeError
  | attributeError
  | unboundLocal
  | valueError
  /-- raised by the evaluated expression -/
  | raised (msg : String)
  deriving DecidableEq, Repr

/-- What the interpreter takes from outside: the value of a Python expression
(/repo/src/SlatInterpreter.py:676-679; the expression sees `math`, `numpy`, `pyslat`, not the
variables of the script) and the removal of quotes from a string (20-24). -/
structure Cfg where
  ev : String → Except Err Val
  pre : String → String

/-! ## Parse trees -/

/-- `numerical_scalar : INTEGER | FLOAT_VAL | python_script | var_ref`
(/repo/src/slatParser.g4:32). -/
inductive Num
  | int (n : ℕ)
  | flt (x : ℚ)
  | py (expr : String)
  | var (x : String)
  deriving DecidableEq, Repr

/-- `scalar : STRING | numerical_scalar` (/repo/src/slatParser.g4:27). -/
inductive Sc
  | str (text : String)
  | num (n : Num)
  deriving DecidableEq, Repr

/-- `scalar2 : scalar COMMA scalar` (/repo/src/slatParser.g4:28). -/
structure Sc2 where
  fst : Sc
  snd : Sc
  deriving DecidableEq, Repr

/-- `parameter : ID | STRING | INTEGER | FLOAT_VAL` (/repo/src/slatParser.g4:36). -/
inductive Param
  | id (text : String)
  | str (text : String)
  | int (n : ℕ)
  | flt (x : ℚ)
  deriving DecidableEq, Repr

mutual
/-- `parameters : parameter | parameter_array | parameter_dictionary`
(/repo/src/slatParser.g4:34, 38, 40). -/
inductive Params
  | one (p : Param)
  | arr (l : List Param)
  | dict (d : Entries)
/-- The entries of a dictionary, `dictionary_entry : (ID | STRING) COLON parameters`
(/repo/src/slatParser.g4:40-42). -/
inductive Entries
  | nil
  | cons (isString : Bool) (key : String) (v : Params) (rest : Entries)
end

/-- `function_ref : ID | var_ref` (/repo/src/slatParser.g4:45). -/
inductive FnRef
  | id (text : String)
  | var (x : String)
  deriving DecidableEq, Repr

/-- `INTEGER | var_ref | python_script` (/repo/src/slatParser.g4:108-109). -/
inductive IntArg
  | int (n : ℕ)
  | var (x : String)
  | py (expr : String)
  deriving DecidableEq, Repr

/-- `lognormal_options : (mu_option? sd_option?) | (sd_option mu_option)`
(/repo/src/slatParser.g4:60-62); the order of the two does not matter to the listener. -/
structure LnOpts where
  mu : Option Mu
  sd : Option Sd
  deriving DecidableEq, Repr

/-- `recorder_at` (/repo/src/slatParser.g4:124-126).  The second form is written
`start:increment:end`. -/
inductive At
  | floats (l : List ℚ)
  | range (start increment stop : ℚ)
  | py (expr : String)
  | var (x : String)
  | counted (start stop : ℚ) (log : Bool) (count : ℕ)
  deriving DecidableEq, Repr

/-- `col_spec : placement_type | spread_type | scalar` (/repo/src/slatParser.g4:131). -/
inductive Col
  | placement (m : Mu)
  | spread (d : Sd)
  | scalar (s : Sc)
  deriving DecidableEq, Repr

/-- `print_options : file_spec (APPEND_OPTION | NEW_OPTION)?` (/repo/src/slatParser.g4:106). -/
structure PrintOpts where
  file : String
  append : Bool
  deriving DecidableEq, Repr

/-- What follows `print` (/repo/src/slatParser.g4:102-104). -/
inductive PrintWhat
  | emptyMessage
  | message (text : String)
  | messagePy (expr : String)
  | messageVar (x : String)
  | title
  | function (kind : String) (id : String)
  deriving DecidableEq, Repr

/-- `recorder_type` (/repo/src/slatParser.g4:122-123). -/
inductive RecType
  | detfn | probfn | imrate | edpim | edprate | dsedp | dsim | lossds | costedp | costim
  | delayim | delayedp
  deriving DecidableEq, Repr

/-- The text of a `recorder_type` token (/repo/src/slatLexer.g4). -/
def RecType.text : RecType → String
  | .detfn => "detfn" | .probfn => "probfn" | .imrate => "imrate" | .edpim => "edpim"
  | .edprate => "edprate" | .dsedp => "dsedp" | .dsim => "dsim" | .lossds => "lossds"
  | .costedp => "costedp" | .costim => "costim" | .delayim => "delayim" | .delayedp => "delayedp"

/-- `COSTRATE | COLLAPSE | DEAGG | TOTALCOST` (/repo/src/slatParser.g4:115). -/
inductive AtType | costrate | collapse | deagg | totalcost
  deriving DecidableEq, Repr

/-- `structcost_type` (/repo/src/slatParser.g4:129). -/
inductive ByType | fate | edp | frag
  deriving DecidableEq, Repr

/-- The middle part of a `recorder_command` (/repo/src/slatParser.g4:113-118). -/
inductive RecBody
  | fn (t : RecType) (id : String) (at_ : At) (cols : Option (List Col))
  | dsrate (id : String)
  | collrate (id : String)
  | rates (t : AtType) (id : String) (at_ : At)
  | pdf (id : String) (at_ : At) (normalise : Bool)
  | npv (id : String) (first increment last : ℕ) (rate : ℚ)
  | by_ (t : ByType) (id : String) (at_ : At) (cols : Option (List Col))
  | annual (id : String) (o : LnOpts) (cols : Option (List Col))
  deriving DecidableEq, Repr

/-- `BINARY | REVBIN | LOWREV | SCATTERED | DIRECTED` (/repo/src/slatParser.g4:108). -/
inductive Search | binary | revbin | lowrev | scattered | directed
  deriving DecidableEq, Repr

/-- The four commands which set a log-normal distribution
(/repo/src/slatParser.g4:50-51, 97-98). -/
inductive DistCmd | collapse | demolition | rebuildCost | demolitionCost
  deriving DecidableEq, Repr

/-- `bilevel_spec`: five numbers (/repo/src/slatParser.g4:76). -/
structure Bilevel where
  a : Num
  b : Num
  c : Num
  d : Num
  e : Num
  deriving DecidableEq, Repr

/-- `SET ID (python_script | var_ref | parameters)` (/repo/src/slatParser.g4:140). -/
inductive SetArg
  | py (expr : String)
  | var (x : String)
  | params (p : Params)

/-- `command` (/repo/src/slatParser.g4:7-12). -/
inductive Cmd
  | title (text : String)
  | detfnHyperbolic (id : String) (ab : Sc2) (c : Sc)
  | detfnPowerlaw (id : String) (ab : Sc2)
  | detfnLoglog (id : String) (l : List Sc2)
  | detfnLinear (id : String) (l : List Sc2)
  | probfn (id : String) (mu sigma : FnRef) (o : LnOpts)
  | im (id fn : String)
  | edp (id im fn : String)
  | dist (k : DistCmd) (id : String) (p : Sc2) (o : LnOpts)
  | fragfnDb (id : String) (file : Option String) (key : String)
  | fragfnUser (id : String) (l : List Sc2) (o : LnOpts)
  | lossSimple (id : String) (l : List Sc2) (o : LnOpts)
  | lossBilevel (id : String) (l : List Bilevel)
  | compgroup (id edp frag cost : String) (delay : Option String) (count : ℕ)
      (floats : List ℚ)
  | structure_ (id : String) (groups : List String)
  | print (w : PrintWhat) (po : Option PrintOpts)
  | integration (precision : Num) (iterations : IntArg) (search : Option (Search × IntArg))
  | recorder (rid : String) (body : RecBody) (po : Option PrintOpts)
  | analyze
  | set (id : String) (a : SetArg)
  | importProbfn (id file : String)
  | importIm (id file : String)
  | log (stderr : Option Bool) (file : Option String)
  | intstatsPrint
  | intstatsReset
  | inputdir (dir : String)
  | outputdir (dir : String)

/-! ## Calls made by the handlers -/

/-- Options handed to a recorder (the dictionary built in /repo/src/SlatInterpreter.py:518-592). -/
structure ROpts where
  filename : Option String := .none
  append : Bool := false
  normalise : Bool := false
  structType : Option String := .none
  discountRate : Option ℚ := .none
  deriving DecidableEq, Repr

/-- The object which a `print` command prints. -/
inductive Printed
  | value (v : Val)
  | titles (l : List String)
  | definition (kind id : String)
  | unknown

/-- Calls into `pyslat` (and to `print`). -/
inductive Call
  | detfn (id type : String) (v : Val)
  | probfn (id : String) (mu : Option Mu) (mufn : String) (sd : Option Sd) (sdfn : String)
  | im (id fn : String)
  | edp (id im fn : String)
  | dist (k : DistCmd) (id : String) (mu : Val) (muOpt : Option Mu) (sd : Val) (sdOpt : Option Sd)
  | fragfnDb (id key file : String)
  | fragfnUser (id : String) (mu : Option Mu) (sd : Option Sd) (data : Val)
  | simpleLoss (id : String) (mu : Option Mu) (sd : Option Sd) (data : Val)
  | bilevelLoss (id : String) (data : Val)
  | compgroup (id edp frag cost : String) (delay : Option String) (count : ℕ)
      (costAdj delayAdj : ℚ)
  | structure_ (id : String)
  | addCompGroup (id group : String)
  | print (what : Printed) (file : Option String) (append : Bool)
  | setMethod (m : Search)
  | setSearchLimit (v : Val)
  | integrationSettings (precision iterations : Val)
  | recorder (rid type registry id : String) (o : ROpts) (cols : Option Val) (at_ : Option Val)
  | analyze
  | importProbfn (id file : String)
  | importIm (id file : String)
  | logToStdErr (b : Bool)
  | setLogFile (file : String)
  | printStatistics
  | resetStatistics
  | inputdir (dir : String)
  | outputdir (dir : String)

/-! ## State of the listener -/

/-- The variables of a script (`_variables`). -/
abbrev Vars := String → Option Val

/-- State of the listener (/repo/src/SlatInterpreter.py:44-49) and the calls made so far.
The top of `_stack` and of `_stack_stack` is at the head of the lists. -/
structure St where
  stack : List Val := []
  saved : List (List Val) := []
  vars : Vars := fun _ => .none
  titles : List String := []
  calls : List Call := []

/-- `self._stack.append(v)`. -/
def push (v : Val) (s : St) : St := { s with stack := v :: s.stack }

/-- `self._stack.pop()`. -/
def pop (s : St) : Except Err (Val × St) :=
  match s.stack with
  | [] => .error .popEmpty
  | v :: l => .ok (v, { s with stack := l })

/-- `_push_stack` (/repo/src/SlatInterpreter.py:51-53). -/
def pushStack (s : St) : St := { s with stack := [], saved := s.stack :: s.saved }

/-- `_pop_stack` (/repo/src/SlatInterpreter.py:57-60); the result is the list in the order of
`append`. -/
def popStack (s : St) : Except Err (List Val × St) :=
  match s.saved with
  | [] => .error .popEmpty
  | l :: r => .ok (s.stack.reverse, { s with stack := l, saved := r })

/-- A call into `pyslat`. -/
def call (c : Call) (s : St) : St := { s with calls := s.calls ++ [c] }

/-- Walk a list of children in order. -/
def walkAll {α : Type} (f : α → St → Except Err St) : List α → St → Except Err St
  | [], s => .ok s
  | a :: l, s => do walkAll f l (← f a s)

/-! ## Handlers of the parts of commands -/

/-- `exitVar_ref` (/repo/src/SlatInterpreter.py:141-144): `dict.get` gives `None` for a variable
which is not set. -/
def exitVarRef (x : String) (s : St) : Except Err St := .ok (push ((s.vars x).getD .none) s)

/-- `exitPython_script` (/repo/src/SlatInterpreter.py:676-681). -/
def exitPythonScript (c : Cfg) (e : String) (s : St) : Except Err St := do
  .ok (push (← c.ev e) s)

/-- Walk of `numerical_scalar`: `exitNumerical_scalar` (/repo/src/SlatInterpreter.py:147-156). -/
def walkNum (c : Cfg) : Num → St → Except Err St
  | .int n, s => .ok (push (.int n) s)
  | .flt x, s => .ok (push (.flt x) s)
  | .py e, s => do
      let (v, s) ← pop (← exitPythonScript c e s)
      .ok (push v s)
  | .var x, s => do
      let (v, s) ← pop (← exitVarRef x s)
      .ok (push v s)

/-- Walk of `scalar`: `exitScalar` (/repo/src/SlatInterpreter.py:120-125). -/
def walkSc (c : Cfg) : Sc → St → Except Err St
  | .str t, s => .ok (push (.str (c.pre t)) s)
  | .num n, s => do
      let (v, s) ← pop (← walkNum c n s)
      .ok (push v s)

/-- Walk of `scalar2`: `exitScalar2` (/repo/src/SlatInterpreter.py:128-131). -/
def walkSc2 (c : Cfg) (p : Sc2) (s : St) : Except Err St := do
  let s ← walkSc c p.fst s
  let s ← walkSc c p.snd s
  let (v2, s) ← pop s
  let (v1, s) ← pop s
  .ok (push (.list [v1, v2]) s)

/-- Walk of `scalar3 : scalar2 COMMA scalar`: `exitScalar3`
(/repo/src/SlatInterpreter.py:134-138). -/
def walkSc3 (c : Cfg) (p : Sc2) (q : Sc) (s : St) : Except Err St := do
  let s ← walkSc2 c p s
  let s ← walkSc c q s
  let (v3, s) ← pop s
  let (v, s) ← pop s
  match v with
  | .list l => .ok (push (.list (l ++ [v3])) s)
  | _ => .error .attributeError

/-- Walk of `scalar2_sequence` (/repo/src/SlatInterpreter.py:318-324). -/
def walkSc2Seq (c : Cfg) (l : List Sc2) (s : St) : Except Err St := do
  let s ← walkAll (walkSc2 c) l (pushStack s)
  let (vs, s) ← popStack s
  .ok (push (.list vs) s)

/-- Split a list of pairs into two lists (/repo/src/SlatInterpreter.py:111-116). -/
def unzipPairs : List Val → Except Err (List Val × List Val)
  | [] => .ok ([], [])
  | .list (a :: b :: _) :: l => do
      let (xs, ys) ← unzipPairs l
      .ok (a :: xs, b :: ys)
  | _ :: _ => .error .typeError

/-- Walk of `loglog_args` (/repo/src/SlatInterpreter.py:105-117). -/
def walkLoglog (c : Cfg) (l : List Sc2) (s : St) : Except Err St := do
  let s ← walkAll (walkSc2 c) l (pushStack s)
  let (vs, s) ← popStack s
  let (xs, ys) ← unzipPairs vs
  .ok (push (.list [.list xs, .list ys]) s)

/-- Walk of `linear_args`: there is no handler (the listener has none for this rule), so the
pairs stay on the stack. -/
def walkLinear (c : Cfg) (l : List Sc2) (s : St) : Except Err St := walkAll (walkSc2 c) l s

/-- `exitParameter` (/repo/src/SlatInterpreter.py:159-170). -/
def walkParam (c : Cfg) : Param → St → Except Err St
  | .id t, s => .ok (push (.str t) s)
  | .str t, s => .ok (push (.str (c.pre t)) s)
  | .int n, s => .ok (push (.int n) s)
  | .flt x, s => .ok (push (.flt x) s)

/-- `exitDictionary_entry` (/repo/src/SlatInterpreter.py:194-197): a `STRING` key goes to
`preprocess_string` as a parse node, which has no method `strip`. -/
def exitEntry (isString : Bool) (key : String) (s : St) : Except Err St :=
  if isString then .error .attributeError
  else do
    let (v, s) ← pop s
    .ok (push (.entry (.node key) v) s)

/-- `values[key] = value` of a Python dictionary, for `exitParameter_dictionary`
(/repo/src/SlatInterpreter.py:186-189).  Two parse nodes are never the same key. -/
def dictSet (d : List (Key × Val)) (k : Key) (v : Val) : List (Key × Val) :=
  match k with
  | .node _ => d ++ [(k, v)]
  | .str _ => d.filter (fun e => e.1 ≠ k) ++ [(k, v)]

/-- The loop of `exitParameter_dictionary` (/repo/src/SlatInterpreter.py:186-189). -/
def dictFrom : List Val → List (Key × Val) → Except Err (List (Key × Val))
  | [], d => .ok d
  | .entry k v :: l, d => dictFrom l (dictSet d k v)
  | _ :: _, _ => .error .typeError

mutual
/-- Walk of `parameters` (/repo/src/SlatInterpreter.py:159-191). -/
def walkParams (c : Cfg) : Params → St → Except Err St
  | .one p, s => walkParam c p s
  | .arr l, s => do
      let s ← walkAll (walkParam c) l (pushStack s)
      let (vs, s) ← popStack s
      .ok (push (.list vs) s)
  | .dict d, s => do
      let s ← walkEntries c d (pushStack s)
      let values ← dictFrom s.stack.reverse []
      let (_, s) ← popStack s
      .ok (push (.dict values) s)
/-- Walk of the entries of a dictionary. -/
def walkEntries (c : Cfg) : Entries → St → Except Err St
  | .nil, s => .ok s
  | .cons b k v r, s => do
      let s ← walkParams c v s
      let s ← exitEntry b k s
      walkEntries c r s
end

/-- `function_ref`: an `ID` has no handler; a `var_ref` has (141-144). -/
def walkFnRef : FnRef → St → Except Err St
  | .id _, s => .ok s
  | .var x, s => exitVarRef x s

/-- Text of a function reference (`getText()`, /repo/src/SlatInterpreter.py:203-204). -/
def FnRef.text : FnRef → String
  | .id t => t
  | .var x => "$" ++ x

/-- `exitLognormal_options` (/repo/src/SlatInterpreter.py:269-298). -/
def walkOpts (o : LnOpts) (s : St) : Except Err St := .ok (push (.opts o.mu o.sd) s)

/-- Walk of `bilevel_spec` (/repo/src/SlatInterpreter.py:327-333). -/
def walkBilevel (c : Cfg) (b : Bilevel) (s : St) : Except Err St := do
  let s ← walkAll (walkNum c) [b.a, b.b, b.c, b.d, b.e] (pushStack s)
  let (vs, s) ← popStack s
  .ok (push (.list vs) s)

/-- Walk of `bilevel_spec_sequence` (/repo/src/SlatInterpreter.py:336-342). -/
def walkBilevels (c : Cfg) (l : List Bilevel) (s : St) : Except Err St := do
  let s ← walkAll (walkBilevel c) l (pushStack s)
  let (vs, s) ← popStack s
  .ok (push (.list vs) s)

/-- `exitPrint_options` (/repo/src/SlatInterpreter.py:462-474). -/
def walkPrintOpts : Option PrintOpts → St → Except Err St
  | .none, s => .ok s
  | .some o, s => .ok (push (.printOpts o.file o.append) s)

/-- Walk of the `INTEGER | var_ref | python_script` of an integration command: only the last two
have handlers. -/
def walkIntArg (c : Cfg) : IntArg → St → Except Err St
  | .int _, s => .ok s
  | .var x, s => exitVarRef x s
  | .py e, s => exitPythonScript c e s

/-- Walk of `recorder_at`: `exitRecorder_at`, `exitCounted_at`, `exitFloat_array`
(/repo/src/SlatInterpreter.py:625-656). -/
def walkAt (c : Cfg) : At → St → Except Err St
  | .floats l, s => .ok (push (.list (l.map .flt)) s)
  | .range a i b, s => .ok (push (.frange a b i) s)
  | .py e, s => exitPythonScript c e s
  | .var x, s => exitVarRef x s
  | .counted a b log n, s =>
      .ok (push (if log then .logrange a b n else .linrange a b n) s)

/-- Texts of `placement_type` (/repo/src/slatLexer.g4). -/
def Mu.text : Mu → String
  | .meanLn => "mean_ln_x" | .median => "median_x" | .mean => "mean_x"

/-- Texts of `spread_type` (/repo/src/slatLexer.g4). -/
def Sd.text : Sd → String
  | .sdLn => "sd_ln_x" | .sd => "sd_x"

/-- `exitCol_spec` (/repo/src/SlatInterpreter.py:659-664). -/
def walkCol (c : Cfg) : Col → St → Except Err St
  | .placement m, s => .ok (push (.str m.text) s)
  | .spread d, s => .ok (push (.str d.text) s)
  | .scalar x, s => walkSc c x s

/-- Walk of `recorder_cols` (/repo/src/SlatInterpreter.py:667-673). -/
def walkCols (c : Cfg) : Option (List Col) → St → Except Err St
  | .none, s => .ok s
  | .some l, s => do
      let s ← walkAll (walkCol c) l (pushStack s)
      let (vs, s) ← popStack s
      .ok (push (.list vs) s)

/-! ## Handlers of commands -/

/-- `options['mu']`, `options['sd']` of a popped value. -/
def asOpts : Val → Except Err (Option Mu × Option Sd)
  | .opts m d => .ok (m, d)
  | _ => .error .typeError

/-- `params[0]`, `params[1]` of a popped value. -/
def asPair : Val → Except Err (Val × Val)
  | .list (a :: b :: _) => .ok (a, b)
  | _ => .error .typeError

/-- `exitCollapse_command`, `exitDemolition_command`, `exitRebuildcost_command`,
`exitDemolitioncost_command` (/repo/src/SlatInterpreter.py:217-235, 382-396). -/
def exitDist (k : DistCmd) (id : String) (s : St) : Except Err St := do
  let (o, s) ← pop s
  let (p, s) ← pop s
  let (mu, sd) ← asPair p
  let (mo, so) ← asOpts o
  .ok (call (.dist k id mu mo sd so) s)

/-- `exitProbfn_command` (/repo/src/SlatInterpreter.py:200-209). -/
def exitProbfn (id : String) (mu sigma : FnRef) (s : St) : Except Err St := do
  let (o, s) ← pop s
  let (mo, so) ← asOpts o
  .ok (call (.probfn id mo mu.text so sigma.text) s)

/-- `exitFragfn_db_params` and `exitFragfn_command` with a database
(/repo/src/SlatInterpreter.py:245-266). -/
def walkFragDb (id : String) (file : Option String) (key : String) (s : St) :
    Except Err St := do
  let s := push (.dbParams key (file.getD "(default database)")) s
  let (v, s) ← pop s
  match v with
  | .dbParams k f => .ok (call (.fragfnDb id k f) s)
  | _ => .error .typeError

/-- `exitFragfn_command` without a database (/repo/src/SlatInterpreter.py:253-258) and
`exitLossfn_command` for `simple` (305-310): options first, then the data. -/
def exitOptsData (mk : Option Mu → Option Sd → Val → Call) (s : St) : Except Err St := do
  let (o, s) ← pop s
  let (d, s) ← pop s
  let (mo, so) ← asOpts o
  .ok (call (mk mo so d) s)

/-- `exitCompgroup_command` (/repo/src/SlatInterpreter.py:345-368). -/
def exitCompgroup (id edp frag cost : String) (delay : Option String) (count : ℕ)
    (floats : List ℚ) (s : St) : Except Err St :=
  let ca : ℚ := if 0 < floats.length then floats.getD 0 1 else 1
  let da : ℚ := if 1 < floats.length then floats.getD 1 1 else 1
  .ok (call (.compgroup id edp frag cost delay count ca da) s)

/-- `exitStructure_command` (/repo/src/SlatInterpreter.py:372-379). -/
def exitStructure (id : String) (groups : List String) (s : St) : Except Err St :=
  walkAll (fun g s => .ok (call (.addCompGroup id g) s)) groups (call (.structure_ id) s)

/-- Walk of `print_message`: `exitPrint_message` (/repo/src/SlatInterpreter.py:450-458);
`print_title` and `print_function` have no handlers. -/
def walkPrintWhat (c : Cfg) : PrintWhat → St → Except Err St
  | .emptyMessage, s => .ok (push (.str "") s)
  | .message t, s => .ok (push (.str (c.pre t)) s)
  | .messagePy e, s => do
      let (v, s) ← pop (← exitPythonScript c e s)
      .ok (push v s)
  | .messageVar x, s => do
      let (v, s) ← pop (← exitVarRef x s)
      .ok (push v s)
  | .title, s => .ok s
  | .function _ _, s => .ok s

/-- `options.get('filename')`, `options.get('append')`. -/
def asPrintOpts : Val → Except Err (Option String × Bool)
  | .printOpts f a => .ok (.some f, a)
  | _ => .error .typeError

/-- The object of a `print` command (/repo/src/SlatInterpreter.py:406-434). -/
def printObject (w : PrintWhat) (s : St) : Except Err (Printed × St) :=
  match w with
  | .title => .ok (.titles s.titles, s)
  | .function k id =>
      if k ∈ ["detfn", "probfn", "im", "edp", "fragfn", "lossfn", "compgroup"]
      then .ok (.definition k id, s) else .ok (.unknown, s)
  | _ => do
      let (v, s) ← pop s
      .ok (.value v, s)

/-- `exitPrint_command` (/repo/src/SlatInterpreter.py:400-447). -/
def exitPrint (w : PrintWhat) (hasOpts : Bool) (s : St) : Except Err St := do
  let (f, a, s) ← (if hasOpts then do
      let (v, s) ← pop s
      let (f, a) ← asPrintOpts v
      .ok (f, a, s)
    else .ok (.none, false, s))
  let (o, s) ← printObject w s
  .ok (call (.print o f a) s)

/-- `exitIntegration_command` (/repo/src/SlatInterpreter.py:477-511).  `Set_Integration_Search_Limit`
turns its argument into an integer itself (/repo/src/pyslat.py), so the text of the `INTEGER` and
the number are the same to it. -/
def exitIntegration (iterations : IntArg) (search : Option (Search × IntArg)) (s : St) :
    Except Err St := do
  let s ← (match search with
    | .none => .ok s
    | .some (m, a) => do
        let s := call (.setMethod m) s
        match a with
        | .int n => .ok (call (.setSearchLimit (.int n)) s)
        | _ => do
            let (v, s) ← pop s
            .ok (call (.setSearchLimit v) s))
  let (precision, s) ← pop s
  let (it, s) ← (match iterations with
    | .int n => .ok (.int n, s)
    | _ => pop s)
  .ok (call (.integrationSettings precision it) s)

/-- Whether the command has `recorder_at`, and whether it has `recorder_cols`. -/
def RecBody.hasAt : RecBody → Bool
  | .fn .. => true | .rates .. => true | .pdf .. => true | .by_ .. => true | _ => false

/-- See `RecBody.hasAt`. -/
def RecBody.hasCols : RecBody → Bool
  | .fn _ _ _ c => c.isSome | .by_ _ _ _ c => c.isSome | .annual _ _ c => c.isSome | _ => false

/-- Walk of the children of a `recorder_command` up to its `print_options`. -/
def walkRecBody (c : Cfg) : RecBody → St → Except Err St
  | .fn _ _ a k, s => do walkCols c k (← walkAt c a s)
  | .dsrate _, s => .ok s
  | .collrate _, s => .ok s
  | .rates _ _ a, s => walkAt c a s
  | .pdf _ a _, s => walkAt c a s
  | .npv .., s => .ok s
  | .by_ _ _ a k, s => do walkCols c k (← walkAt c a s)
  | .annual _ o k, s => do walkCols c k (← walkOpts o s)

/-- The type of a recorder as a string (/repo/src/SlatInterpreter.py:534-563). -/
def RecBody.type : RecBody → String
  | .fn t .. => t.text
  | .dsrate _ => "dsrate"
  | .collrate _ => "collrate"
  | .rates .costrate .. => "costrate"
  | .rates .collapse .. => "collapse"
  | .rates .deagg .. => "deagg"
  | .rates .totalcost .. => "totalcost"
  | .pdf .. => "pdf"
  | .npv .. => "structcost"
  | .by_ .. => "structcost"
  | .annual .. => "structcost"

/-- The `ID` of a recorder command. -/
def RecBody.id : RecBody → String
  | .fn _ i .. => i | .dsrate i => i | .collrate i => i | .rates _ i _ => i | .pdf i .. => i
  | .npv i .. => i | .by_ _ i .. => i | .annual i .. => i

/-- The chain of comparisons choosing the registry (/repo/src/SlatInterpreter.py:600-620). -/
def registryOf (t : String) : Except Err String :=
  if t = "dsrate" ∨ t = "dsedp" ∨ t = "dsim" then .ok "compgroup"
  else if t = "detfn" then .ok "detfn"
  else if t = "probfn" then .ok "probfn"
  else if t = "imrate" ∨ t = "collapse" ∨ t = "collrate" then .ok "im"
  else if t = "edpim" ∨ t = "edprate" then .ok "edp"
  else if t = "lossds" ∨ t = "costedp" ∨ t = "costim" ∨ t = "delayedp" ∨ t = "delayim"
      ∨ t = "anncost" ∨ t = "costrate" then .ok "compgroup"
  else if t = "structcost" ∨ t = "deagg" ∨ t = "totalcost" ∨ t = "pdf" then .ok "structure"
  else .error .valueError

/-- The loop over the options of `--annual` (/repo/src/SlatInterpreter.py:581-597): the local `c`
keeps the name found for `mu` when `sd` is not given, and is unbound when `mu` is not given.
`cols.sort()` puts `m…` before `s…`. -/
def annualCols : Option Mu → Option Sd → Except Err (List Val)
  | .none, _ => .error .unboundLocal
  | .some m, .some d => .ok [.str m.text, .str d.text]
  | .some m, .none => .ok [.str m.text, .str m.text]

/-- The part of `exitRecorder_command` for `structcost` and `pdf`
(/repo/src/SlatInterpreter.py:551-597): changes to the options, columns and points. -/
def recSpecial (b : RecBody) (o : ROpts) (cols at_ : Option Val) (s : St) :
    Except Err (ROpts × Option Val × Option Val × St) :=
  match b with
  | .pdf _ _ n => .ok (if n then { o with normalise := true } else o, cols, at_, s)
  | .by_ .fate .. => .ok ({ o with structType := .some "by-fate" }, cols, at_, s)
  | .by_ .edp .. => .ok ({ o with structType := .some "by-edp" }, cols, at_, s)
  | .by_ .frag .. => .ok ({ o with structType := .some "by-frag" }, cols, at_, s)
  | .npv _ f i l r =>
      .ok ({ o with structType := .some "npv", discountRate := .some r }, cols,
        .some (.range f l i), s)
  | .annual .. => do
      let (v, s) ← pop s
      let (m, d) ← asOpts v
      let cs ← annualCols m d
      .ok ({ o with structType := .some "annual" }, .some (.list cs), at_, s)
  | _ => .ok (o, cols, at_, s)

/-- `self._stack.pop() if b else None`. -/
def popIf (b : Bool) (s : St) : Except Err (Option Val × St) :=
  if b then do
    let (v, s) ← pop s
    .ok (.some v, s)
  else .ok (.none, s)

/-- `exitRecorder_command` (/repo/src/SlatInterpreter.py:515-622). -/
def exitRecorder (rid : String) (b : RecBody) (hasOpts : Bool) (s : St) : Except Err St := do
  let (po, s) ← popIf hasOpts s
  let o ← (match po with
    | .none => .ok {}
    | .some v => do
        let (f, a) ← asPrintOpts v
        .ok { filename := f, append := a } : Except Err ROpts)
  let (cols, s) ← popIf b.hasCols s
  let (at_, s) ← popIf b.hasAt s
  let (o, cols, at_, s) ← recSpecial b o cols at_ s
  let reg ← registryOf b.type
  .ok (call (.recorder rid b.type reg b.id o cols at_) s)

/-- `exitDetfn_command` (/repo/src/SlatInterpreter.py:80-102).  `pyslat.detfn.__init__` has the
parameters `id`, `type`, `parameters` (/repo/src/pyslat.py), so the call with four arguments is a
`TypeError`. -/
def exitDetfn (id type : String) (s : St) : Except Err St := do
  let (v, s) ← pop s
  if type = "loglog" ∨ type = "lin" then do
    let _ ← asPair v
    .error .typeError
  else .ok (call (.detfn id type v) s)

/-- `exitSet_command` (/repo/src/SlatInterpreter.py:691-694). -/
def exitSet (id : String) (s : St) : Except Err St := do
  let (v, s) ← pop s
  .ok { s with vars := fun x => if x = id then .some v else s.vars x }

/-- `exitLog_command` (/repo/src/SlatInterpreter.py:707-713). -/
def exitLog (stderr : Option Bool) (file : Option String) (s : St) : Except Err St :=
  let s := match stderr with
    | .some b => call (.logToStdErr b) s
    | .none => s
  .ok (match file with
    | .some f => call (.setLogFile f) s
    | .none => s)

/-- Walk of a command between `enterCommand` and `exitCommand`: the children of the command in
the order of the grammar, then the handler of the command. -/
def walkBody (c : Cfg) : Cmd → St → Except Err St
  | .title t, s => .ok { s with titles := s.titles ++ [c.pre t] }
  | .detfnHyperbolic id p q, s => do exitDetfn id "hyperbolic" (← walkSc3 c p q s)
  | .detfnPowerlaw id p, s => do exitDetfn id "power law" (← walkSc2 c p s)
  | .detfnLoglog id l, s => do exitDetfn id "loglog" (← walkLoglog c l s)
  | .detfnLinear id l, s => do exitDetfn id "lin" (← walkLinear c l s)
  | .probfn id mu sg o, s => do
      let s ← walkFnRef mu s
      let s ← walkFnRef sg s
      exitProbfn id mu sg (← walkOpts o s)
  | .im id fn, s => .ok (call (.im id fn) s)
  | .edp id im fn, s => .ok (call (.edp id im fn) s)
  | .dist k id p o, s => do
      let s ← walkSc2 c p s
      exitDist k id (← walkOpts o s)
  | .fragfnDb id f k, s => walkFragDb id f k s
  | .fragfnUser id l o, s => do
      let s ← walkSc2Seq c l s
      exitOptsData (.fragfnUser id) (← walkOpts o s)
  | .lossSimple id l o, s => do
      let s ← walkSc2Seq c l s
      exitOptsData (.simpleLoss id) (← walkOpts o s)
  | .lossBilevel id l, s => do
      let (v, s) ← pop (← walkBilevels c l s)
      .ok (call (.bilevelLoss id v) s)
  | .compgroup id e f k d n fl, s => exitCompgroup id e f k d n fl s
  | .structure_ id g, s => exitStructure id g s
  | .print w po, s => do
      let s ← walkPrintWhat c w s
      exitPrint w po.isSome (← walkPrintOpts po s)
  | .integration p it se, s => do
      let s ← walkNum c p s
      let s ← walkIntArg c it s
      let s ← (match se with
        | .none => .ok s
        | .some (_, a) => walkIntArg c a s)
      exitIntegration it se s
  | .recorder rid b po, s => do
      let s ← walkRecBody c b s
      exitRecorder rid b po.isSome (← walkPrintOpts po s)
  | .analyze, s => .ok (call .analyze s)
  | .set id (.py e), s => do exitSet id (← exitPythonScript c e s)
  | .set id (.var x), s => do exitSet id (← exitVarRef x s)
  | .set id (.params p), s => do exitSet id (← walkParams c p s)
  | .importProbfn id f, s => .ok (call (.importProbfn id f) s)
  | .importIm id f, s => .ok (call (.importIm id f) s)
  | .log b f, s => exitLog b f s
  | .intstatsPrint, s => .ok (call .printStatistics s)
  | .intstatsReset, s => .ok (call .resetStatistics s)
  | .inputdir d, s => .ok (call (.inputdir d) s)
  | .outputdir d, s => .ok (call (.outputdir d) s)

/-- `exitCommand` (/repo/src/SlatInterpreter.py:69-73). -/
def exitCommand (s : St) : Except Err St :=
  if 0 < s.stack.length then .error .stackNotEmpty
  else if 0 < s.saved.length then .error .stackStackNotEmpty
  else .ok s

/-- Walk of a `command`: `enterCommand` (/repo/src/SlatInterpreter.py:64-66) empties the stack. -/
def walkCommand (c : Cfg) (m : Cmd) (s : St) : Except Err St := do
  exitCommand (← walkBody c m { s with stack := [] })

/-- Walk of a script (/repo/src/slatParser.g4:5, /repo/src/SlatInterpreter.py:742-745). -/
def walkScript (c : Cfg) (l : List Cmd) (s : St) : Except Err St := walkAll (walkCommand c) l s

end Slat.Interp
