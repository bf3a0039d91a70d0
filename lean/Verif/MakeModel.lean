import Verif.FragilityModel
import Verif.FunctionsModel

/-!
# Making functions and distributions from parameters

The factories of the Python extension (src/pyslatcore.cpp:102-171, 533-640) and the classes of src/pyslat.py that
call them.  The extension has no exception handler (src/pyslatcore.i has no `%exception`), so a C++ exception that
leaves a factory ends the process; SWIG itself raises a Python `TypeError` for an argument of the wrong type.

Simplifications: numbers handed over by Python are finite; the type of a container element is uniform; messages
printed by the factories are not modelled.
-/

namespace Slat.Make

open Slat Dbl

noncomputable section

/-- What a call from Python ends with: a value, a Python exception, the end of the process (uncaught C++ exception or
a GSL error, whose default handler aborts), or undefined behaviour.  There is no source to cite: these are the four
outcomes the definitions below distinguish. -/
inductive Result (α : Type) where
  | value (a : α)
  | raises
  | dies
  | undefined

/-- `FUNCTION_TYPE` (src/pyslatcore.h:11). -/
inductive FnType where
  | nlh | plc | lin | loglog

/-- `LOGNORMAL_MU_TYPE` (src/pyslatcore.h:12). -/
inductive MuType where
  | meanX | medianX | meanLnX
  deriving DecidableEq

/-- `LOGNORMAL_SIGMA_TYPE` (src/pyslatcore.h:13). -/
inductive SigmaType where
  | sdX | sdLnX
  deriving DecidableEq

/-- The wrapper `DeterministicFn` of the extension (src/pyslatcore.cpp:92-101): a function, or `NULL`. -/
abbrev Wrapped := Option (Dbl → Dbl)

/-- `DeterministicFn::ValueAt` of the extension (src/pyslatcore.cpp:98-101): a `NULL` function is dereferenced. -/
def valueAt (w : Wrapped) (x : Dbl) : Result Dbl :=
  match w with
  | none => .undefined
  | some f => .value (f x)

/-- A power law as a function of a `double` (src/functions.cpp:166-169); the value at infinities and NaN is `pow`'s and
is left out (NaN). -/
def plcFn (a b : ℝ) : Dbl → Dbl
  | .fin x => Functions.plc a b x
  | _ => .nan

/-- `factory3` (src/pyslatcore.cpp:102-134): a function from two lists.  A message is printed and `NULL` wrapped when the
type or the lengths do not fit; the GSL aborts on abscissae that do not increase. -/
def factory3 (t : FnType) (x y : List ℝ) : Result Wrapped :=
  match t with
  | .plc => .value none
  | .nlh => .value none
  | .lin =>
    if x.length < 2 ∨ x.length ≠ y.length then .value none
    else match Functions.linearFn (x.zip y) with
      | some f => .value (some f)
      | none => .dies
  | .loglog =>
    if x.length < 2 ∨ x.length ≠ y.length then .value none
    else match Functions.logLogFn (x.zip y) with
      | some f => .value (some f)
      | none => .dies

/-- `factory2` (src/pyslatcore.cpp:136-171): a function from one list.  The list is indexed without looking at its
length. -/
def factory2 (t : FnType) (params : List ℝ) : Result Wrapped :=
  match t with
  | .plc =>
    match params with
    | a :: b :: _ => .value (some (plcFn a b))
    | _ => .undefined
  | .nlh =>
    match params with
    | alpha :: imAsy :: vAsy :: _ => .value (some (Functions.nlh vAsy imAsy alpha))
    | _ => .undefined
  | .lin => .value none
  | .loglog => .value none

/-- The parameters given to `detfn`: a list of numbers or a list of lists of numbers (src/pyslat.py:377). -/
inductive Params where
  | numbers (l : List ℝ)
  | lists (l : List (List ℝ))

/-- The names of function types (src/pyslat.py:378-387); `none` is `ValueError`. -/
def fnType (s : String) : Option FnType :=
  if s = "power law" then some .plc
  else if s = "hyperbolic" then some .nlh
  else if s = "loglog" then some .loglog
  else if s = "linear" then some .lin
  else none

/-- The call of `factory3` in `detfn.__init__` (src/pyslat.py:393-394): `parameters[0]` and `parameters[1]` must exist
(`IndexError`) and be lists (`TypeError` from SWIG). -/
def fromLists (t : FnType) (p : Params) : Result Wrapped :=
  match p with
  | .numbers _ => .raises
  | .lists (x :: y :: _) => factory3 t x y
  | .lists _ => .raises

/-- The call of `factory2` in `detfn.__init__` (src/pyslat.py:395-396): a list of lists is a `TypeError` from SWIG; an
empty list of lists is the empty list. -/
def fromNumbers (t : FnType) (p : Params) : Result Wrapped :=
  match p with
  | .numbers l => factory2 t l
  | .lists [] => factory2 t []
  | .lists _ => .raises

/-- `detfn.__init__` (src/pyslat.py:377-399): the wrapped function of the new object. -/
def detfn (type : String) (p : Params) : Result Wrapped :=
  match fnType type with
  | none => .raises
  | some .loglog => fromLists .loglog p
  | some .lin => fromLists .lin p
  | some t => fromNumbers t p

/-- `detfn(...).ValueAt(x)` (src/pyslat.py:377-399, 413-414). -/
def detfnAt (type : String) (p : Params) (x : Dbl) : Result Dbl :=
  match detfn type p with
  | .value w => valueAt w x
  | .raises => .raises
  | .dies => .dies
  | .undefined => .undefined

/-- A `detfn` command of the language (src/slat.g4:118-122). -/
inductive Command where
  | powerlaw (a b : ℝ)
  | hyperbolic (p q r : ℝ)
  | loglog (pts : List (ℝ × ℝ))
  | linear (pts : List (ℝ × ℝ))

/-- `exitDetfn_command` (src/SlatInterpreter.py:80-102) with `exitScalar2`, `exitScalar3` (128-138), which keep the order of
the numbers.  `detfn` is called with four arguments for the interpolated functions (line 100) although its constructor
takes three: `TypeError`. -/
def command : Command → Result Wrapped
  | .powerlaw a b => detfn "power law" (.numbers [a, b])
  | .hyperbolic p q r => detfn "hyperbolic" (.numbers [p, q, r])
  | .loglog _ => .raises
  | .linear _ => .raises

/-- A `detfn` command followed by an evaluation (src/SlatInterpreter.py:80-102, src/pyslat.py:413-414). -/
def commandAt (c : Command) (x : Dbl) : Result Dbl :=
  match command c with
  | .value w => valueAt w x
  | .raises => .raises
  | .dies => .dies
  | .undefined => .undefined

/-- `MakeLogNormalDist(mu, mu_type, sigma, sigma_type)` (src/pyslatcore.cpp:533-552): the other combinations print a
message and keep the default-constructed distribution. -/
def logNormalDist (mu : Dbl) (mt : MuType) (sigma : Dbl) (st : SigmaType) : LogNormalDist :=
  match mt, st with
  | .meanLnX, .sdLnX => LogNormalDist.ofMuSigmaLn mu sigma
  | .meanX, .sdLnX => LogNormalDist.ofMeanSigmaLn mu sigma
  | .medianX, .sdLnX => LogNormalDist.ofMedianSigmaLn mu sigma
  | .meanX, .sdX => LogNormalDist.ofMeanSigma mu sigma
  | _, _ => LogNormalDist.unset

/-- `MakeLogNormalDist(void)` (src/pyslatcore.cpp:554-559), `DefaultLogNormalDist` (src/pyslat.py:258-259). -/
def defaultDist : LogNormalDist := LogNormalDist.unset

/-- The options of a fragility or loss function: how the two numbers of each damage state are to be read
(src/SlatInterpreter.py:265-293).  An option that is not given is `None`. -/
structure Options where
  mu : Option MuType
  sd : Option SigmaType

/-- One call of `MakeLogNormalDist` with the options (src/pyslat.py:935, 1020): SWIG refuses `None` as an enum. -/
def fromOptions (o : Options) (s : ℝ × ℝ) : Option LogNormalDist :=
  match o.mu, o.sd with
  | some mt, some st => some (logNormalDist (.fin s.1) mt (.fin s.2) st)
  | _, _ => none

/-- `fragfn_user.__init__` (src/pyslat.py:930-937) with `MakeFragilityFn` (src/pyslatcore.cpp:591-598): the states of the
new function. -/
def fragfnUser (o : Options) (scalars : List (ℝ × ℝ)) : Result (List LogNormalDist) :=
  match scalars.mapM (fromOptions o) with
  | none => .raises
  | some ds =>
    match Fragility.construct ds with
    | some states => .value states
    | none => .dies

/-- One damage state of `simplelossfn.__init__` (src/pyslat.py:1018-1022): a number that is zero is false. -/
def lossState (o : Options) (d : ℝ × ℝ) : Option LogNormalDist :=
  open Classical in
  if d.1 ≠ 0 then fromOptions o d else some defaultDist

/-- `simplelossfn.__init__` (src/pyslat.py:1013-1024) with `MakeSimpleLossFn` (src/pyslatcore.cpp:616-623). -/
def simplelossfn (o : Options) (data : List (ℝ × ℝ)) : Result (List LogNormalDist) :=
  match data.mapM (lossState o) with
  | none => .raises
  | some ds =>
    match Loss.construct ds with
    | some l => .value l
    | none => .dies

/-- One damage state of `bilevellossfn.__init__` (src/pyslat.py:1055-1060): five numbers, further ones are ignored; the
limits are integers (a `TypeError` from SWIG otherwise, not modelled: limits and costs are given separately). -/
def biLevelState (limits : List ℤ) (costs : List ℝ) : Option Loss.BiLevel :=
  match limits, costs with
  | [lo, hi], a :: b :: d :: _ => some ⟨lo, hi, .fin a, .fin b, .fin d⟩
  | _, _ => none

/-- `bilevellossfn.__init__` (src/pyslat.py:1046-1062) from rows of numbers: `data[0]` raises on an empty list. -/
def bilevellossfn (data : List (List ℤ × List ℝ)) : Result (List Loss.BiLevel) :=
  match data with
  | [] => .raises
  | data =>
    match data.mapM (fun r => biLevelState r.1 r.2) with
    | none => .raises
    | some ls =>
      match Loss.construct ls with
      | some l => .value l
      | none => .dies

/-- The delay function of a new group (src/pyslat.py:231-233): without one, a loss function with a single damage state. -/
def delayFn (delay : Option (List LogNormalDist)) : List LogNormalDist :=
  match delay with
  | none => [defaultDist]
  | some l => l

/-- The outcome of a loss function called from Python: an exception ends the process.  (src/loss_functions.cpp:18-21) -/
def ofOutcome {α : Type} : Loss.Outcome α → Result α
  | .ok a => .value a
  | .throws => .dies
  | .undefined => .undefined

/-- `LogNormalDist` at an EDP of a group whose loss function is simple (src/comp_group.cpp:53-69): the cost with the cost
function, the delay with the delay function. -/
def lossAtEdp (states : List LogNormalDist) (loss : List LogNormalDist) (count : ℤ) (adj : Dbl) (edp : Dbl) :
    Result LogNormalDist :=
  ofOutcome (Loss.simple loss (Fragility.pHighest states edp) count adj)

/-- `E_Cost_EDP`, `E_Delay_EDP` (src/comp_group.cpp:222-225, 237-240). -/
def expected : Result LogNormalDist → Result Dbl
  | .value d => .value d.getMean
  | .raises => .raises
  | .dies => .dies
  | .undefined => .undefined

end

end Slat.Make
