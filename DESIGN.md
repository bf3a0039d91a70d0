# Formal model of SLAT (Seismic Loss Assessment Tool)

Source: `/repo/src` (C++11/OpenMP core `libslat`, SWIG layer `pyslatcore`, Python layer `pyslat.py`,
ANTLR interpreter `SlatInterpreter.py`).  Model and proofs: Lean 4.33.0 + Mathlib, in `lean/Verif`.

## 1. Conventions

* One `…Model.lean` file per subsystem with total functions or step relations.  Every definition
  cites file and lines in `/repo`, and says where it simplifies.
* Specifications (`…Spec.lean`, or a `Spec` section at the head of the property file) are written
  without the model's helper functions.
* Property theorems live in `…Props.lean`; each is followed by an `example` meeting its hypotheses.
* Undefined behaviour, aborts, exceptions and non-termination are explicit outcomes.
* When code and property disagree, the negation is proved from a concrete witness (`…_fails`), and
  the part that does hold is proved under the name `…_partial`.

### Doubles
`Dbl = fin (r : ℝ) | nan | pinf | ninf`.  Arithmetic follows IEEE-754 on the special values
(`inf - inf = nan`, comparisons with `nan` are false, `log 0 = -inf`, `exp(-inf) = 0`, …) and is exact
on `fin`.  Not modelled here: rounding, overflow of finite values (`MaqFModel` has both for the integration), signed zero (a zero divisor counts as +0).

### Threads
Interleaving step relations: one thread performs one source-level action at a time.  OpenMP simple
locks are `Option Tid` (owner).  A blocked `omp_set_lock` has no step.  Releasing a lock that is not held
by the thread is a fault (undefined behaviour in the OpenMP specification).  The memory model is
sequentially consistent; this is justified where all shared data are accessed under the same lock, which
is part of what is proved.

### External code
GSL cdfs are the mathematical Gaussian cdf; `gsl_deriv_*` and the integrands are parameters (the routines are transcribed for C78);
`gsl_interp_linear` is the piecewise linear interpolant.  boost.log, ANTLR, SWIG and file output are not modelled.

## 2. Properties: what is modelled, how it is proved

| id | model | method |
|----|-------|--------|
| C01-C03 | `CachedFunction::operator()` as an N-thread step relation, one step per statement that touches shared state | inductive invariant over all reachable states (lock ownership, `in_process` entry ↔ computing/waiting threads, cache contents = function values, evaluation log) |
| C04 | same | progress lemma (some step enabled unless all idle) + strictly decreasing step measure |
| C05 | same with unrestricted `clear` | negation by a concrete schedule; partial: clears at quiescent states |
| C06 | same with throwing function | negation: reachable state where a call never returns; partial: non-throwing evaluations |
| C07 | same, keys carry an `isNaN` predicate | invariant on the bypass branch |
| C08, C09 | `CachedValue::operator()` step relation with `waiting_lock` | invariant; negation by schedules after a clear |
| C10 | registry map with add/remove/clear operations | refinement to the set of live caches |
| C11-C13 | heap of `Replaceable` objects (callback maps, counters) | refinement to an abstract list of clients; negations for id reuse, self replacement, overwritten clients |
| C14-C18 | `LogNormalDist` over `Dbl` | algebra of exp/log/sqrt; list induction; Jensen for the mixture variance; Gaussian cdf from Mathlib |
| C19 | the mutually recursive lambdas of `LogNormalFn` as a fuelled evaluator | combos terminate with consistent answers / run out of every fuel |
| C20, C21 | `Evaluate` methods | real analysis, induction over the table |
| C22, C23 | `FragilityFn` | list induction; negation with crossing curves |
| C24, C25 | loss functions | case analysis, list lemmas |
| C26-C28 | IM fates, structure costs, discounting | algebra and inequalities |
| C29 | structure component list machine | refinement to a list |
| C30-C34 | the five searches and the MAQ loop over `Dbl` | measure, loop invariants (tiling, sum of accepted estimates) |
| C35 | same | negation by a concrete integrand |
| C36 | statistics; sequential fold and concurrent step relation | invariant; negation schedule for the maxima |
| C37 | settings machine | invariant over operation lists |
| C38-C42 | object graph with callbacks and caches | invariant "valid cache ⇒ equals recomputation" over all histories; negations for the defects |
| C43 | parse trees of `slatParser.g4` and the listener's stack effects | structural induction |
| C44 | grouping functions | list induction |
| C45 | parallel-for as interleaved writes to disjoint cells, composed with the cache models | invariant over all schedules |
| C46, C47 | `LogNormalDist` | moments of the Gaussian law (Mathlib), strictly increasing cdf |
| C48, C49 | `Evaluate` methods | real powers, induction over the table |
| C50, C51 | structure costs, annual cost | algebra; integrator as a parameter |
| C52 | structure component list machine with replacements | invariant over histories |
| C53 | MAQ loop | Simpson error bound (Peano kernel) summed over the accepted regions |
| C54 | object graph | invariant: callback tables = members of live objects |
| C55 | IM and EDP rates over an integrator with a stated error | integrals against the hazard; dominated convergence for the limit; MAQ shown to be such an integrator |
| C56 | compound EDP | comparison of means; counterexample for different spreads |
| C57 | group cost over a differentiation routine and an integrator | density of the log-normal law; law of total variance; error propagation |
| C58 | call stacks over the statement-level caches, parallel regions as pools of blocks | invariant with ranks of caches; contracts of both caches; potential for termination; call graph of the library |
| C59 | MAQ loop | composite rule of an integrand changed at one end; accuracy test of the last region |
| C60 | damage states of a group | product measure of capacity and demand; closed form by the sum of independent normals |
| C61 | group delay | as C57; counterexample for several components |
| C62, C63 | recorders | table written from the language reference; case analysis over kinds; induction over columns and arguments |
| C64 | deaggregated costs of a structure | grouping theorem of C44, moments of sums, costs by fate of C27 |
| C65 | other recorders | induction over columns and arguments; maximum of the densities |
| C66 | rate of a group's cost | log-normal law from its moments; layer cake and exchange of integrals |
| C67 | costs from fragility and loss functions | linearity of the sum over states in the integrals of C57 and C60; with an inexact integrator, summation by parts bounds the disagreement by the error and the changes of the unit costs; counterexample with crossing damage states |
| C68 | ranges of arguments | induction over the loop with accumulated rounding error |
| C69 | names and redefinitions | refinement: the objects under the dictionaries against a sheet of definitions without objects |
| C70 | making functions and distributions | decision logic and round-trip: laws with the given moments; which parameter lists are accepted |
| C71 | import of demand functions and hazard curves | fit of each row (geometric mean, sample deviation); invariances; which files are accepted |
| C72 | integration settings and cached results | invariant over histories of operations and settings; counterexample |
| C73 | files written by recorders | decision logic over all paths; invariant over lists of recorders |
| C74 | integration in machine arithmetic | simulation over an arbitrary arithmetic; loop invariants (order of abscissae, signs, accumulated relative error) |
| C75 | interpolated functions shared by threads | statement-level model of the accelerator under the parallel loops of C45; invariant; counterexample |
| C76 | log contexts | operations of tasks on the tree of contexts; invariant relating the tree to the descriptions still open; specification replays the events; counterexamples |
| C77 | rounding of sums, mixtures, total cost | the formulas again with every operation rounded; errors measured as exponents of a factor; moments of sums and mixtures as specification; IEEE nearest-even instance; counterexamples |
| C78 | derivatives of hazard and exceedance curves | GSL differentiation transcribed, with a machine as parameter; Taylor expansion of the difference quotients with the adaptive step; rounding errors; rates and costs with an inexact derivative; counterexample for large arguments |
| C79 | rate and probability curves survive rounding | the curves with every operation rounded, over a platform given by laws (monotone rounding, monotone library functions); binary64 with overflow and gradual underflow constructed and proved to satisfy the laws; induction on tables and lists of damage states; counterexamples in binary64 |
| C80 | discounted costs survive rounding | `E_cost` with every operation rounded, over the platform of C79; chain of monotone steps; error bound by the part lost to discounting; counterexample in binary64 |
| C81 | log messages reach the destinations set | registered sinks and the two static pointers as a state machine over the calls; invariant relating the state to the history; specification by counting flags, and by the messages since the last `SetLogFile` |
| C82 | which queries return | all queries as computations that may fail, over arbitrary adaptive integration and differentiation routines (interaction trees); what a query needs stated on the parts of the model; exact equivalences; invariant over additions and removals |
| C83 | scripts are cut into the tokens they write | the rules of the lexer as regular expressions with derivatives, run with a stack of modes; `Lexes` states ANTLR's rules; `Written` says what a user may write for a row of tokens; induction on the layout; exceptions as theorems |
| C84 | string literals mean what is written | `preprocess_string` and the documented escapes; exact value of every literal; which texts come back; counterexamples |
| C85 | scripts are read as the commands they write | the rules of the parser as grammar terms with values, a relation `Derives` and an executable parser; LL(k) conditions computed and proved to give a unique reading; `writeCmd` says how commands are written; induction over grammar and commands in both directions |
| C86 | queries from Python are answered by the library | the three layers (`pyslat.py`, SWIG declarations, `pyslatcore.cpp`) over an arbitrary library; the specification lists the queries with their library functions; case analysis over methods, induction over lists; exceptions as theorems |
| C87 | a script leaves the tables it orders | composition of the models of lexer, parser, listener, recorders, ranges and files over an arbitrary library; invariant over commands (which recorders exist, with which files), then C62 and C73; `session_files_partial` adds a ledger of each file, a fold over the commands, by reverse induction with the dictionary of recorders as invariant (`Books`) |
| C88 | the numbers in the files are those of the formulas | the library instantiated with functions, intensity measures and demands; names resolved by a specification over the list of commands; simulation invariant (`Meets`) and monotonicity of objects (`Later`) by induction over commands; progress theorem for well-formed scripts |
| C89 | what `print` writes stays in its file | specification of the lines of a file as a fold over the commands; the same invariant over commands as C87, files untouched by other calls |
| C90 | damage and losses in the files are those of the numbers | fragility functions, loss functions and groups added to the library; specification by the list of commands (`fragOf`, `lossOf`, `groupOf`, `expected`); a second invariant (`Stock`) beside `Meets`; progress theorem extended to the new commands |
| C91 | rates and losses at an intensity in the files are the integrals meant | the numerics of the library filled in by `RatesModel` (`integrated`); the integrator answers within an error (`Answers`, and `Nested` where what it finds is integrated again); specification by the list of commands; the session theorems of C88/C90 joined with those of C55, C57, C60, C61, C66; a script with a smooth hazard curve as the example |
| C92 | costs of a structure in the files are those described | as C91 with structures: `structure_at` (what the object is at the analysis, by the commands before it), `total_found` (mean and mean square of the mixture over the fates from C16 and C27), `annual_found` (integral of the totals found, error carried through), C28 and C51 for the annual cost and discounting; a script with two groups and every recorder of a structure as example; for the parts by demand and fragility function `named_run` (every function in a group is the one registered under its name, and no two names share a number), so the numbers the code sorts by and the names of the script make the same parts |
| C93 | printing a definition tells what it was made from | attributes of the objects kept next to any library (`scribe`); invariant over calls (`Told`): each entry has its own name, the text is that of the last defining call; joined with the ledger of C87 |
| C94 | writing out variables and expressions changes nothing | a transformation of command lists (`Out.writtenOut`) that knows the `set` commands but runs nothing; simulation: a command and the command written out make the same calls when the variables have the values they are known to have (`command_same`, `run_same`); with C87-C93 the files of a script with variables follow from those of the script written out |
| C95 | what is remembered between analyses is not stale | a library with a memory (`remembering`) that analyses fill and calls empty, against the one that computes; simulation with two invariants: what is remembered is what would be computed now (`Keeps`: every call that changes a number forgets it or is one of the exceptions), and what is remembered was asked for by a recorder of the script (`Noted`), so that the exceptions can be stated in terms of the commands (`Spec.Settled`); both exceptions with exact integrals as witnesses, the one for annual costs from a theorem that holds for every script of its form (`stale_cost_file`) |
| C96 | a missing cost is reported as missing | what is not a number stays so through the sums of `TotalCost` as soon as the probability is positive, whatever the groups and the integrator say; MAQ looks at the intensity 1 first, so that the annual cost fails; the report by fate through a structure with some cost for everything, since the cost of repair does not depend on them |
| C97 | the report on the integrations | programs as lists of interface calls; reading the text back (split at line ends, look for a heading, decimal) against histories of requests (C37) and calls since the last reset; calculations one after the other are one schedule of C36 (`run_later`) |
| C98 | what refused definitions leave behind | constructors statement by statement, keeping the state when they raise; induction on histories of calls with their outcomes, against the last call that returned |
| C99 | what descriptions tell | texts as lists of characters; numbers and functions are cut off at the first separator, so that equal texts have equal parts; depth of parentheses by a counter |
| C100 | library objects and names | search through the values of a dictionary in any order; what is entered where, from the last definitions (C98) |

## 3. Trusted base

1. Lean's kernel (4.33.0) and Mathlib as installed; the axioms `propext`, `Classical.choice`, `Quot.sound`
   (per-theorem list in section 5).  No own axioms, no `sorry`, no `native_decide`, no `bv_decide`.
   `decide +kernel` is used only to run concrete witness histories of `_fails` theorems and `example`s.
2. The transcription of the code into the `…Model.lean` files (cited line by line, simplifications named there).
3. The conventions of section 1 (doubles, threads, external code) and the assumptions below.

### Modelled

| model | code |
|-------|------|
| `CacheFnModel`, `CacheValModel`, `CacheRegModel` | `caching.h`, `caching.cpp` |
| `ReplaceableModel` | `replaceable.h` |
| `Dbl`, `LogNormalModel` | `lognormaldist.h/.cpp` |
| `FunctionsModel`, `LogNormalFnModel` | `functions.cpp` (`Evaluate` methods, `LogNormalFn`) |
| `FragilityModel` | `fragility.cpp`, `loss_functions.cpp` |
| `FatesModel` | `relationships.cpp` 66-150 (fate probabilities of an IM) |
| `StructureModel`, `CompListModel` | `structure.cpp` |
| `MaqModel`, `SettingsModel`, `StatsModel` | `maq.h`, `maq.cpp` |
| `GraphModel` | who references whom, callbacks and cache clearing in `functions.cpp`, `relationships.h/.cpp`, `comp_group.cpp`, `structure.cpp` |
| `GroupModel` | `pyslatcore.cpp` `ComponentsByEDP`, `ComponentsByFragility` |
| `ParForModel` | the `#pragma omp parallel for` loops of `relationships.cpp`, `structure.cpp` |
| `InterpModel` | `SlatInterpreter.py` (all handlers), parse trees of `slatParser.g4` (lexer and parser in `LexModel`, `GramModel`) |
| `RatesModel` | `relationships.cpp` 153-200, 269-304, 419-515 (rates, EDPs); `comp_group.cpp` 52-69, 265-644 (the calculations of a group) |
| `NestModel` | `caching.h` 144-282, 415-482 composed: calculations that call other caches (call graph in `NestSlat.Calls`) and form teams (`structure.cpp` 82-92, `comp_group.cpp` 265-280). Not modelled: what the calculations do between the calls; `ClearCache` during these executions; OpenMP's assignment of blocks to threads (any is allowed) |
| `RecModel` | `pyslat.py` 1410-1952: constructors and `generate_output` of all recorders, line by line, with the Python exceptions. The library's functions are parameters (related to the other models in the theorems). Not modelled: the text of a number (a cell holds the number), column widths, `sys.stdout` redirection |
| `RangesModel` | `pyslat.py` 70-94; `SlatInterpreter.py` 572-578, 625-645. Rounding is a parameter; logarithmic ranges are not rounded |
| `NamesModel` | `pyslat.py` constructors of `detfn`, `probfn`, `im`, `edp`, `fragfn_user`, `simplelossfn`, `bilevellossfn`, `compgroup`, `structure` (replacement and dictionaries), `SetCollapse`, `SetDemolition`, `AddCompGroup`, `RemoveCompGroup`, `setRebuildCost`, `setDemolitionCost`, over `GraphModel`. Not modelled: `CompoundEDP`, `fragfn_db`, `fragfn_mle`, when Python destroys an object (any time nothing refers to it) |
| `MakeModel` | `pyslatcore.cpp` 92-171, 533-640; `pyslat.py` 231-237, 377-414, 930-937, 1013-1062; `SlatInterpreter.py` 80-138, 265-293. A C++ exception or GSL error ends the process (no `%exception` in `pyslatcore.i`). Not modelled: numbers that are not finite, log-log data that are not positive, printed messages |
| `ImportModel` | `pyslat.py` 1955-2007. `numpy.loadtxt` gives the rows of numbers after two header lines (external); `numpy.mean`, `numpy.std` without rounding. Not modelled: values that are not finite in the file, paths |
| `TuneModel` | settings as a parameter of the calculations of `GraphModel`; `maq.cpp` 100-172 (setters assign only), `caching.cpp` 67-73. Validation of settings is in `SettingsModel` |
| `OutputModel` | `pyslat.py` 34-68, 1472-1473, 1485-1486, 1682-1694; `SlatInterpreter.py` 462-474, 684-688. `os.path` as on POSIX, files as a map from paths; what a recorder prints is a parameter (see `RecModel`). Not modelled: buffering, links, creation of the directory |
| `MaqFModel` | `maq.cpp` 176-762 again, over an arbitrary arithmetic, with `float` and `double` conversions where the source has them; `Rounding` is the exact operation followed by rounding. Not modelled: fused or extended-precision operations, signed zeros, overflow of `int i` (search limits above 2^30) |
| `AccelModel` | `functions.cpp` 177-278 with the accelerator shared by threads; `gsl_interp_bsearch`, `gsl_interp_accel_find`, `linear_eval` transcribed from the GSL (external). Not modelled: hit and miss counters, torn or reordered accesses |
| `ContextModel` | `context.h` 33-54; `context.cpp` 8-43, 88-189. Tasks are named by their thread numbers; the lock makes operations atomic; the texts are opaque. Not modelled: `DumpContext`, `GetText` running user code of a description |
| `LnFModel` | `lognormaldist.cpp` 26-38, 58-64, 144-189, 208-231; `structure.cpp` 98-104, 114-148; `relationships.h` 100-102, 120-126, with every operation rounded; `exp` and `log` external with a relative error. Not modelled: overflow and underflow (excluded by `Accurate`), fused or extended-precision operations |
| `DerivModel` | `functions.cpp` 109-138; `relationships.cpp` 123-151, 208-234; the calls in `comp_group.cpp`; `gsl_deriv_central`, `gsl_deriv_forward`, `gsl_deriv_backward` transcribed from the GSL (external), each operation rounded by a machine; `pow` external. Not modelled: the error estimate and status the routines also return (the code ignores them) |
| `CurveFModel` | `functions.cpp` 151-158, 166-169, 213-227, 236-278; `lognormaldist.cpp` 82-121; `fragility.cpp` 54-73, with every operation rounded; `gsl_interp_linear`, `gsl_interp_accel_find`, `gsl_cdf_lognormal_P/Q` transcribed from the GSL (external); `exp`, `log`, `pow`, `gsl_cdf_ugaussian_P/Q` external and assumed monotone (`Laws`). Not modelled: signed zeros, negative bases of `pow`, fused or extended-precision operations |
| `DiscModel` | `structure.cpp` 150-163 with every operation rounded; `exp` external; the mean annual cost is a parameter |
| `SinkModel` | `pyslatcore.cpp` 13-42; `pyslat.py` 21, 292-308; `SlatInterpreter.py` 707-713; the core of Boost.Log (registered sinks, default sink, opening of files at the first record) is external and transcribed. Not modelled: `%` patterns in file names, files that cannot be opened, buffering |
| `SafeModel` | `relationships.cpp` 38-515, `comp_group.cpp` 51-656, `structure.cpp` 23-231, `loss_functions.cpp` 18-137, `functions.cpp` 312-403 once more, reduced to whether and how a query returns; integration and differentiation are arbitrary adaptive routines |
| `LexModel` | `slatLexer.g4` 5-185 (all rules and modes); `SlatInterpreter.py` 736-739; ANTLR's way of running a lexer is external and transcribed from its documentation |
| `StrModel` | `SlatInterpreter.py` 23-24 |
| `GramModel` | `slatParser.g4` 5-144; `SlatInterpreter.py` 735-745; ANTLR is trusted to accept what the grammar derives. Not modelled: rounding of `float(text)`, rules that no command uses (`lossfn_dict`) |
| `PyModel` | `pyslat.py` 310-1403 (the queries and settings of all classes), `pyslatcore.i` 43-202, `pyslatcore.cpp` 98-101, 254-293, 313-372, 388-486, 566-608, 664-711, 734-742, 759-815, 867-875 (the wrappers), `pyslatcore.h` 115-254. The library is an arbitrary record of functions that may throw. SWIG's conversion of arguments and choice of overloads is external and transcribed (`convert`, `resolve`); OpenMP in the bulk methods is not modelled |
| `PyEnumModel` | `pyslat.py` 110-128, 472-478; `pyslatcore.i` 34-35, 51-54; `pyslatcore.cpp` 209-245 |
| `SessionModel` | `SlatInterpreter.py` 735-745 and, in composition, 435-446, 515-622, 684-688; `pyslat.py` 51-59, 1410-1475, 1505-1694; joins `LexModel`, `GramModel`, `InterpModel`, `RecModel`, `RangesModel`, `OutputModel`. The library is a parameter. Not modelled: which exception ends a script, links between paths |
| `SessionPlain` | a library for sessions: `pyslat.py` 348-1377 (making and looking up functions, intensity measures, demands, fragility and loss functions, component groups, structures and their costs), `SlatInterpreter.py` 79-102, 199-433; joins `MakeModel`, `LogNormalFnModel`, `FatesModel`, `StructureModel`. Other commands, second definitions of intensity measures and demands are outside; what is integrated is a parameter |
| `SessionRates` | the numerics of that library by `RatesModel`: `relationships.cpp` 123-202, 269-293, `comp_group.cpp` 282-537, 566-644, `structure.cpp` 37-40, 150-153, 187-231. What is remembered between analyses is added by `SessionMemoryModel`; the integrator and the differentiation routines are parameters |
| `SessionTextModel` | `__str__` of `pyslat.py` 421-425, 546-551, 685-689, 839-841, 917-918, 940-944, 1029-1030, 1066-1067, 1230-1239 and the attributes they read; `SlatInterpreter.py` 399-446. The texts of numbers, lists, dictionaries and SWIG objects are parameters. Not modelled: a fragility function from the database raising when it takes a name that exists (its `_func` is `None`) |
| `SessionMemoryModel` | what is remembered between the analyses of a session: `caching.h` 144-282, 415-489 (as values that are there or not), `relationships.h` 74-128, 152, `relationships.cpp` 246-250, `structure.h` 40-46, `structure.cpp` 44-50, 69, 150-153; which reports ask: `pyslat.py` 1556, 1710-1711, 1748, 1904. Left out: what component groups remember, threads |
| `TallyModel` | `maq.cpp` 43-90, `pyslatcore.cpp` 65-90, 914-924, `pyslat.py` 281-288; joins `SettingsModel` and `StatsModel`. The text of a double on a stream is a parameter |
| `DefineModel` | the constructors of `pyslat.py` (377-399, 469-483, 583-594, 717-733, 861-874, 913-915, 931-938, 975-988, 1013-1024, 1046-1062, 1107-1128, 1264-1269) with the statements at which they may raise, and `lookup`; the making of library objects is a parameter |
| `LookupModel` | `lookup` by library object (`pyslat.py` 737-744, 879-886, 1132-1139, `AreSame`), over dictionaries in any order |
| `DescribeModel` | `ToString` of functions, intensity measures and demands (`functions.cpp` 29-53, 61-66, `relationships.cpp` 106-115); the text of a number is a parameter |
| `DescribeGroupModel` | `operator<<` of groups, fragility functions, loss functions and distributions (`comp_group.cpp` 646-656, `fragility.cpp` 75-83, `loss_functions.cpp` 29-41, 64-73, `lognormaldist.cpp` 233-238) |

### Not modelled

* Floating-point rounding and overflow of finite values, except in `MaqFModel` (integration), `LnFModel` (sums and mixtures of costs), `DerivModel` (derivatives), `CurveFModel` (curves and probabilities) and `RangesModel`; signed zeros.
* The GSL (cdf, inverse cdf, splines, derivatives): parameters or documented behaviour (derivatives: transcribed for C78).  The spline
  accelerator shared between threads is in `AccelModel` (transcribed from GSL's header, not in /repo).
* The C++ memory model below sequential consistency.  `maq` statistics are updated with plain races for the two
  maxima; they get last-written-value semantics.
* boost.log, streaming operators, `Context::DumpContext`.
* Exceptions leaving an OpenMP region (the program is terminated); recursion of a cached function into the same
  cache argument; copying of cache objects; the `first_call` flag of `Init_Caching`.
* `EDP`/`CompGroup` numerical integrands: in the graph model all calculations are arbitrary functions of what
  they read; the tables `uses`, `ownReads`, `subReads` of what they read are transcribed and trusted.
* Reuse of freed addresses; the ownership cycle between a structure and its component entries (a leak).
* SWIG, ANTLR itself (the grammars of the lexer and the parser are modelled), Python's `eval`, file output.

### Assumptions worth knowing

* `waiting_lock` of `CachedValue` is treated as a lock any thread may release; where the OpenMP specification
  calls that undefined, C09 records it.
* The evaluation of a wrapped function is one step of its thread and terminates.
* Graph model: sequential clients; `Structure::replace` is left out (nothing registers with structures).
* `CompListModel` assumes that callback ids of the tables do not collide; the collision is the subject of C12/C38.
* MAQ: exact arithmetic, and `float(i)` of the search grid is exact.  At the left end the transformed integrand uses
  `f(∞)`, not a limit of `(1+x)²f(x)`.
* The specification of the graph (`GraphSpec`) shares the read tables `mask`, `uses`, `tree`, `getIM` with the model.

## 4. Findings (code and property disagree)

Each is proved as a `_fails` theorem from a concrete witness.

| theorem(s) | what goes wrong | code |
|---|---|---|
| `CacheFn.overlapping_clear_fails`, `racing_clear_fails` | clearing a function cache while calls run | `caching.h:287-289` |
| `CacheFn.throw_blocks_later_calls_fails` | after an exception every later call at that argument waits for ever | `caching.h:144-282` |
| `CacheVal.refill_after_clear_fails`, `stale_after_clear_fails` | a cleared cached value with concurrent callers: fault or stale answer | `caching.h:415-489` |
| `Replaceable.handle_identifies_fails`, `replace_keeps_own_clients_fails`, `replace_self_fails` | `replace` copies ids into the new object's table without renumbering; replacing by itself loses clients | `replaceable.h:106-114` |
| `LogNormalDist.negative_amount_fails`, `zero_spread_at_value_fails`, `mixture_negative_variance_fails` | NaN probabilities; `abs` of a negative variance | `lognormaldist.cpp` |
| `LogNormalFn.sigma_x_needs_mean_fails`, `zero_mean_sigma_x_fails` | the accessor lambdas call each other without end | `functions.cpp:312-403` |
| `Functions.nlh_negative_fails` | hyperbolic law at negative arguments | `functions.cpp:151-158` |
| `Fragility.construct_nan_fails`, `pHighest_sum_fails` | NaN onsets pass the order check; crossing curves | `fragility.cpp:19-73` |
| `Loss.two_level_overflow_fails` | signed overflow for negative counts | `loss_functions.cpp:104-115` |
| `StructCosts.total_cost_unordered_fails`, `empty_total_cost_fails`; `zero_rate_fails` | NaN total; null IM; 0/0 | `structure.cpp` |
| `CompList.emptied_structure_fails`, `replace_group_unchecked_fails` | the IM of an emptied structure; replaced groups are not checked | `structure.cpp:43-81` |
| `Maq.unbounded_limit_fails`, `infinite_values_fail`, `dropped_mass_fails`, `small_or_negative_fails` | counter wraps; NaN called success; mass dropped | `maq.cpp` |
| `Stats.maximum_race_fails` | lost update of a maximum | `maq.cpp` |
| `Graph.edp_stale_after_id_clash_fails`, `edp_stale_after_shared_replacement_fails` | stale `lambda` after callbacks were overwritten | `replaceable.h:106-114` |
| `Graph.collapse_rate_after_hazard_fails`, `demolition_rate_after_hazard_fails`, `demolition_rate_after_collapse_fails` | rates of an IM are not cleared when its hazard curve or collapse distribution changes | `relationships.cpp:51-57`, `relationships.h:74-86` |
| `Graph.annual_cost_after_{rebuild,demolition_cost,removal,fragility,demand}_fails` | `AnnualCost` not cleared | `structure.h:42-48`, `structure.cpp:72-81`, `comp_group.cpp:86-177` |
| `Graph.compound_second_fails`, `compound_destroyed_fails` | replacing the second demand function re-points the first | `relationships.cpp:406` |
| `Graph.structure_destroyed_fails` | callbacks of a destroyed structure stay registered | `structure.h:23` |
| `ParFor.value_loop_after_clear_fails` | one vector query mixes two annual costs | `structure.cpp:150-163` |
| `Interp.*_fails` | variables and scripts in `integration`, `loglog`, `lin`, `$x` in `probfn`, quoted dictionary keys, `--annual` without options | `SlatInterpreter.py` |
| `LogNormalDist.half_set_complement_fails` | a distribution without median never exceeds anything, but is not below anything either | `lognormaldist.cpp:82-121` |
| `Rates.compound_is_maximum_fails` | a compound EDP is not the maximum of its two demands | `relationships.h:237-238` |
| `Rates.failed_cost_is_zero_fails` | a failed integration is reported as zero cost | `comp_group.cpp:282-324` |
| `Rates.group_delay_distribution_fails` | the spread of a delay is too large for groups of several components | `comp_group.cpp:512-514` |
| `Rec.edpim_default_fails`, `edpim_probability_fails` | `edpim` without columns raises a `TypeError`; a probability column is left out of the lines but not of the headings | `pyslat.py:1565-1581` |
| `Rec.states_columns_fails`, `edprate_columns_fails`, `detfn_columns_fails` | chosen columns change headings only, or print a statistic under `lambda`, or raise | `pyslat.py:1541-1677` |
| `Rec.group_statistics_fails`, `deagg_fails`, `lossds_fails`, `integer_argument_fails` | columns and recorders of the language that cannot be recorded | `pyslat.py:1505-1677` |
| `Rec.unknown_object_fails` | a recorder of an undefined object prints `----` | `pyslat.py:1612-1619` |
| `Rec.costs_by_fragility_fails` | two unnamed fragility functions share a category; one is lost | `pyslat.py:1814-1816` |
| `Rec.cost_columns_fails` | `mean_ln_x` and `median_x` of deaggregated costs raise (names compared are `mean_ln`, `median`) | `pyslat.py:1795-1806, 1843-1854, 1884-1895` |
| `Rec.annual_cost_fails` | a probability column of the annual cost repeats its left neighbour | `pyslat.py:1751-1760` |
| `Rec.density_normalised_fails`, `density_heading_fails` | a density that is zero everywhere cannot be normalised; headings are cut | `pyslat.py:1922-1938` |
| `Rec.present_value_fails` | years that are not integers raise after the lines before them are printed | `pyslat.py:1899-1909` |
| `Ranges.colon_order_fails` | the reference manual says `start:end:step`; the code reads `start:step:end` | `slat-lang.org:412-418`, `SlatInterpreter.py:625-634` |
| `Ranges.descending_linear_fails`, `degenerate_ranges_fails` | downward `--linear` ranges are empty, ranges from a value to itself never end, ranges of one value raise or hold NaN | `pyslat.py:74-94` |
| `Ranges.last_year_fails` | `--npv 1:1:100`, "each of the next hundred years", stops at year 99 | `SlatInterpreter.py:575-578`, `parser/example2/example2.slat:1596-1599` |
| `Names.function_redefined_fails` | a function defined again is not used by the objects made with it | `pyslat.py:398-399`, `slat-lang.org:920-936` |
| `Names.third_definition_fails` | after a redefinition and a further client, the next redefinition does not reach the first client | `pyslat.py:590-594`, `replaceable.h` ids |
| `Names.structure_redefined_fails` | redefining a structure and then one of its groups runs a callback on the destroyed structure | `pyslat.py:1268-1269`, `structure.h:23` |
| `Names.add_raises_fails` | `AddCompGroup` raises although the group was added | `pyslat.py:1298-1306` |
| `Make.dist_unsupported_fails`, `Make.fragility_unsupported_fails` | an unsupported combination (e.g. `median_x` with `sd_x`) prints a message and yields NaN everywhere; fragility functions with decreasing medians are then accepted | `pyslatcore.cpp:546-548` |
| `Make.loss_zero_state_fails`, `Make.loss_zero_log_mean_fails` | a damage state without cost makes every expected loss of the function NaN, even at probability zero; a zero logarithmic mean is taken for "no cost" as well | `pyslat.py:1018-1022`, `lognormaldist.cpp:40-43` |
| `Make.bilevel_costs_are_medians_fails` | two-level costs are documented as medians and used as means | `pyslat.py:1044`, `loss_functions.cpp:114` |
| `Make.no_delay_fails` | a group without delay function: NaN with one damage state, the process ends with several | `pyslat.py:232-233`, `lognormaldist.cpp:172-174` |
| `Make.detfn_refused_fails` | lists of different lengths give a null function that is dereferenced; too short parameter lists are read beyond their end | `pyslatcore.cpp:114-117, 148-158` |
| `Make.hyperbolic_order_fails` | `hyperbolic v_asy, im_asy, alpha` as documented is read as `alpha, im_asy, v_asy` | `slat-lang.org:168-178`, `pyslatcore.cpp:155-158` |
| `Make.interpolated_command_fails` | `detfn … linear` and `detfn … loglog` always raise `TypeError` | `SlatInterpreter.py:99-100`, `pyslat.py:377` |
| `Import.import_collapsed_row_fails` | one row with fewer than two results that are not zero: the file is accepted and the dispersion is NaN from the preceding intensity on | `pyslat.py:1967-1973` |
| `Import.import_single_row_fails` | a file with a single row raises: `loadtxt` gives an array of one dimension, `d[0]` is not defined | `pyslat.py:1957, 1963-1964` |
| `Tune.settings_change_fails`, `Tune.retuned_ignored_fails` | changing the integration settings does not invalidate caches, contrary to the manual; `Clear_Caches` is not available from Python | `maq.cpp:139-172`, `slat-lang.org:887-889` |
| `Output.terminal_recorder_fails` | a recorder without a file raises `TypeError` (`os.path.dirname(None)`) and ends the analysis, although the manual offers output on the terminal | `pyslat.py:1684, 61-62`, `slat-lang.org:386` |
| `Output.first_output_lost_fails` | recorders for `a` and `a.csv` write the same file; the first output is lost | `pyslat.py:65-66` |
| `Output.output_file_stable_fails` | a name ending in a slash gets `.csv` appended each time | `pyslat.py:65-66` |
| `Accel.shared_interpolation_fails` | interpolated functions share one unprotected accelerator between threads; with the index read again, as GSL is written, a parallel query can return a value of the wrong interval, e.g. a negative rate | `functions.cpp:197, 224, 237, 273`, `relationships.cpp:66-74` |
| `Context.log_contexts_fails_sizes` | `threads` keeps the size of the first team: after the two sections of `CostDist_IM` ran in a team of two (the OpenMP run-time may, and GCC's does, use no more threads than sections), a thread numbered 2 or more that opens a context in a later `parallel for` indexes past the end of the vector | `context.cpp:32-37`, `comp_group.cpp:267` |
| `Context.log_contexts_fails_nested` | with a region of one thread around a region of two, both threads use the same stack: messages show the other thread's calculation, closing removes the other's text | `context.cpp:29-31` (active levels count regions, `omp_get_ancestor_thread_num` counts all) |
| `LnF.totalCost_fails_rounding` | `TotalCost` takes the square root of `E_sq_cost - E_cost * E_cost` without `abs`: for costs without spread (e.g. repair and rebuilding both exactly e, probability of collapse 7/16) the difference is negative by rounding and the total cost is NaN | `structure.cpp:145-146` (compare `lognormaldist.cpp:187`) |
| `LnF.spread_fails_small` | a mean of 1 and a standard deviation of 2^-30 become a cost without spread (1 + 2^-60 is rounded to 1) | `lognormaldist.cpp:31-38` |
| `Deriv.derivative_large_fails`, `Deriv.large_demand_costs_nothing_fails` | the step of 1E-8 is absolute: for arguments above 2^27 (1.3E8) `x + 1E-8 == x`, the derivative of every function is 0, so intensities or demands of that size (other units) contribute nothing to rates and costs | `functions.cpp:133`, `relationships.cpp:147`, `comp_group.cpp:305` |
| `Deriv.derivative_of_table` | at the ends of a table the derivative is half the slope of the outer segment, at its inner points the mean of two slopes | `functions.cpp:133-135` |
| `CurveF.interpolated_fails` | a falling linear table can be missed at its last abscissa: the value computed there, `y0 + (y1 - y0)`, is below `y1` (2^-14 instead of 2^-14 + 2^-60 for y0 = 1), while every greater argument gives `y1`: the exceedance rate rises | `functions.cpp:213-227` |
| `CurveF.abscissae_fails` | different abscissae can have the same logarithm after rounding; a log-log table with them does not increase and `gsl_spline_init` ends the process | `functions.cpp:243-247` |
| `CurveF.loglog_fails` | a log-log table with two equal ordinates is not constant: `exp(log y)` is not `y` between its points, but `y` is returned outside | `functions.cpp:265-278` |
| `CurveF.power_fails` | a power law with coefficient 0 returns NaN where `pow` overflows | `functions.cpp:166-169` |
| `CurveF.discounted_fails` | a very small positive discount rate makes every discounted cost 0 (cancellation in `1 - exp(-rate * years)`; `expm1` would avoid it); a rate of 0 gives NaN | `structure.cpp:150-153` |
| `Sink.stderr_fails` | after `LogToStdErr(False)`, `LogToStdErr(True)`, `LogToStdErr(False)` messages still appear; each further `LogToStdErr(True)` adds a copy: the new sink is not stored | `pyslatcore.cpp:32-35` |
| `Sink.silence_fails` | `LogToStdErr(False)` without a log file sends messages to the standard output (default sink of Boost.Log) | `pyslatcore.cpp:36-41` |
| `Sink.emptied_fails` | `SetLogFile` does not create or empty the file (as documented) until something is logged | `pyslatcore.cpp:22-28`, `pyslat.py:304` |
| `Safe.mismatch_fails` | a loss function with another number of distributions than there are damage states is accepted by `MakeCompGroup` and `AddCompGroup`; the first cost query ends the process | `comp_group.cpp:51-68`, `lognormaldist.cpp:172-174` |
| `Safe.print_fails` | a component group without delay (or cost) function, which all calculations accept, cannot be printed (null pointer) | `comp_group.cpp:646-656` |
| `Safe.empty_fails` | `TotalCost`, `DeaggregatedCost` and `pdf` of a structure without groups use a null pointer; `Cost` and `CostsByFate` check it | `structure.cpp:37-40, 120, 170` |
| `Safe.unsound_fails` | no query on an EDP given by median and plain standard deviation returns, though everything is accepted | `functions.cpp:312-362` |
| `Lex.point_number_fails` | a number without a digit before its point (`.5`, used in `parser/test_cases/Comments.slat`) is a name | `slatLexer.g4:152-167` |
| `Lex.loglog_line_fails`, `Lex.loglog_name_fails` | `loglog` is a keyword only after a blank, not at the start of a line; a name such as `loglog2` is cut in two | `slatLexer.g4:89` |
| `Lex.hyphen_path_fails`, `Lex.python_string_fails` | file names with a hyphen and Python strings with a parenthesis are cut | `slatLexer.g4:175, 178-185` |
| `Lex.literal_round_trip`, `Lex.backslash_end_fails` | quotes at the ends of a string are lost; `'a\\'` does not end at its second quote | `SlatInterpreter.py:24`, `slatLexer.g4:136-140` |
| `Gram.integer_fails` | values of recorders, the rate of `--npv` and adjustments of groups cannot be written as integers | `slatParser.g4:87,117,124-128` |
| `Gram.manual_fails` | forms of the manual that are rejected: `detfn powerlaw id`, `probfn` without comma, `mu_ln_x`, `comgrp`, recorders without id; so are `redbook.slat` and most of `parser/test_cases` | `slat-lang.org:139,185,199,211,235,317-321,390,415` |
| `Gram.words_fails`, `Gram.stray_fails` | keywords are not names, `.5` is not a number, `loglog` cannot start a line; unknown characters are left out and the rest is executed | `slatLexer.g4`, `slatParser.g4` |
| `Gram.one_mistake` | one piece that is no command, anywhere: nothing of the script is executed (documented nowhere, but stated in C85) | `SlatInterpreter.py:740-741` |
| `Py.probfn_fails`, `Rec.probfn_fails` | the class of probabilistic functions is not declared to SWIG: every query of a `probfn` and every recorder of one raises AttributeError | `pyslatcore.i:51`, `pyslat.py:502-542` |
| `Py.edp_list_fails` | `edp.MeanLn`, `Median` and `SD` raise for lists (the bulk methods are not called) | `pyslat.py:779-811` |
| `Py.group_cost_fails` | `compgroup.E_cost` always raises: the method is not declared to SWIG | `pyslat.py:1182-1183`, `pyslatcore.i:150-173` |
| `Py.deaggregated_fails` | `DeaggregatedCost` returns objects without the documented methods | `pyslat.py:1381-1382` |
| `Py.set_read_cost_fails` | a cost that was read cannot be set | `pyslat.py:1317-1332` |
| `Py.years_fails` | years must be integers below 2^31 | `pyslatcore.i:188` |
| `Py.plot_max_fails` | `edp.plot_max` raises AttributeError until it is set | `pyslat.py:721-728,752-753` |
| `Py.invalid_type_fails` | an integer that is no parameter type ends the process | `pyslatcore.cpp:217-240`, `functions.cpp:338-340` |
| `Session.unknown_delay_fails` | a component group with the name of a delay function that is not defined is made without an exception, and has no delay | `SlatInterpreter.py:345-368`, `pyslat.py:1103-1125`, `pyslatcore.cpp:718` |
| `Session.documented_rate_fails` | the document gives the rate of exceedance of a demand without the collapse and demolition of the structure; the program counts a lost structure as exceeding every demand | `slat-lang.org:617-626`, `relationships.cpp:276-287` |
| `Session.detfn_text_fails`, `Session.collapsed_text_fails` | `print detfn f` shows `Deterministic Function '{}', of type '{}', from parameters f.`: `format` applies to the second string only; an intensity measure with a probability of collapse shows this text of its function | `pyslat.py:421-425, 685-689` |
| `Session.written_out_fails` | `integration maq 0.1 $n` asks for the tolerance `n` and `0.1` evaluations | `SlatInterpreter.py` `exitIntegration_command` |
| `Session.remembered_fails` | a probability of collapse set after a report of rates leaves the old rate of demolition in the next report; with exact integrals it is too high by the whole rate of collapse | `relationships.h:74-86` |
| `Session.stale_cost_file`, `Session.remembered_cost_fails` | costs of rebuilding and demolition set after a report of the annual cost do not reach the next report; with exact integrals the costs reported are too low by the difference for every collapse to be expected | `structure.h:42-46`, `structure.cpp:150-153` |
| `Session.fate_shares_file_partial` | a report by fate has `nan` for demolition and collapse when their cost is not set, also for structures that cannot be demolished or collapse (the total cost is a number then) | `structure.cpp:176-185` |
| `Session.missing_price_normal_partial` | `recorder pdf … --normalise` of a structure that can collapse or be demolished and has no cost for it stops the script with a division by zero: `nan` is never greater than the largest density so far, which stays 0 | `pyslat.py:1925-1937` |
| `Tally.report_maximum_fails` | after integrations at the same time `Format_Statistics` can name a largest number of evaluations that is too small | `maq.cpp:604-606, 747-749` |
| `Define.refused_probfn_fails` | a probabilistic function of a wrong type raises after it has been entered: its name stands for it from then on | `pyslat.py:479-483` |
| `Define.database_name_fails` | the name of a fragility function from the database cannot be defined again (`None` has no `replace`) | `pyslat.py:862-863, 870-873` |
| `Define.database_over_user_fails` | a fragility function from the database under the name of another passes `None` to the library, which reads from a null pointer | `pyslat.py:872-873`, `pyslatcore.cpp:586-589` |
| `Define.unnamed_edp_fails` | demands without a name are entered under `None` | `pyslat.py:729-733` |
| `Define.database_object_fails`, `Define.database_first_fails` | looking for a fragility function by its library object raises when one from the database is passed on the way | `pyslat.py:883-885, 915` |
| `Describe.demand_unclosed_fails` | the description of a demand opens one parenthesis more than it closes | `relationships.cpp:111-115` |
| `Describe.description_silent_fails` | descriptions leave out the kinds of centre and spread, tables and a second demand function | `functions.cpp:45-66`, `relationships.cpp:111-115` |
| `Describe.group_description_fails` | describing a group without a function of cost or delay dereferences a null pointer | `comp_group.cpp:652-653` |
| `Describe.group_silent_fails` | bi-level loss functions are described as `LossFn:` without parameters, because `BiLevelLossFn` does not override `to_string` | `loss_functions.h:84-101` |

Observed while reading, not formalised: `CompGroup`'s `operator<<` dereferences a null loss function
(`comp_group.cpp:652-653`); `Use_Default_Integration_Search_Limit` and `Use_Default_Method` are declared but
never defined (`maq.h`); a recorder without a file always fails in `full_output_path(None)`
(`pyslat.py:61-68, 1682-1694`); `--npv a:i:b` excludes the last year while `at a:i:b` includes it; the token `LOGLOG` begins with a space
(`slatLexer.g4`).

## 5. Axioms and status

From `#print axioms` on every theorem named in the manifest: P = `propext`, C = `Classical.choice`, Q = `Quot.sound`,
- = none.  Names are in namespace `Slat`.  The notes say what a partial theorem leaves out.

| id | status | theorems (axioms) | note |
|---|---|---|---|
| C01 | proved | `CacheFn.evaluated_at_most_once` (P C Q) | All thread counts, functions (also throwing) and schedules; clearings at any safe moment. |
| C02 | proved | `CacheFn.returns_function_value` (P C Q) | Answers are matched to the pending call of the thread. |
| C03 | proved | `CacheFn.never_faults` (P C Q) |  |
| C04 | proved | `CacheFn.calls_complete` (P C Q) | Step bound 11 per call; stuck states have no pending call except at throwing arguments (C06). Evaluation of the wrapped function is one step (assumed to terminate and not to re-enter the same cache). |
| C05 | partial | `CacheFn.overlapping_clear_partial` (P C Q), `CacheFn.overlapping_clear_fails` (P Q), `CacheFn.racing_clear_fails` (P Q) | Fails in general: witness schedules. Holds when no critical section is open and no finished computation waits to be picked up. |
| C06 | partial | `CacheFn.throw_isolated_partial` (P C Q), `CacheFn.throw_blocks_later_calls_fails` (P C Q) | Fails for every throwing argument; other arguments are unaffected. |
| C07 | proved | `CacheFn.bypass_evaluates_afresh` (P C Q), `CacheFn.bypass_never_waits` (P C Q) |  |
| C08 | proved | `CacheVal.value_computed_once` (P C Q), `CacheVal.value_shared` (P C Q), `CacheVal.value_calls_complete` (P C Q) | Function evaluation is one step; waiting_lock modelled as transferable between threads. |
| C09 | partial | `CacheVal.refill_after_clear_partial` (P C Q), `CacheVal.refill_after_clear_fails` (P C Q), `CacheVal.stale_after_clear_fails` (P Q) | Fails with concurrent callers after a clear (witness schedules); holds for one caller at a time apart from the extra unlock. |
| C10 | proved | `CacheReg.clear_caches_exact` (P C Q), `CacheReg.clear_caches_total` (P C Q) | Registry operations are atomic (registry lock); any iteration order. |
| C11 | proved | `Replaceable.notify_exact` (P Q) |  |
| C12 | partial | `Replaceable.handles_distinct` (P C Q), `Replaceable.handle_identifies_partial` (P Q), `Replaceable.handle_identifies_fails` (P) | Fails on objects that received clients through replace. |
| C13 | partial | `Replaceable.replace_hands_over_partial` (P Q), `Replaceable.replace_chain_keeps_clients` (P), `Replaceable.replace_self_fails` (-), `Replaceable.replace_keeps_own_clients_fails` (P) | Fails for self replacement and for replacements that already have clients. |
| C14 | proved | `LogNormalDist.mean_sd_roundtrip` (P C Q), `LogNormalDist.mean_sdln_roundtrip` (P C Q), `LogNormalDist.zero_mean_sdln` (P C Q), `LogNormalDist.median_sdln_roundtrip` (P C Q), `LogNormalDist.rebuild` (P C Q) | Exact real arithmetic (no rounding). |
| C15 | partial | `LogNormalDist.p_at_most_is_cdf` (P C Q), `LogNormalDist.exceedance_is_probability` (P C Q), `LogNormalDist.unset_answers_nan` (P C Q), `LogNormalDist.zero_mean_never_exceeds` (P C Q), `LogNormalDist.negative_amount_fails` (P C Q), `LogNormalDist.zero_spread_at_value_fails` (P C Q), `LogNormalDist.half_set_complement_fails` (P C Q) | Holds for non-negative amounts and positive spread; NaN for negative amounts and at the value of a distribution without spread. |
| C16 | proved | `LogNormalDist.add_adds_moments` (P C Q), `LogNormalDist.add_order_irrelevant` (P C Q) |  |
| C17 | proved | `LogNormalDist.mixture_of_probabilities` (P C Q), `LogNormalDist.mixture_moments` (P C Q), `LogNormalDist.mixture_rejects_iff` (P C Q), `LogNormalDist.mixture_negative_variance_fails` (P C Q) | Outside the claim: a negative weighted variance is silently reported as its absolute value. |
| C18 | proved | `LogNormalDist.scaling` (P C Q), `LogNormalDist.scaling_composes` (P C Q) |  |
| C19 | partial | `LogNormalFn.reports_supplied_partial` (P C Q), `LogNormalFn.usable_terminates` (P C Q), `LogNormalFn.lambdas_agree` (P C Q), `LogNormalFn.construct_accepts_iff` (P), `LogNormalFn.sigma_x_needs_mean_fails` (P C Q), `LogNormalFn.zero_mean_sigma_x_fails` (P C Q) | Fails for mean-of-log or median with plain standard deviation (never returns) and for zero mean with plain standard deviation (unset result). |
| C20 | proved | `Functions.nlh_is_rate_curve` (P C Q), `Functions.nlh_negative_fails` (P C Q) |  |
| C21 | proved | `Functions.linear_constructs_iff` (P C Q), `Functions.linear_faithful` (P C Q) | gsl_interp_linear modelled as documented. |
| C22 | proved | `Fragility.construct_iff_increasing` (P C Q), `Fragility.construct_nan_fails` (P C Q) | Onsets with NaN location defeat the check (construct_nan_fails). |
| C23 | partial | `Fragility.pHighest_are_probabilities` (P C Q), `Fragility.pHighest_sum_partial` (P C Q), `Fragility.pHighest_sum_common_dispersion` (P C Q), `Fragility.pHighest_sum_fails` (P C Q) | The sum bound fails when curves cross. |
| C24 | proved | `Loss.two_level_interpolates` (P C Q), `Loss.two_level_monotone` (P C Q), `Loss.two_level_overflow_fails` (P C Q) | For non-negative lower counts; negative ones can overflow int. |
| C25 | proved | `Loss.simple_loss` (P C Q), `Loss.simple_loss_rejects` (P C Q), `Loss.two_level_loss` (P C Q), `Loss.two_level_loss_rejects` (P C Q), `Loss.construct_iff` (P) |  |
| C26 | proved | `Fates.fates_partition` (P C Q), `Fates.fates_are_probabilities_iff` (P C Q), `Fates.demolition_nonneg_iff` (P C Q), `Fates.settings_independent` (P C Q) | Log-normal collapse/demolition distributions with positive spread or unset; intensities >= 0. pDemolition is non-negative everywhere iff equal spreads and lower demolition median. |
| C27 | partial | `StructCosts.total_cost_is_mixture` (P C Q), `StructCosts.costs_by_fate_sum` (P C Q), `StructCosts.total_cost_unordered_fails` (P C Q), `StructCosts.empty_total_cost_fails` (P C Q) | Needs demolition at least as likely as collapse; otherwise the total may be NaN (total_cost_unordered_fails). A structure without components dereferences a null IM (empty_total_cost_fails). |
| C28 | partial | `discounted_is_present_value` (P C Q), `discounted_grows` (P C Q), `zero_rate_fails` (P C Q) | Exact real arithmetic; rate 0 gives NaN (zero_rate_fails). |
| C29 | proved | `CompList.components_refine_list` (P Q) |  |
| C30 | partial | `Maq.maq_terminates` (P C Q), `Maq.unbounded_limit_fails` (P C Q) | For limits with 2*search limit + 5 and evaluation limit below 2^32-1, in exact arithmetic. With the evaluation limit 2^32-1 the counter wraps and a constant integrand never returns (unbounded_limit_fails). |
| C31 | proved | `Maq.success_is_composite` (P C Q) | Integrands with finite values, finite tolerance; exact arithmetic. |
| C32 | proved | `Maq.nonneg_integral` (P C Q) |  |
| C33 | proved | `Maq.exact_for_quintics` (P C Q), `Maq.exact_for_cubics` (P C Q), `Maq.inverse_cube` (P C Q) |  |
| C34 | partial | `Maq.nan_iff_unsuccessful` (P C Q), `Maq.nan_never_hidden` (P C Q), `Maq.infinite_values_fail` (P C Q) | A successful result is a number when the integrand is finite; with infinities of both signs a NaN is reported as success (infinite_values_fail). |
| C35 | partial | `Maq.whole_half_line_partial` (P C Q), `Maq.dropped_mass_fails` (P C Q), `Maq.small_or_negative_fails` (P C Q) | Holds when the integrand exceeds epsilon at 0 or 1; otherwise mass is dropped silently (dropped_mass_fails, small_or_negative_fails). |
| C36 | partial | `Stats.counters_are_exact` (P C Q), `Stats.outcomes_add_up` (P C Q), `Stats.statistics_of_integrations` (P C Q), `Stats.maxima_are_attained` (P Q), `Stats.maxima_exact_partial` (P C Q), `Stats.maximum_race_fails` (P) | Counters and totals are exact under every interleaving; the maxima are exact only when calls do not overlap (maximum_race_fails). |
| C37 | proved | `Settings.settings_are_last_requests` (P C Q), `Settings.settings_valid` (P C Q), `Settings.reset_restores` (P C Q), `Settings.tolerance_accepted_iff` (P C Q), `Settings.reachable_settings_terminate` (P C Q) | An infinite tolerance is accepted. |
| C38 | partial | `Graph.edp_never_stale_partial` (P C Q), `Graph.edp_stale_after_id_clash_fails` (P C Q), `Graph.edp_stale_after_shared_replacement_fails` (P C Q) | Proved for every history in which replacements have no clients of their own, no client registers after ids were carried over, and no second demand function is replaced; counterexamples for the first two clauses. |
| C39 | partial | `Graph.group_never_stale_partial` (P C Q) | Same discipline as C38; all nine caches, arbitrary calculations. |
| C40 | partial | `Graph.collapse_rate_never_stale_partial` (P C Q), `Graph.demolition_rate_never_stale_partial` (P C Q), `Graph.collapse_rate_after_set_partial` (P C Q), `Graph.demolition_rate_after_set_partial` (P C Q), `Graph.unread_right_partial` (P C Q), `Graph.collapse_rate_after_hazard_fails` (P C Q), `Graph.demolition_rate_after_hazard_fails` (P C Q), `Graph.demolition_rate_after_collapse_fails` (P C Q) | Never stale while no hazard curve is replaced (and collapse is set before the demolition rate is read); fails otherwise. |
| C41 | partial | `Graph.annual_cost_never_stale_partial` (P C Q), `Graph.annual_cost_after_change_partial` (P C Q), `Graph.annual_cost_after_add_partial` (P C Q), `Graph.unread_right_partial` (P C Q), `Graph.annual_cost_after_rebuild_fails` (P C Q), `Graph.annual_cost_after_demolition_cost_fails` (P C Q), `Graph.annual_cost_after_removal_fails` (P C Q), `Graph.annual_cost_after_fragility_fails` (P C Q), `Graph.annual_cost_after_demand_fails` (P C Q) | Never stale while every relevant operation is one the structure is told of; fails for the others. |
| C42 | partial | `Graph.members_follow_partial` (P C Q), `Graph.compound_second_fails` (P C Q) | All members follow replacements under the discipline of C38; the second demand function of a compound EDP does not. |
| C43 | partial | `Interp.command_means_partial` (P C Q), `Interp.script_means_partial` (P C Q), `Interp.script_errors_from_python_partial` (P C Q), `Interp.variables_last_set_partial` (P C Q), `Interp.integration_variable_fails` (P Q), `Interp.detfn_loglog_fails` (P Q), `Interp.detfn_linear_fails` (P Q), `Interp.probfn_variable_fails` (P Q), `Interp.quoted_key_fails` (P Q), `Interp.dictionary_keys_fails` (P Q), `Interp.annual_without_mu_fails` (P Q), `Interp.annual_without_sd_fails` (P C Q) | Proved for every command outside the listed defective forms, each of which has a theorem showing how it goes wrong. eval is a parameter; lexer and parser are C83-C85, the composition with the API calls C87 and C88. |
| C44 | proved | `Grouping.groups_partition` (P C Q), `Grouping.group_is_class` (P C Q), `Grouping.groups_by_key` (P C Q), `Grouping.same_group_iff_same_key` (P C Q) | Pointer order is an arbitrary linear order. |
| C45 | partial | `ParFor.pure_loop_elementwise` (P C Q), `ParFor.cached_loop_elementwise` (P C Q), `ParFor.value_loop_elementwise` (P C Q), `ParFor.fate_vectors_elementwise` (P C Q), `ParFor.discounted_vector_elementwise` (P C Q), `ParFor.cached_loop_evaluates_once` (P C Q), `ParFor.value_loop_after_clear_fails` (P C Q) | All schedules, thread counts and iteration assignments, composed with the statement-level models of both caches. E_cost(vector) is proved for an annual-cost cache that was never cleared; after a clearing it can mix old and new values (value_loop_after_clear_fails). |
| C46 | proved | `LogNormalDist.moments_are_true_moments` (P C Q) |  |
| C47 | proved | `LogNormalDist.x_at_p_inverts` (P C Q) | gsl_cdf_ugaussian_Pinv is an inverse of the normal distribution function on (0,1) (existence proved). |
| C48 | proved | `Functions.power_law` (P C Q) |  |
| C49 | proved | `Functions.logLog_faithful` (P C Q) | Positive data only. |
| C50 | proved | `StructCosts.cost_with_collapse` (P C Q) |  |
| C51 | proved | `annual_cost_reports` (P C Q), `annual_cost_nan` (P C Q), `annual_cost_integrates_pdf` (P C Q), `pdf_nonneg` (P C Q), `annual_cost_nan_without_spread` (P C Q) | The integrator is an arbitrary function here; the model of MAQ is separate. |
| C52 | partial | `CompList.im_follows_partial` (P Q), `CompList.emptied_structure_fails` (P Q), `CompList.replace_group_unchecked_fails` (P Q) | Holds for histories that never empty the structure and replace groups by groups on the same IM. |
| C53 | proved | `Maq.error_bound` (P C Q), `Maq.half_line_error` (P C Q) |  |
| C54 | partial | `Graph.no_dangling_partial` (P C Q), `Graph.registered_iff_partial` (P C Q), `Graph.structure_destroyed_fails` (P C Q), `Graph.compound_destroyed_fails` (P C Q) | Holds for careful histories without destroyed structures; fails for destroyed structures and for compound EDPs whose second demand function was replaced. |
| C55 | proved | `Rates.edp_rate_is_rate` (P C Q), `Rates.demand_rate_curve` (P C Q), `Rates.edp_rate_curve` (P C Q), `Rates.collapse_and_demolition_rates` (P C Q), `Rates.failed_rate_is_nan` (P C Q), `Rates.actual_integrates` (P C Q) | Relative to an integrator with a stated error; actual_integrates shows that the modelled MAQ is one for integrands smooth apart from the origin. |
| C56 | partial | `Rates.compound_is_demand` (P C Q), `Rates.compound_has_larger_mean` (P C Q), `Rates.compound_is_maximum_partial` (P C Q), `Rates.compound_is_maximum_fails` (P C Q) | The exceedance probability is the larger of the two for equal spreads; counterexample otherwise. |
| C57 | partial | `Rates.group_expected_cost` (P C Q), `Rates.group_cost_distribution` (P C Q), `Rates.group_annual_cost` (P C Q), `Rates.group_annual_cost_error` (P C Q), `Rates.empty_group_costs_nothing` (P C Q), `Rates.fallbacks_differentiate` (P C Q), `Rates.failed_cost_is_zero_fails` (P C Q) | All clauses proved for successful integrations with errors as given; a failed integration is reported as zero cost (failed_cost_is_zero_fails). Cost functions are those that do not throw. |
| C58 | proved | `Nest.slat_queries` (P C Q), `Nest.nested_answers` (P C Q), `Nest.nested_never_bad` (P C Q), `Nest.nested_complete` (P C Q), `Nest.nested_terminates` (P C Q), `Nest.nested_once` (P C Q) | Statement-level models of both caches, call stacks and parallel regions. From construction up to the first clearing; which caches each calculation calls is read off the source (Calls). |
| C59 | proved | `Maq.wrong_value_at_origin` (P C Q), `Maq.inverse_cube_origin` (P C Q) |  |
| C60 | proved | `Rates.damage_state_probability` (P C Q), `Rates.damage_state_rates` (P C Q), `Rates.damage_state_rate_error` (P C Q) | Relative to a differentiation routine without error and an integrator with a stated error. |
| C61 | partial | `Rates.group_expected_delay` (P C Q), `Rates.group_delay_spread` (P C Q), `Rates.group_delay_distribution_partial` (P C Q), `Rates.group_delay_distribution_fails` (P C Q) | The mean is right for every count, the spread for a single component only. |
| C62 | partial | `Rec.prints_table_partial` (P C Q), `Rec.probfn_fails` (P C Q), `Rec.edpim_default_fails` (P C Q), `Rec.edpim_probability_fails` (P C Q), `Rec.states_columns_fails` (P C Q), `Rec.edprate_columns_fails` (P C Q), `Rec.detfn_columns_fails` (P C Q), `Rec.group_statistics_fails` (P C Q), `Rec.deagg_fails` (P C Q), `Rec.lossds_fails` (P C Q), `Rec.integer_argument_fails` (P C Q) | Proved for all forms of the command in Spec.Working with arguments of type float; the other forms fail as proved. The text of a number is not modelled. |
| C63 | partial | `Rec.unknown_object_partial` (P C Q), `Rec.unknown_object_fails` (P C Q) | Proved for columns that are names of statistics. |
| C64 | partial | `Rec.costs_by_edp_partial` (P C Q), `Rec.costs_by_fragility_partial` (P C Q), `Rec.costs_by_fragility_fails` (P C Q), `Rec.costs_by_fate_partial` (P C Q), `Rec.cost_columns_fails` (P C Q) | Proved for demands and fragility functions with names of their own and the columns mean_x, sd_ln_x, sd_x. |
| C65 | partial | `Rec.annual_cost_partial` (P C Q), `Rec.annual_cost_fails` (P C Q), `Rec.present_value` (P C Q), `Rec.present_value_fails` (P C Q), `Rec.damage_state_rates` (P C Q), `Rec.collapse_rates` (P C Q), `Rec.density` (P C Q), `Rec.density_normalised_partial` (P C Q), `Rec.density_normalised_fails` (P C Q), `Rec.density_heading_fails` (P C Q) | Proved for columns that are names of statistics and, for normalised densities, a positive value somewhere. |
| C66 | proved | `Rates.cost_rate_is_rate` (P C Q), `Rates.cost_rate_curve` (P C Q), `Rates.cost_rates_and_annual_cost` (P C Q) | Relative to a differentiation routine without error, exact integrals of the cost at an intensity and an integrator over intensities with a stated error; the cost has positive variance (costs without spread are not covered). |
| C67 | partial | `Rates.cost_at_demand` (P C Q), `Rates.cost_from_states_partial` (P C Q), `Rates.annual_cost_from_rates_partial` (P C Q), `Rates.cost_from_states_error_partial` (P C Q), `Rates.annual_cost_from_rates_error_partial` (P C Q), `Rates.cost_from_states_fails` (P C Q) | Proved for damage states of a common dispersion, with exact differentiation, and with exact integration or integration with a stated error; counterexample for different dispersions. |
| C68 | partial | `Ranges.colon_range_partial` (P C Q), `Ranges.linear_range_partial` (P C Q), `Ranges.log_range` (P C Q), `Ranges.years_partial` (P C Q), `Ranges.colon_order_fails` (P C Q), `Ranges.descending_linear_fails` (P C Q), `Ranges.degenerate_ranges_fails` (P C Q), `Ranges.last_year_fails` (P Q) | Proved for upward ranges of at least two values and, with colons, an end a whole number of steps away; logarithmic ranges without rounding. The other cases fail as proved. |
| C69 | partial | `Names.late_binding_partial` (P C Q), `Names.results_of_names_partial` (P C Q), `Names.only_last_definitions_partial` (P C Q), `Names.structure_groups_partial` (P C Q), `Names.names_no_dangling_partial` (P C Q), `Names.definition_refused_partial` (P C Q), `Names.function_redefined_fails` (P C Q), `Names.third_definition_fails` (P C Q), `Names.structure_redefined_fails` (P C Q), `Names.add_raises_fails` (P C Q) | Proved for scripts that do not redefine functions or structures and that do not define further objects with a redefined name; each restriction is needed, as the counterexamples show. |
| C70 | partial | `Make.dist_is_described_partial` (P C Q), `Make.dist_unsupported_fails` (P C Q), `Make.fragility_is_described_partial` (P C Q), `Make.fragility_unsupported_fails` (P C Q), `Make.fragility_missing_option` (P C Q), `Make.loss_is_described_partial` (P C Q), `Make.loss_zero_state_fails` (P C Q), `Make.loss_zero_log_mean_fails` (P C Q), `Make.bilevel_costs_are_medians_fails` (P C Q), `Make.no_delay_fails` (P C Q), `Make.delay_is_described_partial` (P C Q), `Make.detfn_answers_iff` (P C Q), `Make.detfn_is_described` (P C Q), `Make.power_law_command` (P C Q), `Make.detfn_refused_fails` (P C Q), `Make.hyperbolic_order_fails` (P C Q), `Make.interpolated_command_fails` (P C Q) | Proved for the documented combinations of parameters, positive spreads and (except logarithmic means) positive locations; log-log data positive. The other cases fail as proved. |
| C71 | partial | `Import.import_fits_rows_partial` (P C Q), `Import.import_demand_partial` (P C Q), `Import.import_results_unordered` (P C Q), `Import.import_units` (P C Q), `Import.import_accepts_iff` (P C Q), `Import.import_hazard` (P C Q), `Import.import_collapsed_row_fails` (P C Q), `Import.import_single_row_fails` (P C Q) | Proved for files of at least two rows with at least two results per row that are not zero; the other files fail as proved. Hazard curves: positive data. |
| C72 | partial | `Tune.retuned_partial` (P C Q), `Tune.settings_first_partial` (P C Q), `Tune.retuned_ignored_fails` (P C Q), `Tune.settings_change_fails` (P C Q) | Proved for EDPs and component groups when no result is asked for before the last change of settings, or (C++ only) Clear_Caches follows each change; otherwise results calculated before keep the old settings. |
| C73 | partial | `Output.output_file` (P C Q), `Output.output_directory` (P C Q), `Output.output_file_stable` (P C Q), `Output.output_file_stable_fails` (P C Q), `Output.same_file_iff` (P C Q), `Output.analyze_finishes` (P C Q), `Output.other_files_untouched` (P C Q), `Output.appended` (P C Q), `Output.overwritten` (P C Q), `Output.own_files` (P C Q), `Output.terminal_recorder_fails` (P C Q), `Output.raising_recorder` (P C Q), `Output.first_output_lost_fails` (P C Q), `Output.recorders_of_script` (P C Q) | Proved for recorders with a file; without one, recorder.run raises (terminal_recorder_fails). os.path as on POSIX and opening of files are parameters; different paths of one file (links, "./a" and "a") are different here. |
| C74 | proved | `MaqF.float_terminates` (P C Q), `MaqF.float_domain` (P C Q), `MaqF.float_nonneg` (P C Q), `MaqF.float_accuracy` (P C Q), `MaqF.float_exact` (P C Q) | Laws of rounding (structure Rounding: monotone, idempotent, exact on whole numbers up to 2^53 resp. 2^24, on doubling in the unit interval and on signs) are assumptions about the machine, met by truncation to 53 and 24 bits (truncation). float_accuracy assumes no overflow or underflow. int i overflows for search limits above 2^30: not covered. |
| C75 | partial | `Accel.shared_interpolation_partial` (P C Q), `Accel.shared_interpolation_safe` (P C Q), `Accel.undisturbed_evaluation` (P C Q), `Accel.shared_interpolation_fails` (P C Q) | Element-wise correctness for builds that keep the index in a register, or one thread; in bounds and self-healing for all builds. With the accelerator read again as written in GSL, two threads can exchange intervals (a negative hazard rate). |
| C76 | partial | `Context.log_contexts_partial` (P C Q), `Context.log_contexts_progress` (P C Q), `Context.log_contexts_scoped` (P C Q), `Context.log_contexts_fails_sizes` (P Q), `Context.log_contexts_fails_nested` (P Q) | Proved when team sizes depend only on the nesting level and regions of one thread enclose none of several. A smaller team followed by a larger one (the two sections of CostDist_IM, then a parallel for) indexes past the end of threads; a region of one thread around one of two makes both threads share a stack. Teams and thread numbers as defined by OpenMP are external. |
| C77 | partial | `LnF.sum_accurate` (P C Q), `LnF.mixture_accurate` (P C Q), `LnF.cost_accurate` (P C Q), `LnF.totalCost_accurate_partial` (P C Q), `LnF.fates_rounded` (P C Q), `LnF.sum_accurate_double` (P C Q), `LnF.cost_accurate_double` (P C Q), `LnF.totalCost_fails_rounding` (P C Q), `LnF.spread_fails_small` (P C Q) | Sums, mixtures and cost with collapse without reservation, for machines without overflow and underflow (assumption on the machine, met by IEEE binary64 with unbounded exponents, for which the witness is computed). TotalCost takes the square root of a difference without abs: proved when the mean square exceeds the squared mean by a factor a little above one; for costs without spread rounding can make it NaN. |
| C78 | partial | `Deriv.derivative_close` (P C Q), `Deriv.derivative_of_quartic` (P C Q), `Deriv.derivative_at_kink` (P C Q), `Deriv.derivative_of_table` (P C Q), `Deriv.derivative_of_power_law` (P C Q), `Deriv.derivative_near_zero` (P C Q), `Deriv.derivative_at_right_end` (P C Q), `Deriv.edp_derivative_close` (P C Q), `Deriv.derivative_machine` (P C Q), `Deriv.demand_rate_error` (P C Q), `Deriv.expected_cost_error` (P C Q), `Deriv.derivative_large_fails` (P C Q), `Deriv.large_demand_costs_nothing_fails` (P C Q) | The GSL routines are external and transcribed from their source. The fallbacks are bounded without rounding only; with rounding the central difference, for arguments up to 2E7. Partial because above 2^27 (about 1.3E8) the step of 1E-8 does not change the argument and every derivative is 0. |
| C79 | partial | `CurveF.hazard_rounded` (P C Q), `CurveF.hazard_accurate` (P C Q), `CurveF.power_rounded` (P C Q), `CurveF.power_fails` (P C Q), `CurveF.interpolated_rounded` (P C Q), `CurveF.fine_rounded` (P C Q), `CurveF.interpolated_accurate` (P C Q), `CurveF.interpolated_fails` (P C Q), `CurveF.loglog_rounded` (P C Q), `CurveF.abscissae_fails` (P C Q), `CurveF.loglog_fails` (P C Q), `CurveF.lognormal_rounded` (P C Q), `CurveF.lognormal_accurate` (P C Q), `CurveF.damage_rounded` (P C Q) | Library functions are assumed monotone (Laws); the error of the hazard curve is bounded without underflow. Partial because the code does not keep all of it: a linear table whose ordinates fall by more than a factor of two may be missed at its last point, so that the curve rises behind it; a log-log curve does not meet its points; close abscissae have the same logarithm, which the GSL rejects by ending the process; the coefficient 0 of a power law gives NaN where the power overflows. |
| C80 | partial | `CurveF.discounted_rounded` (P C Q), `CurveF.discountedAll_rounded` (P C Q), `CurveF.discounted_accurate` (P C Q), `CurveF.discounted_fails` (P C Q) | The error is bounded without overflow and underflow. Partial because small rates are not handled: with a rate of 2^-60 the cost over up to 32 years is 0 whatever the annual cost, so that a larger rate gives a larger cost; a rate of 0 gives NaN instead of the undiscounted sum. |
| C81 | partial | `Sink.stderr_copies` (P C Q), `Sink.stderr_partial` (P C Q), `Sink.stderr_fails` (P C Q), `Sink.stdout_exact` (P C Q), `Sink.never_lost` (P C Q), `Sink.silence_fails` (P C Q), `Sink.file_contents` (P C Q), `Sink.files_kept` (P C Q), `Sink.emptied_fails` (P C Q), `Sink.command_quiet` (P C Q) | The core of Boost.Log is external; what is assumed of it is stated at the head of SinkModel. Partial because standard error does not follow the flag once it has been switched on again: LogToStdErr(true) does not keep the sink it registers, so that it cannot be removed and every further call adds another copy of each message. Without a log file, switching off sends messages to the standard output. A log file is emptied by the first message, not by SetLogFile as documented. |
| C82 | proved | `Safe.loss_returns_iff` (P C Q), `Safe.im_returns` (P C Q), `Safe.edp_returns_iff` (P C Q), `Safe.group_returns_iff` (P C Q), `Safe.print_returns_iff` (P C Q), `Safe.print_fails` (P C Q), `Safe.building_returns_iff` (P C Q), `Safe.empty_fails` (P C Q), `Safe.session_returns_iff` (P C Q), `Safe.mismatch_fails` (P C Q), `Safe.unsound_fails` (P C Q), `Safe.wrong_im_fails` (P C Q) | The statement is exact, so it includes what the code does not check: a cost function with the wrong number of distributions and a probabilistic function from which nothing can be computed are accepted when the model is built, and end the process at the first question; a structure without groups ends the process when asked for its total cost; a group without delay function cannot be printed. Integration and differentiation are arbitrary adaptive routines; GSL calls are assumed to return. |
| C83 | proved | `Lex.lex_lossless` (P), `Lex.lex_obeys` (P C Q), `Lex.lexes_unique` (P C Q), `Lex.never_crashes` (P C Q), `Lex.written_read` (P C Q), `Lex.layout_free` (P C Q), `Lex.token_read` (P C Q), `Lex.python_text` (P C Q), `Lex.parser_kinds` (P C Q), `Lex.point_number_fails` (P C Q), `Lex.loglog_line_fails` (P C Q), `Lex.loglog_name_fails` (P C Q), `Lex.stray_dropped` (P C Q), `Lex.hyphen_path_fails` (P C Q), `Lex.python_string_fails` (P C Q) | ANTLR itself is trusted to run the rules as documented (longest match, first rule, modes, recovery); the rules of slatLexer.g4 are transcribed. The statement includes the exceptions, so it is exact. |
| C84 | partial | `Lex.literal_value` (P C Q), `Lex.literal_round_trip` (P C Q), `Lex.double_read` (P C Q), `Lex.single_read_partial` (P C Q), `Lex.backslash_end_fails` (P C Q), `Lex.dropped_escape_fails` (P C Q) | Partial because the code does not do it: preprocess_string strips all quotes at the ends, also those that belong to the text, and turns an escaped quote at the end into a backslash (literal_value is exact for every text, literal_round_trip says which texts come back); a single-quoted literal whose text ends in a backslash swallows the script up to the next quote. |
| C85 | proved | `Gram.unambiguous` (P C Q), `Gram.parse_iff` (P C Q), `Gram.semicolons` (P C Q), `Gram.empty_script` (P C Q), `Gram.semicolon_needed` (P C Q), `Gram.pieces` (P C Q), `Gram.one_mistake` (P C Q), `Gram.script_read` (P C Q), `Gram.script_run` (P C Q), `Gram.script_writable` (P C Q), `Gram.same_commands` (P C Q), `Gram.accepted_written` (P C Q), `Gram.shape_of_ok` (P C Q), `Gram.number_value` (P C Q), `Gram.integer_value` (P C Q), `Gram.pen_exists` (P C Q), `Gram.number_decimal` (P C Q), `Gram.integer_fails` (P C Q), `Gram.manual_fails` (P C Q), `Gram.words_fails` (P C Q), `Gram.stray_fails` (P C Q) | ANTLR is trusted to accept what the grammar derives and, with BailErrorStrategy, to raise otherwise; the rules of slatParser.g4 are transcribed. Numbers are exact (float(text) rounds). The statement includes the exceptions, so it is exact. |
| C86 | partial | `Py.curve_number_partial` (P C Q), `Py.curve_list_partial` (P C Q), `Py.rate` (P C Q), `Py.damage_states` (P C Q), `Py.two_arguments_partial` (P C Q), `Py.distributions_partial` (P C Q), `Py.statistic` (P C Q), `Py.setting` (P C Q), `Py.costs_read_back` (P C Q), `Py.wrong_argument_raises` (P C Q), `Py.reports_named_partial` (P C Q), `Py.core_defined` (P C Q), `Py.call_defined` (P C Q), `Py.probfn_fails` (P C Q), `Py.edp_list_fails` (P C Q), `Py.group_cost_fails` (P C Q), `Py.deaggregated_fails` (P C Q), `Py.set_read_cost_fails` (P C Q), `Py.years_fails` (P C Q), `Py.plot_max_fails` (P C Q), `Py.invalid_type_fails` (P C Q) | Partial because the code does not do it: no query of a probabilistic function answers, three statistics of demands raise for lists, compgroup.E_cost always raises, DeaggregatedCost returns objects without the documented methods, costs that were read cannot be set. The proved theorems cover all other methods. SWIG is trusted to convert arguments as documented. |
| C87 | partial | `Session.session_file_partial` (P C Q), `Session.session_report_partial` (P C Q), `Session.session_table_partial` (P C Q), `Session.session_mistake` (P C Q), `Session.session_files_partial` (P C Q) | session_files_partial has every file of a session, also those that are appended to or shared; session_file_partial covers every kind of report (what the recorder prints), session_report_partial has kind, columns, arguments and options as ordered in the script, session_table_partial says what that is for the reports that work (C62) with arguments and columns written out. Missing: commands that the interpreter gets wrong (C43). Two paths are two files. |
| C88 | partial | `Session.well_formed_ends_partial` (P C Q), `Session.curve_file_partial` (P C Q), `Session.hazard_file_partial` (P C Q), `Session.fate_file_partial` (P C Q), `Session.demand_file_partial` (P C Q) | well_formed_ends_partial covers structures, their costs and their reports too (the numbers: C90-C92). Missing: interpolated functions (their commands are broken, C43), forms of reports that do not work (C62), a second definition of an intensity measure or demand. Numbers are exact. |
| C89 | partial | `Session.print_file_partial` (P C Q) | The texts of definitions are C93; values of variables and Python scripts are written as Python writes them (session_files_partial, the text is a parameter). Missing: commands that the interpreter gets wrong (C43). What a string literal stands for is C84. |
| C90 | partial | `Session.well_formed_ends_partial` (P C Q), `Session.damage_file_partial` (P C Q), `Session.cost_file_partial` (P C Q), `Session.delay_file_partial` (P C Q), `Session.unknown_delay_fails` (P C Q) | Missing: reports at an intensity and rates of groups (found by integration, C91), fragility curves that cross at the demand, losses whose first number is zero (Make.loss_zero_state_fails). A delay function that is not defined is silently left out (unknown_delay_fails). Numbers are exact. |
| C91 | partial | `Session.demand_rate_file_partial` (P C Q), `Session.documented_rate_fails` (P C Q), `Session.loss_rate_file_partial` (P C Q), `Session.state_file_partial` (P C Q), `Session.intensity_cost_file_partial` (P C Q), `Session.intensity_delay_file_partial` (P C Q), `Session.intensity_delay_moments_partial` (P C Q), `Session.state_rate_file_partial` (P C Q), `Session.cost_rate_file_partial` (P C Q) | Missing: the log-spread of the delay of several components (wrong in the code, C61), rates of amounts that equal a cost found without spread (the code asks a distribution without spread at its value, zero_spread_at_value_fails), errors of the differentiation routines (C78). The sessions are those that remember results (sessionR), with any number of analyses, as long as nothing remembered goes stale (Settled; C95 has the two exceptions). That the integrator answers within an error is a hypothesis (C31-C35 and C53 say when the modelled one does). |
| C92 | partial | `Session.total_cost_file_partial` (P C Q), `Session.fate_cost_file_partial` (P C Q), `Session.annual_cost_file_partial` (P C Q), `Session.present_cost_file_partial` (P C Q), `Session.density_file_partial` (P C Q), `Session.normal_density_file_partial` (P C Q), `Session.split_cost_file_partial` (P C Q) | Missing: costs that the integrator finds to be negative, collapse or demolition distributions without a cost (their reports are C96), errors of the differentiation routines (C78). The sessions are those that remember results (sessionR), with any number of analyses, as long as nothing remembered goes stale (Settled; C95: a new cost of rebuilding or demolition does not reach an annual cost computed before). That the integrator answers within an error is a hypothesis, for the annual cost whatever it has found for the groups (C31-C35 and C53 say when the modelled one does). |
| C93 | partial | `Session.definition_texts_partial` (P C Q), `Session.detfn_text_fails` (P C Q), `Session.collapsed_text_fails` (P C Q) | Missing: deterministic functions (the text shows placeholders, detfn_text_fails) and intensity measures with a probability of collapse (the text shows that of the function, collapsed_text_fails); commands that the interpreter gets wrong (C43). How Python writes numbers, lists, dictionaries and constants is a parameter. |
| C94 | partial | `Session.written_out_partial` (P C Q), `Session.written_out_fails` (P C Q) | Missing: the forms the interpreter gets wrong (C43; with a variable for the number of evaluations, number and tolerance change places, written_out_fails), variables in messages, variables whose value is not a number, a list of decimal numbers or a range. Expressions whose value cannot be written stay as they are. |
| C95 | partial | `Session.remembered_partial` (P C Q), `Session.remembered_fails` (P C Q), `Session.stale_cost_file` (P C Q), `Session.remembered_cost_fails` (P C Q) | Missing: the two exceptions, of which witnesses are proved (remembered_fails: the rate of demolition after a new probability of collapse is too high by the rate of collapse; stale_cost_file: whatever costs of rebuilding and demolition are set after an analysis that reports an annual cost, the next one writes what the first one wrote; remembered_cost_fails: what it should have written), commands that the interpreter gets wrong (C43), second definitions of an intensity measure or demand (outside SessionPlain). What a component group remembers is left out, since nothing in these sessions changes a group; threads are C38-C40. |
| C96 | partial | `Session.missing_price_total_partial` (P C Q), `Session.missing_price_annual_partial` (P C Q), `Session.missing_price_present_partial` (P C Q), `Session.missing_price_density_partial` (P C Q), `Session.missing_price_normal_partial` (P C Q), `Session.fate_shares_file_partial` (P C Q) | Sessions as in C92 (nothing remembered goes stale, a file of its own, commands the interpreter gets right). For annual and discounted costs the integrator is any that does not take what is not a number at the intensity 1 for a success; the modelled one is such (Maq.nan_noticed). A normalised density stops the session (division by zero) instead of being reported as missing. Missing: intensities with a cost beside intensities without one in a normalised density. A report by fate has no number for demolition even if the structure cannot be demolished. |
| C97 | partial | `Tally.report_settings` (P C Q), `Tally.report_counts` (P C Q), `Tally.report_maxima_partial` (P C Q), `Tally.report_maximum_fails` (P C Q) | Counts are those of the counters (modulo 2^32 and 2^64); the largest numbers are exact when no two integrations run at the same time, and can be too small otherwise (report_maximum_fails, the race of C36). Integers are written in decimal, the text of the tolerance is a parameter without line breaks. Integrations end before the calculation that started them returns (Complete). |
| C98 | partial | `Define.refused_changes_nothing_partial` (P Q), `Define.name_is_last_made_partial` (P Q), `Define.replaced_by_next_made` (P Q), `Define.accepted_partial` (P Q), `Define.refused_probfn_fails` (P Q), `Define.database_name_fails` (P Q), `Define.database_over_user_fails` (P), `Define.unnamed_edp_fails` (P Q) | Partial because the code does not do it for probabilistic functions of a wrong type (refused_probfn_fails) and for fragility functions from the database (database_name_fails, database_over_user_fails: None is passed on to the library, which reads from a null pointer). Which of the statements that make the library object succeed is a parameter. Identifiers are texts or None. Recorders are left out. |
| C99 | partial | `Describe.description_tells_partial` (P C Q), `Describe.description_closed` (P C Q), `Describe.demand_unclosed_fails` (P C Q), `Describe.description_silent_fails` (P C Q), `Describe.group_description_tells_partial` (P C Q), `Describe.group_description_fails` (P C Q), `Describe.group_silent_fails` (P C Q) | Partial because the description of a demand leaves a parenthesis open (demand_unclosed_fails) and leaves out the kinds of centre and spread, the tables and a second demand function (description_silent_fails). The description of a group dereferences a null pointer without a function of cost or delay (group_description_fails) and leaves out bi-level losses and adjustment factors (group_silent_fails); names of groups have no colon. The text of a number is a parameter without commas and parentheses (the C locale). |
| C100 | partial | `Define.object_found_partial` (P Q), `Define.unnamed_demand_found` (P C Q), `Define.found_names_differ` (P Q), `Define.database_object_fails` (P Q), `Define.database_first_fails` (P C Q) | Partial because with fragility functions from the database the search raises (database_object_fails, database_first_fails). Demands without a name are entered under None (unnamed_edp_fails of C98) and found there until the next one is defined (unnamed_demand_found). Every constructor makes a library object of its own, and pointers are compared (AreSame); objects that have been freed and whose address is used again are not modelled. |
