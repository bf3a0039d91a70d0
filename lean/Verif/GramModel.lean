import Verif.StrModel
import Verif.InterpModel

/-!
# The grammar of the command language

`slatParser.g4`, rule by rule.  A grammar is a value of type `G α`; next to the shape of the tokens
it says which tree of `InterpModel` they stand for.  `Parses` is the usual meaning of a grammar;
ANTLR's parser accepts exactly the rows of tokens that the grammar derives and builds the tree of
the derivation (trusted; the grammar has only one, see `GramProps`).  Where tokens cannot be
derived, `BailErrorStrategy` raises an exception (`SlatInterpreter.py:739-741`), before any handler
is called (`SlatInterpreter.py:743-745`).

`parse` is an executable parser for the same grammar, by trying all the possibilities.
-/

namespace Slat.Gram

open Slat.Lex (Kind)
open Slat.Interp

/-- A token: its type and its text (`CommonTokenStream`, `SlatInterpreter.py:738`). -/
abbrev Tok := Kind × List Char

/-- Grammars with values: what the right sides of the rules of `slatParser.g4:5-144` are made of.
`dict` stands for `parameter_dictionary`, the only rule that is recursive
(`slatParser.g4:34,40,42`). -/
inductive G : Type → Type 1
  | tok (k : Kind) : G String
  | eps {α : Type} (a : α) : G α
  | seq {α β : Type} (g : G α) (h : G β) : G (α × β)
  | alt {α : Type} (g h : G α) : G α
  | star {α : Type} (g : G α) : G (List α)
  | map {α β : Type} (f : α → β) (g : G α) : G β
  | dict : G Entries

namespace G

/-- `g?` (`slatParser.g4:14-120`). -/
def opt {α : Type} (g : G α) : G (Option α) := .alt (.map some g) (.eps none)

/-- A token whose text is not used, then `g` (`slatParser.g4:5-144`). -/
def after {α : Type} (k : Kind) (g : G α) : G α := .map Prod.snd (.seq (.tok k) g)

/-- `g`, then a token whose text is not used (`slatParser.g4:5-144`). -/
def before {α : Type} (g : G α) (k : Kind) : G α := .map Prod.fst (.seq g (.tok k))

/-- A token standing for a value (`slatParser.g4:5-144`). -/
def is {α : Type} (k : Kind) (a : α) : G α := .map (fun _ => a) (.tok k)

/-- `g (COMMA g)*` (`slatParser.g4:24-25,38,40,77,79,95,128,132`). -/
def commas {α : Type} (g : G α) : G (List α) :=
  .map (fun p => p.1 :: p.2) (.seq g (.star (after .COMMA g)))

/-- `g | h | ...` (`slatParser.g4:7-144`). -/
def oneOf {α : Type} : G α → List (G α) → G α
  | g, [] => g
  | g, h :: l => .alt g (oneOf h l)

end G

open G

/-! ## Numbers -/

/-- The value of a row of decimal digits. -/
def digitsValue (l : List Char) : ℕ := l.foldl (fun a c => 10 * a + (c.toNat - 48)) 0

/-- `int(text)` of an `INTEGER` (`SlatInterpreter.py:149,165,352,507,575-577,640`). -/
def intValue (t : String) : ℕ := digitsValue t.toList

/-- The sign of a number, and the text after it. -/
def signOf : List Char → ℤ × List Char
  | '-' :: l => (-1, l)
  | '+' :: l => (1, l)
  | l => (1, l)

/-- `float(text)` of a `FLOAT_VAL` (`SlatInterpreter.py:151,167,357,359,574,631-639,655`), as the decimal
number written; the rounding to binary is not modelled. -/
def floatValue (t : String) : ℚ :=
  let (s, l) := signOf t.toList
  let m := l.takeWhile (fun c => c != 'e' && c != 'E')
  let (es, e) := signOf ((l.dropWhile (fun c => c != 'e' && c != 'E')).drop 1)
  let i := m.takeWhile (· != '.')
  let f := (m.dropWhile (· != '.')).drop 1
  s * digitsValue (i ++ f) * (10 : ℚ) ^ (es * digitsValue e - f.length)

/-- An `INTEGER` with its value (`slatParser.g4:32,36,87,108,109,117,126`). -/
def integer : G ℕ := .map intValue (.tok .INTEGER)

/-- A `FLOAT_VAL` with its value (`slatParser.g4:32,36,87,117,124,126,128`). -/
def float : G ℚ := .map floatValue (.tok .FLOAT_VAL)

/-! ## Parts of commands -/

/-- `python_script` and `python_expression` (`slatParser.g4:135-136`); `getText` of the expression
puts the texts of its tokens together (`SlatInterpreter.py:677`).  `*?` is a `*` that ends at the
first `PYTHON_END`, which is none of its tokens. -/
def python_script : G String :=
  after .PYTHON_ESCAPE (before
    (.map String.join (.star (oneOf (.tok .OTHER) [.tok .PYMODELPAREN, .tok .NESTEDOTHER,
      .tok .NESTEDLPAREN, .tok .NESTEDRPAREN]))) .PYTHON_END)

/-- `var_ref` (`slatParser.g4:30`). -/
def var_ref : G String := after .DOLLARS (.tok .ID)

/-- `numerical_scalar` (`slatParser.g4:32`). -/
def numerical_scalar : G Num :=
  oneOf (.map Num.int integer) [.map Num.flt float, .map Num.py python_script,
    .map Num.var var_ref]

/-- `scalar` (`slatParser.g4:27`). -/
def scalar : G Sc := .alt (.map Sc.str (.tok .STRING)) (.map Sc.num numerical_scalar)

/-- `scalar2` (`slatParser.g4:28`). -/
def scalar2 : G Sc2 := .map (fun p => ⟨p.1, p.2⟩) (.seq scalar (after .COMMA scalar))

/-- `scalar3` (`slatParser.g4:29`). -/
def scalar3 : G (Sc2 × Sc) := .seq scalar2 (after .COMMA scalar)

/-- `parameter` (`slatParser.g4:36`). -/
def parameter : G Param :=
  oneOf (.map Param.id (.tok .ID)) [.map Param.str (.tok .STRING), .map Param.int integer,
    .map Param.flt float]

/-- `parameter_array` (`slatParser.g4:38`). -/
def parameter_array : G (List Param) := after .LBRACKET (before (commas parameter) .RBRACKET)

/-- `parameters` (`slatParser.g4:34`). -/
def parameters : G Params :=
  oneOf (.map Params.one parameter) [.map Params.arr parameter_array, .map Params.dict .dict]

/-- `dictionary_entry` (`slatParser.g4:42`): whether the key is a `STRING`, the key, the value. -/
def dictionary_entry : G (Bool × String × Params) :=
  .map (fun p => (p.1.1, p.1.2, p.2))
    (.seq (.alt (.map (fun t => (false, t)) (.tok .ID)) (.map (fun t => (true, t)) (.tok .STRING)))
      (after .COLON parameters))

/-- The entries as a tree (`slatParser.g4:40`). -/
def entries : List (Bool × String × Params) → Entries
  | [] => .nil
  | (b, k, v) :: l => .cons b k v (entries l)

/-- `parameter_dictionary` after its `LPAREN` (`slatParser.g4:40`). -/
def dictBody : G Entries := .map entries (before (commas dictionary_entry) .RPAREN)

/-- `function_ref` (`slatParser.g4:45`). -/
def function_ref : G FnRef := .alt (.map FnRef.id (.tok .ID)) (.map FnRef.var var_ref)

/-- `file_spec` (`slatParser.g4:55`); `strip` of quotes (`SlatInterpreter.py:263,699,704,722,726`) leaves
the text as it is, for it has none. -/
def file_spec : G String := .alt (.tok .FILE_NAME) (.tok .ID)

/-- `placement_type`, and what follows `MU_FLAG` (`slatParser.g4:60,65`). -/
def placement_type : G Mu :=
  oneOf (is .MEAN_LN_X .meanLn) [is .MEDIAN_X .median, is .MEAN_X .mean]

/-- `spread_type`, and what follows `SD_FLAG` (`slatParser.g4:61,66`). -/
def spread_type : G Sd := .alt (is .SD_LN_X .sdLn) (is .SD_X .sd)

/-- `mu_option` (`slatParser.g4:60`). -/
def mu_option : G Mu := after .MU_FLAG placement_type

/-- `sd_option` (`slatParser.g4:61`). -/
def sd_option : G Sd := after .SD_FLAG spread_type

/-- `lognormal_options` (`slatParser.g4:62`). -/
def lognormal_options : G LnOpts :=
  .alt (.map (fun p => ⟨p.1, p.2⟩) (.seq (opt mu_option) (opt sd_option)))
    (.map (fun p => ⟨some p.2, some p.1⟩) (.seq sd_option mu_option))

/-- `lognormal_dist` (`slatParser.g4:68`). -/
def lognormal_dist : G (Sc2 × LnOpts) := .seq scalar2 lognormal_options

/-- `LBRACKET scalar2 RBRACKET`. -/
def bracketed : G Sc2 := after .LBRACKET (before scalar2 .RBRACKET)

/-- `scalar2_sequence`, and the lists of `loglog_args` and `linear_args`
(`slatParser.g4:24-25,79`). -/
def scalar2_sequence : G (List Sc2) := commas bracketed

/-- `bilevel_spec` (`slatParser.g4:76`). -/
def bilevel_spec : G Bilevel :=
  .map (fun p => ⟨p.1, p.2.1, p.2.2.1, p.2.2.2.1, p.2.2.2.2⟩)
    (after .LBRACKET (before
      (.seq numerical_scalar (.seq (after .COMMA numerical_scalar)
        (.seq (after .COMMA numerical_scalar) (.seq (after .COMMA numerical_scalar)
          (after .COMMA numerical_scalar))))) .RBRACKET))

/-- `fragfn_db_params` (`slatParser.g4:56-57`), as the file and the key. -/
def fragfn_db_params : G (Option String × String) :=
  .alt (.seq (opt (after .DB_FLAG file_spec)) (after .STDFUNC_FLAG (.tok .ID)))
    (.map (fun p => (some p.2, p.1))
      (.seq (after .STDFUNC_FLAG (.tok .ID)) (after .DB_FLAG file_spec)))

/-- `INTEGER | var_ref | python_script` (`slatParser.g4:108-109`). -/
def int_arg : G IntArg :=
  oneOf (.map IntArg.int integer) [.map IntArg.var var_ref, .map IntArg.py python_script]

/-- `integration_search_option` (`slatParser.g4:108`). -/
def integration_search_option : G (Search × IntArg) :=
  .seq (oneOf (is .BINARY .binary) [is .REVBIN .revbin, is .LOWREV .lowrev,
    is .SCATTERED .scattered, is .DIRECTED .directed]) int_arg

/-- `print_options` (`slatParser.g4:106`); `append` is set by `APPEND_OPTION` only
(`SlatInterpreter.py:468-472`). -/
def print_options : G PrintOpts :=
  .map (fun p => ⟨p.1, p.2 = some true⟩)
    (.seq file_spec (opt (.alt (is .APPEND_OPTION true) (is .NEW_OPTION false))))

/-- `float_array` (`slatParser.g4:128`). -/
def float_array : G (List ℚ) := commas float

/-- `counted_at` (`slatParser.g4:126`). -/
def counted_at : G At :=
  .map (fun p => .counted p.1 p.2.1 p.2.2.1 p.2.2.2)
    (.seq float (.seq (after .COLON float)
      (.seq (.alt (is .LINFLAG false) (is .LOGFLAG true)) integer)))

/-- `recorder_at` (`slatParser.g4:124-125`). -/
def recorder_at : G At :=
  oneOf (.map At.floats float_array)
    [.map (fun p => .range p.1 p.2.1 p.2.2)
      (.seq float (.seq (after .COLON float) (after .COLON float))),
     .map At.py python_script, .map At.var var_ref, counted_at]

/-- `col_spec` (`slatParser.g4:131`). -/
def col_spec : G Col :=
  oneOf (.map Col.placement placement_type) [.map Col.spread spread_type, .map Col.scalar scalar]

/-- `recorder_cols` (`slatParser.g4:132`). -/
def recorder_cols : G (List Col) := after .COLS_FLAG (commas col_spec)

/-- `recorder_type` (`slatParser.g4:122-123`). -/
def recorder_type : G RecType :=
  oneOf (is .DETFN .detfn) [is .PROBFN .probfn, is .IMRATE .imrate, is .EDPIM .edpim,
    is .EDPRATE .edprate, is .DSEDP .dsedp, is .DSIM .dsim, is .LOSSDS .lossds,
    is .COSTEDP .costedp, is .COSTIM .costim, is .DELAYIM .delayim, is .DELAYEDP .delayedp]

/-- `structcost_type` (`slatParser.g4:129`). -/
def structcost_type : G ByType :=
  oneOf (is .BY_FATE_FLAG .fate) [is .BY_EDP_FLAG .edp, is .BY_FRAG_FLAG .frag]

/-! ## Commands -/

/-- `title_command` (`slatParser.g4:17`). -/
def title_command : G Cmd := .map Cmd.title (after .TITLE (.tok .STRING))

/-- `log_command` (`slatParser.g4:14`). -/
def log_command : G Cmd :=
  .map (fun p => .log p.1 p.2)
    (after .LOG (.seq (opt (.alt (is .STDERR_FLAG true) (is .NOSTDERR_FLAG false)))
      (opt file_spec)))

/-- `intstats_command` (`slatParser.g4:15`). -/
def intstats_command : G Cmd :=
  after .INTSTATS (.alt (is .PRINT .intstatsPrint) (is .RESET .intstatsReset))

/-- `inputdir_command` (`slatParser.g4:18`). -/
def inputdir_command : G Cmd := .map Cmd.inputdir (after .INPUTDIR file_spec)

/-- `outputdir_command` (`slatParser.g4:19`). -/
def outputdir_command : G Cmd := .map Cmd.outputdir (after .OUTPUTDIR file_spec)

/-- `detfn_command` with `hyperbolic_args`, `powerlaw_args`, `loglog_args`, `linear_args`
(`slatParser.g4:21-25`). -/
def detfn_command : G Cmd :=
  .map (fun p => p.2 p.1)
    (after .DETFN (.seq (.tok .ID)
      (oneOf (.map (fun p id => Cmd.detfnHyperbolic id p.1 p.2) (after .HYPERBOLIC scalar3))
        [.map (fun p id => Cmd.detfnPowerlaw id p) (after .POWERLAW scalar2),
         .map (fun l id => Cmd.detfnLoglog id l) (after .LOGLOG scalar2_sequence),
         .map (fun l id => Cmd.detfnLinear id l) (after .LINEAR scalar2_sequence)])))

/-- `probfn_command` (`slatParser.g4:44`). -/
def probfn_command : G Cmd :=
  .map (fun p => .probfn p.1 p.2.1 p.2.2.1 p.2.2.2)
    (after .PROBFN (.seq (.tok .ID) (.seq (after .LOGNORMAL function_ref)
      (.seq (after .COMMA function_ref) lognormal_options))))

/-- `im_command` (`slatParser.g4:47`). -/
def im_command : G Cmd :=
  .map (fun p => .im p.1 p.2) (after .IM (.seq (.tok .ID) (.tok .ID)))

/-- `edp_command` (`slatParser.g4:48`). -/
def edp_command : G Cmd :=
  .map (fun p => .edp p.1 p.2.1 p.2.2) (after .EDP (.seq (.tok .ID) (.seq (.tok .ID) (.tok .ID))))

/-- `collapse_command`, `demolition_command`, `rebuildcost_command`, `demolitioncost_command`
(`slatParser.g4:50-51,97-98`). -/
def dist_command (k : Kind) (d : DistCmd) : G Cmd :=
  .map (fun p => .dist d p.1 p.2.1 p.2.2) (after k (.seq (.tok .ID) lognormal_dist))

/-- `fragfn_command` and `fragfn_user_defined_params` (`slatParser.g4:53-54,59`). -/
def fragfn_command : G Cmd :=
  .map (fun p => p.2 p.1)
    (after .FRAGFN (.seq (.tok .ID)
      (.alt (.map (fun p id => Cmd.fragfnDb id p.1 p.2) fragfn_db_params)
        (.map (fun p id => Cmd.fragfnUser id p.1 p.2) (.seq scalar2_sequence lognormal_options)))))

/-- `lossfn_command`, `simple_loss_command`, `bilevel_loss_command`, `bilevel_spec_sequence`
(`slatParser.g4:74-78`). -/
def lossfn_command : G Cmd :=
  .map (fun p => p.2 p.1)
    (after .LOSSFN (.seq (.tok .ID)
      (.alt (.map (fun p id => Cmd.lossSimple id p.1 p.2)
          (after .SIMPLE (.seq scalar2_sequence lognormal_options)))
        (.map (fun l id => Cmd.lossBilevel id l) (after .BILEVEL (commas bilevel_spec))))))

/-- `FLOAT_VAL? FLOAT_VAL?` (`slatParser.g4:87`), which reach the handler as one list
(`SlatInterpreter.py:353`). -/
def adjustments : G (List ℚ) :=
  .map (fun p => p.1.toList ++ p.2.toList) (.seq (opt float) (opt float))

/-- `compgroup_command` (`slatParser.g4:87-92`). -/
def compgroup_command : G Cmd :=
  .map (fun p => .compgroup p.1 p.2.1 p.2.2.1 p.2.2.2.1 p.2.2.2.2.1 p.2.2.2.2.2.1 p.2.2.2.2.2.2)
    (after .COMPGROUP (.seq (.tok .ID) (.seq (.tok .ID) (.seq (.tok .ID) (.seq (.tok .ID)
      (.seq (opt (.tok .ID)) (.seq integer adjustments)))))))

/-- `structure_command` and `id_list` (`slatParser.g4:94-95`). -/
def structure_command : G Cmd :=
  .map (fun p => .structure_ p.1 p.2) (after .STRUCTURE (.seq (.tok .ID) (commas (.tok .ID))))

/-- `print_message` (`slatParser.g4:102`). -/
def print_message : G PrintWhat :=
  .map (fun o => o.getD .emptyMessage)
    (after .PRINT (after .MESSAGE (opt (oneOf (.map PrintWhat.message (.tok .STRING))
      [.map PrintWhat.messagePy python_script, .map PrintWhat.messageVar var_ref]))))

/-- `print_function` (`slatParser.g4:104`); which definition is printed goes by the type of the token
(`SlatInterpreter.py:411-427`), which is the text of the keyword. -/
def print_function : G PrintWhat :=
  .map (fun p => .function p.1 p.2)
    (after .PRINT (.seq (oneOf (is .DETFN "detfn") [is .PROBFN "probfn", is .IM "im", is .EDP "edp",
      is .FRAGFN "fragfn", is .LOSSFN "lossfn", is .COMPGROUP "compgroup"]) (.tok .ID)))

/-- `print_title` (`slatParser.g4:103`). -/
def print_title : G PrintWhat := after .PRINT (is .TITLE .title)

/-- `print_message | print_function | print_title` (`slatParser.g4:100`). -/
def print_what : G PrintWhat := oneOf print_message [print_function, print_title]

/-- `print_command` (`slatParser.g4:100`). -/
def print_command : G Cmd := .map (fun p => .print p.1 p.2) (.seq print_what (opt print_options))

/-- `integration_command` and `integration_method` (`slatParser.g4:109-111`). -/
def integration_command : G Cmd :=
  .map (fun p => .integration p.1 p.2.1 p.2.2)
    (after .INTEGRATION (after .MAQ (.seq numerical_scalar
      (.seq int_arg (opt integration_search_option)))))

/-- What follows the `recorder_id` (`slatParser.g4:113-117`). -/
def recorder_body : G RecBody :=
  oneOf
    (.map (fun p => .fn p.1 p.2.1 p.2.2.1 p.2.2.2)
      (.seq recorder_type (.seq (.tok .ID) (.seq recorder_at (opt recorder_cols)))))
    [.map (fun p => p.1 p.2)
      (.seq (.alt (is .DSRATE RecBody.dsrate) (is .COLLRATE RecBody.collrate)) (.tok .ID)),
     .map (fun p => .rates p.1 p.2.1 p.2.2)
      (.seq (oneOf (is .COSTRATE AtType.costrate) [is .COLLAPSE AtType.collapse,
        is .DEAGG AtType.deagg, is .TOTALCOST AtType.totalcost]) (.seq (.tok .ID) recorder_at)),
     .map (fun p => .pdf p.1 p.2.1 p.2.2.isSome)
      (after .PDF (.seq (.tok .ID) (.seq recorder_at (opt (.tok .NORMALISE_FLAG))))),
     .map (fun p => p.2 p.1)
      (after .STRUCTCOST (.seq (.tok .ID) (.alt
        (.map (fun p id => RecBody.npv id p.1 p.2.1 p.2.2.1 p.2.2.2)
          (after .NPV_FLAG (.seq integer (.seq (after .COLON integer)
            (.seq (after .COLON integer) float)))))
        (.map (fun p id => p.1 id p.2)
          (.seq (.alt
            (.map (fun p id c => RecBody.by_ p.1 id p.2 c) (.seq structcost_type recorder_at))
            (.map (fun o id c => RecBody.annual id o c) (after .ANNUAL_FLAG lognormal_options)))
            (opt recorder_cols))))))]

/-- `recorder_command` and `recorder_id` (`slatParser.g4:113-120`). -/
def recorder_command : G Cmd :=
  .map (fun p => .recorder p.1 p.2.1 p.2.2)
    (after .RECORDER (.seq (.tok .ID) (.seq recorder_body (opt print_options))))

/-- `analyze_command` (`slatParser.g4:138`). -/
def analyze_command : G Cmd := is .ANALYZE .analyze

/-- `set_command` (`slatParser.g4:140`). -/
def set_command : G Cmd :=
  .map (fun p => .set p.1 p.2)
    (after .SET (.seq (.tok .ID) (oneOf (.map SetArg.py python_script)
      [.map SetArg.var var_ref, .map SetArg.params parameters])))

/-- `importprobfn_command` (`slatParser.g4:142`). -/
def importprobfn_command : G Cmd :=
  .map (fun p => .importProbfn p.1 p.2) (after .IMPORTPROBFN (.seq (.tok .ID) file_spec))

/-- `importimfn_command` (`slatParser.g4:144`). -/
def importimfn_command : G Cmd :=
  .map (fun p => .importIm p.1 p.2) (after .IMPORTIMFN (.seq (.tok .ID) file_spec))

/-- The commands, in the order of the file (`slatParser.g4:7-12`). -/
def command_body : G Cmd :=
  oneOf title_command [detfn_command, probfn_command, im_command, edp_command, fragfn_command,
    lossfn_command, compgroup_command, print_command, integration_command, recorder_command,
    analyze_command, set_command, importprobfn_command, dist_command .COLLAPSE .collapse,
    dist_command .DEMOLITION .demolition, structure_command, importimfn_command,
    dist_command .REBUILDCOST .rebuildCost, dist_command .DEMOLITIONCOST .demolitionCost,
    log_command, intstats_command, inputdir_command, outputdir_command]

/-- `command` (`slatParser.g4:7-12`). -/
def command : G Cmd := before command_body .SEMICOLON

/-- `script` (`slatParser.g4:5`); the end of the row of tokens is the `EOF`. -/
def script : G (List Cmd) :=
  .map (fun l => l.filterMap id) (.star (.alt (.map (fun _ => none) (.tok .WS))
    (.map some command)))

/-! ## What a grammar derives -/

/-- `Parses D g u a`: the grammar `g` derives the tokens `u`, with the value `a`; `D` says what
`parameter_dictionary` derives (meaning of the rules of `slatParser.g4:5-144`).  A `*` repeats a part
that has at least one token; ANTLR allows no others. -/
def Parses (D : List Tok → Entries → Prop) : {α : Type} → G α → List Tok → α → Prop
  | _, .tok k, u, a => ∃ t, u = [(k, t)] ∧ a = String.ofList t
  | _, .eps b, u, a => u = [] ∧ a = b
  | _, .seq g h, u, p => ∃ v w, u = v ++ w ∧ Parses D g v p.1 ∧ Parses D h w p.2
  | _, .alt g h, u, a => Parses D g u a ∨ Parses D h u a
  | _, .star g, u, l =>
    ∃ us : List (List Tok), u = us.flatten ∧ List.Forall₂ (fun v a => v ≠ [] ∧ Parses D g v a) us l
  | _, .map f g, u, b => ∃ a, Parses D g u a ∧ f a = b
  | _, .dict, u, e => D u e

/-- What `parameter_dictionary` derives with dictionaries nested at most `n` deep
(`slatParser.g4:34,40,42`). -/
def DictN : Nat → List Tok → Entries → Prop
  | 0, _, _ => False
  | n + 1, u, e => ∃ t v, u = (.LPAREN, t) :: v ∧ Parses (DictN n) dictBody v e

/-- What a grammar derives (`slatParser.g4:5-144`). -/
def Derives {α : Type} (g : G α) (u : List Tok) (a : α) : Prop := ∃ n, Parses (DictN n) g u a

/-! ## A parser -/

/-- `star` of a parser: any number of parts, each with at least one token. -/
def iter {α : Type} (f : List Tok → List (α × List Tok)) :
    Nat → List Tok → List (List α × List Tok)
  | 0, ts => [([], ts)]
  | n + 1, ts => ([], ts) :: (f ts).flatMap fun p =>
      if p.2.length < ts.length then (iter f n p.2).map fun q => (p.1 :: q.1, q.2) else []

/-- All the ways to read a start of the tokens, with the tokens that are left
(an executable form of `Parses`, on the rules of `slatParser.g4:5-144`). -/
def runs (S : List Tok → List (Entries × List Tok)) :
    {α : Type} → G α → List Tok → List (α × List Tok)
  | _, .tok k, ts =>
    match ts with
    | [] => []
    | (k', t) :: r => if k' = k then [(String.ofList t, r)] else []
  | _, .eps b, ts => [(b, ts)]
  | _, .seq g h, ts => (runs S g ts).flatMap fun p => (runs S h p.2).map fun q => ((p.1, q.1), q.2)
  | _, .alt g h, ts => runs S g ts ++ runs S h ts
  | _, .star g, ts => iter (runs S g) ts.length ts
  | _, .map f g, ts => (runs S g ts).map fun p => (f p.1, p.2)
  | _, .dict, ts => S ts

/-- `runs` for `parameter_dictionary` (`slatParser.g4:40`). -/
def dictRuns : Nat → List Tok → List (Entries × List Tok)
  | 0, _ => []
  | _ + 1, [] => []
  | n + 1, (k, _) :: r => if k = .LPAREN then runs (dictRuns n) dictBody r else []

/-- The first way to read all of the tokens (`parser.script()`, `SlatInterpreter.py:741`). -/
def parseAs {α : Type} (g : G α) (ts : List Tok) : Option α :=
  (((runs (dictRuns ts.length) g ts).filter fun p => p.2.isEmpty).head?).map (·.1)

/-- The commands of a script, or `none` where ANTLR's parser raises an exception
(`SlatInterpreter.py:739-741`). -/
def parse (ts : List Tok) : Option (List Cmd) := parseAs script ts

/-- `preprocess_string` on strings (`SlatInterpreter.py:23-24`). -/
def preprocessString (s : String) : String := String.ofList (Lex.preprocess s.toList)

/-- `main` on the text of one file (`SlatInterpreter.py:735-745`): lexer, parser, then the handlers
in the order of the tree.  `none`: the parser raises an exception, no handler has been called. -/
def runText (ev : String → Except Err Val) (s : List Char) : Option (Except Err St) :=
  (parse (Lex.tokens (Lex.lex s))).map fun l => walkScript ⟨ev, preprocessString⟩ l {}

end Slat.Gram
