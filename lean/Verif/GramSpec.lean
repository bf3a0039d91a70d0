import Verif.LexSpec
import Verif.GramModel
import Mathlib.Data.Nat.Digits.Defs

/-!
# How commands are written

What a user writes for a command, as a row of words: tokens and Python expressions.  The numbers of
a command are spelled by a `Pen`.
-/

namespace Slat.Gram

open Slat.Lex (Kind)
open Slat.Interp

/-- A word of a script: a token, or a Python expression with its `$(` and `)`. -/
inductive Word
  | tok (k : Kind) (t : List Char)
  | py (e : List Char)

/-- The tokens of a word. -/
def Word.tokens : Word → List Tok
  | .tok k t => [(k, t)]
  | .py e => (.PYTHON_ESCAPE, "$(".toList) :: (Lex.pyTokens 0 e ++ [(.PYTHON_END, [')'])])

/-- The tokens of a row of words. -/
def toks (l : List Word) : List Tok := l.flatMap Word.tokens

/-- The text of a word. -/
def Word.text : Word → List Char
  | .tok _ t => t
  | .py e => "$(".toList ++ e ++ [')']

/-- A row of words with a blank after each. -/
def text (l : List Word) : List Char := l.flatMap fun w => w.text ++ [' ']

/-- How numbers are spelled. -/
structure Pen where
  int : ℕ → List Char
  flt : ℚ → List Char

/-- A keyword, an option or punctuation. -/
def kw (k : Kind) (s : String) : Word := .tok k s.toList

/-- A name. -/
def name (s : String) : Word := .tok .ID s.toList

/-- A string, with its quotes. -/
def str (s : String) : Word := .tok .STRING s.toList

/-- A Python expression. -/
def py (s : String) : Word := .py s.toList

/-- A file or directory: a path if it has a slash, otherwise a name. -/
def file (s : String) : Word :=
  if '/' ∈ s.toList then .tok .FILE_NAME s.toList else .tok .ID s.toList

/-- An integer. -/
def Pen.i (p : Pen) (n : ℕ) : Word := .tok .INTEGER (p.int n)

/-- A number that is not an integer. -/
def Pen.f (p : Pen) (x : ℚ) : Word := .tok .FLOAT_VAL (p.flt x)

/-- A reference to a variable. -/
def dollar (x : String) : List Word := [kw .DOLLARS "$", name x]

/-- A comma. -/
def comma : Word := kw .COMMA ","

/-- A colon. -/
def colon : Word := kw .COLON ":"

/-- Rows of words with commas between them. -/
def sep : List (List Word) → List Word
  | [] => []
  | x :: l => x ++ l.flatMap (comma :: ·)

/-- A row of words in brackets. -/
def bracket (l : List Word) : List Word := kw .LBRACKET "[" :: l ++ [kw .RBRACKET "]"]

/-- `12`, `1.5`, `$(expr)`, `$x`. -/
def writeNum (p : Pen) : Num → List Word
  | .int n => [p.i n]
  | .flt x => [p.f x]
  | .py e => [py e]
  | .var x => dollar x

/-- `'text'` or a number. -/
def writeSc (p : Pen) : Sc → List Word
  | .str t => [str t]
  | .num n => writeNum p n

/-- `a, b`. -/
def writeSc2 (p : Pen) (q : Sc2) : List Word := writeSc p q.fst ++ comma :: writeSc p q.snd

/-- `[a, b], [c, d], ...`. -/
def writePairs (p : Pen) (l : List Sc2) : List Word := sep (l.map fun q => bracket (writeSc2 p q))

/-- A parameter of `set`. -/
def writeParam (p : Pen) : Param → Word
  | .id t => name t
  | .str t => str t
  | .int n => p.i n
  | .flt x => p.f x

mutual
/-- The value of `set`: `a`, `[a, b]` or `(key: value, key: value)`. -/
def writeParams (p : Pen) : Params → List Word
  | .one q => [writeParam p q]
  | .arr l => bracket (sep (l.map fun q => [writeParam p q]))
  | .dict d => kw .LPAREN "(" :: sep (writeEntries p d) ++ [kw .RPAREN ")"]
/-- `key: value` for each entry. -/
def writeEntries (p : Pen) : Entries → List (List Word)
  | .nil => []
  | .cons b k v r => ((if b then str k else name k) :: colon :: writeParams p v) :: writeEntries p r
end

/-- `name` or `$x`. -/
def writeFn : FnRef → List Word
  | .id t => [name t]
  | .var x => dollar x

/-- `12`, `$x`, `$(expr)`. -/
def writeIntArg (p : Pen) : IntArg → List Word
  | .int n => [p.i n]
  | .var x => dollar x
  | .py e => [py e]

/-- `mean_ln_x`, `median_x`, `mean_x`. -/
def writeMu : Mu → Word
  | .meanLn => kw .MEAN_LN_X "mean_ln_x"
  | .median => kw .MEDIAN_X "median_x"
  | .mean => kw .MEAN_X "mean_x"

/-- `sd_ln_x`, `sd_x`. -/
def writeSd : Sd → Word
  | .sdLn => kw .SD_LN_X "sd_ln_x"
  | .sd => kw .SD_X "sd_x"

/-- Nothing, or `--mu` with its value. -/
def writeMuOpt : Option Mu → List Word
  | none => []
  | some m => [kw .MU_FLAG "--mu", writeMu m]

/-- Nothing, or `--sd` with its value. -/
def writeSdOpt : Option Sd → List Word
  | none => []
  | some d => [kw .SD_FLAG "--sd", writeSd d]

/-- `--mu ... --sd ...`, in one order or the other. -/
def writeOpts (swap : Bool) (o : LnOpts) : List Word :=
  if swap then writeSdOpt o.sd ++ writeMuOpt o.mu else writeMuOpt o.mu ++ writeSdOpt o.sd

/-- `1.5, 2.5`, `0.5:0.1:1.5`, `$(expr)`, `$x`, `0.5:1.5 --log 10`. -/
def writeAt (p : Pen) : At → List Word
  | .floats l => sep (l.map fun x => [p.f x])
  | .range a i b => [p.f a, colon, p.f i, colon, p.f b]
  | .py e => [py e]
  | .var x => dollar x
  | .counted a b log n =>
    [p.f a, colon, p.f b, if log then kw .LOGFLAG "--log" else kw .LINFLAG "--linear", p.i n]

/-- A column of a recorder. -/
def writeCol (p : Pen) : Col → List Word
  | .placement m => [writeMu m]
  | .spread d => [writeSd d]
  | .scalar s => writeSc p s

/-- Nothing, or `--cols` with a list. -/
def writeCols (p : Pen) : Option (List Col) → List Word
  | none => []
  | some l => kw .COLS_FLAG "--cols" :: sep (l.map (writeCol p))

/-- Nothing, or a file; `--append` after it, or `--new` if that is wanted (`new`). -/
def writeTo (new : Bool) : Option PrintOpts → List Word
  | none => []
  | some o => file o.file ::
      (if o.append then [kw .APPEND_OPTION "--append"]
        else if new then [kw .NEW_OPTION "--new"] else [])

/-- The keyword of a definition that can be printed. -/
def kindWord : String → Word
  | "detfn" => kw .DETFN "detfn"
  | "probfn" => kw .PROBFN "probfn"
  | "im" => kw .IM "im"
  | "edp" => kw .EDP "edp"
  | "fragfn" => kw .FRAGFN "fragfn"
  | "lossfn" => kw .LOSSFN "lossfn"
  | _ => kw .COMPGROUP "compgroup"

/-- What is printed. -/
def writeWhat : PrintWhat → List Word
  | .emptyMessage => [kw .MESSAGE "message"]
  | .message t => [kw .MESSAGE "message", str t]
  | .messagePy e => [kw .MESSAGE "message", py e]
  | .messageVar x => kw .MESSAGE "message" :: dollar x
  | .title => [kw .TITLE "title"]
  | .function k i => [kindWord k, name i]

/-- The keyword of a recorder. -/
def writeType : RecType → Word
  | .detfn => kw .DETFN "detfn" | .probfn => kw .PROBFN "probfn" | .imrate => kw .IMRATE "imrate"
  | .edpim => kw .EDPIM "edpim" | .edprate => kw .EDPRATE "edprate" | .dsedp => kw .DSEDP "dsedp"
  | .dsim => kw .DSIM "dsim" | .lossds => kw .LOSSDS "lossds" | .costedp => kw .COSTEDP "costedp"
  | .costim => kw .COSTIM "costim" | .delayim => kw .DELAYIM "delayim"
  | .delayedp => kw .DELAYEDP "delayedp"

/-- The keyword of a recorder of rates and costs. -/
def writeRates : AtType → Word
  | .costrate => kw .COSTRATE "costrate" | .collapse => kw .COLLAPSE "collapse"
  | .deagg => kw .DEAGG "deagg" | .totalcost => kw .TOTALCOST "totalcost"

/-- How the cost of a structure is separated. -/
def writeBy : ByType → Word
  | .fate => kw .BY_FATE_FLAG "--by-fate" | .edp => kw .BY_EDP_FLAG "--by-edp"
  | .frag => kw .BY_FRAG_FLAG "--by-frag"

/-- What is recorded, where and which columns. -/
def writeBody (p : Pen) (swap : Bool) : RecBody → List Word
  | .fn t i a c => writeType t :: name i :: writeAt p a ++ writeCols p c
  | .dsrate i => [kw .DSRATE "dsrate", name i]
  | .collrate i => [kw .COLLRATE "collrate", name i]
  | .rates t i a => writeRates t :: name i :: writeAt p a
  | .pdf i a n =>
    kw .PDF "pdf" :: name i :: writeAt p a ++ if n then [kw .NORMALISE_FLAG "--normalise"] else []
  | .npv i a b c r =>
    [kw .STRUCTCOST "structcost", name i, kw .NPV_FLAG "--npv", p.i a, colon, p.i b, colon, p.i c,
      p.f r]
  | .by_ t i a c =>
    kw .STRUCTCOST "structcost" :: name i :: writeBy t :: writeAt p a ++ writeCols p c
  | .annual i o c =>
    kw .STRUCTCOST "structcost" :: name i :: kw .ANNUAL_FLAG "--annual" ::
      writeOpts swap o ++ writeCols p c

/-- The search of the integration. -/
def writeSearch : Search → Word
  | .binary => kw .BINARY "binary" | .revbin => kw .REVBIN "revbin" | .lowrev => kw .LOWREV "lowrev"
  | .scattered => kw .SCATTERED "scattered" | .directed => kw .DIRECTED "directed"

/-- The keywords of the four log-normal distributions of an intensity measure or a structure. -/
def writeDist : DistCmd → Word
  | .collapse => kw .COLLAPSE "collapse" | .demolition => kw .DEMOLITION "demolition"
  | .rebuildCost => kw .REBUILDCOST "rebuildcost"
  | .demolitionCost => kw .DEMOLITIONCOST "demolitioncost"

/-- `[a, b, c, d, e]`. -/
def writeBilevel (p : Pen) (b : Bilevel) : List Word :=
  bracket (sep [writeNum p b.a, writeNum p b.b, writeNum p b.c, writeNum p b.d, writeNum p b.e])

/-- What a user may choose: the order of `--mu` and `--sd`, of `--db` and `--stdfunc`, and whether
to write `--new`. -/
structure Style where
  swap : Bool := false
  db : Bool := false
  new : Bool := false

/-- A command, without its semicolon. -/
def writeCmd (p : Pen) (y : Style) : Cmd → List Word
  | .title t => [kw .TITLE "title", str t]
  | .detfnHyperbolic i q c =>
    kw .DETFN "detfn" :: name i :: kw .HYPERBOLIC "hyperbolic" :: writeSc2 p q ++
      comma :: writeSc p c
  | .detfnPowerlaw i q => kw .DETFN "detfn" :: name i :: kw .POWERLAW "powerlaw" :: writeSc2 p q
  | .detfnLoglog i l => kw .DETFN "detfn" :: name i :: kw .LOGLOG " loglog" :: writePairs p l
  | .detfnLinear i l => kw .DETFN "detfn" :: name i :: kw .LINEAR "linear" :: writePairs p l
  | .probfn i m s o =>
    kw .PROBFN "probfn" :: name i :: kw .LOGNORMAL "lognormal" :: writeFn m ++
      comma :: writeFn s ++ writeOpts y.swap o
  | .im i f => [kw .IM "im", name i, name f]
  | .edp i m f => [kw .EDP "edp", name i, name m, name f]
  | .dist k i q o => writeDist k :: name i :: writeSc2 p q ++ writeOpts y.swap o
  | .fragfnDb i none k => [kw .FRAGFN "fragfn", name i, kw .STDFUNC_FLAG "--stdfunc", name k]
  | .fragfnDb i (some f) k =>
    kw .FRAGFN "fragfn" :: name i ::
      if y.db then [kw .DB_FLAG "--db", file f, kw .STDFUNC_FLAG "--stdfunc", name k]
      else [kw .STDFUNC_FLAG "--stdfunc", name k, kw .DB_FLAG "--db", file f]
  | .fragfnUser i l o => kw .FRAGFN "fragfn" :: name i :: writePairs p l ++ writeOpts y.swap o
  | .lossSimple i l o =>
    kw .LOSSFN "lossfn" :: name i :: kw .SIMPLE "simple" :: writePairs p l ++ writeOpts y.swap o
  | .lossBilevel i l =>
    kw .LOSSFN "lossfn" :: name i :: kw .BILEVEL "bilevel" :: sep (l.map (writeBilevel p))
  | .compgroup i e f c d n l =>
    kw .COMPGROUP "compgroup" :: name i :: name e :: name f :: name c ::
      (d.toList.map name ++ p.i n :: l.map p.f)
  | .structure_ i l => kw .STRUCTURE "structure" :: name i :: sep (l.map fun g => [name g])
  | .print w o => kw .PRINT "print" :: writeWhat w ++ writeTo y.new o
  | .integration a n none =>
    kw .INTEGRATION "integration" :: kw .MAQ "maq" :: writeNum p a ++ writeIntArg p n
  | .integration a n (some (s, k)) =>
    kw .INTEGRATION "integration" :: kw .MAQ "maq" :: writeNum p a ++ (writeIntArg p n ++
      writeSearch s :: writeIntArg p k)
  | .recorder r b o =>
    kw .RECORDER "recorder" :: name r :: writeBody p y.swap b ++ writeTo y.new o
  | .analyze => [kw .ANALYZE "analyze"]
  | .set x (.py e) => [kw .SET "set", name x, py e]
  | .set x (.var v) => kw .SET "set" :: name x :: dollar v
  | .set x (.params q) => kw .SET "set" :: name x :: writeParams p q
  | .importProbfn i f => [kw .IMPORTPROBFN "importprobfn", name i, file f]
  | .importIm i f => [kw .IMPORTIMFN "importimfn", name i, file f]
  | .log b f =>
    kw .LOG "log" :: ((match b with
      | none => []
      | some true => [kw .STDERR_FLAG "--stderr"]
      | some false => [kw .NOSTDERR_FLAG "--nostderr"]) ++ f.toList.map file)
  | .intstatsPrint => [kw .INTSTATS "intstats", kw .PRINT "print"]
  | .intstatsReset => [kw .INTSTATS "intstats", kw .RESET "reset"]
  | .inputdir d => [kw .INPUTDIR "inputdir", file d]
  | .outputdir d => [kw .OUTPUTDIR "outputdir", file d]

/-- A script: commands, each with a style, and a semicolon after each. -/
def writeScript (p : Pen) (l : List (Style × Cmd)) : List Word :=
  l.flatMap fun c => writeCmd p c.1 c.2 ++ [kw .SEMICOLON ";"]

/-! ## Numbers -/

/-- The number that a row of decimal digits stands for. -/
def numeral (t : List Char) : ℕ := Nat.ofDigits 10 (t.reverse.map fun c => c.toNat - '0'.toNat)

/-- The decimal numbers: those with finitely many digits. -/
def Decimal (x : ℚ) : Prop := ∃ (z : ℤ) (k : ℕ), x = z / 10 ^ k

/-- `-1` after a minus sign, otherwise `1`. -/
def signum (t : List Char) : ℤ := if t = ['-'] then -1 else 1

/-! ## Commands that can be written -/

/-- A name, not a keyword, and not starting with `loglog`. -/
def OkName (s : String) : Prop :=
  Lex.IsName s.toList ∧ ¬ Lex.Reserved s.toList ∧ ¬ "loglog".toList <+: s.toList

/-- A string literal. -/
def OkStr (s : String) : Prop := Lex.Whole .STRING s.toList

/-- A file: a path that does not start with `loglog`, or else a name. -/
def OkFile (s : String) : Prop :=
  if '/' ∈ s.toList then Lex.IsPath s.toList ∧ ¬ "loglog".toList <+: s.toList else OkName s

/-- Python text in which the parentheses are balanced. -/
def OkPy (s : String) : Prop := Lex.Balanced s.toList

/-- The pen writes the integer as digits with its value. -/
def Pen.OkI (p : Pen) (n : ℕ) : Prop := Lex.Digits (p.int n) ∧ intValue (String.ofList (p.int n)) = n

/-- The pen writes the number as a number with its value. -/
def Pen.OkF (p : Pen) (x : ℚ) : Prop :=
  Lex.Whole .FLOAT_VAL (p.flt x) ∧ floatValue (String.ofList (p.flt x)) = x

/-- See `OkCmd`. -/
def OkNum (p : Pen) : Num → Prop
  | .int n => p.OkI n
  | .flt x => p.OkF x
  | .py e => OkPy e
  | .var x => OkName x

/-- See `OkCmd`. -/
def OkSc (p : Pen) : Sc → Prop
  | .str t => OkStr t
  | .num n => OkNum p n

/-- See `OkCmd`. -/
def OkSc2 (p : Pen) (q : Sc2) : Prop := OkSc p q.fst ∧ OkSc p q.snd

/-- See `OkCmd`. -/
def OkParam (p : Pen) : Param → Prop
  | .id t => OkName t
  | .str t => OkStr t
  | .int n => p.OkI n
  | .flt x => p.OkF x

mutual
/-- See `OkCmd`. -/
def OkParams (p : Pen) : Params → Prop
  | .one q => OkParam p q
  | .arr l => l ≠ [] ∧ ∀ q ∈ l, OkParam p q
  | .dict .nil => False
  | .dict (.cons b k v r) => OkEntries p (.cons b k v r)
/-- See `OkCmd`. -/
def OkEntries (p : Pen) : Entries → Prop
  | .nil => True
  | .cons b k v r => (if b then OkStr k else OkName k) ∧ OkParams p v ∧ OkEntries p r
end

/-- See `OkCmd`. -/
def OkFn : FnRef → Prop
  | .id t => OkName t
  | .var x => OkName x

/-- See `OkCmd`. -/
def OkIntArg (p : Pen) : IntArg → Prop
  | .int n => p.OkI n
  | .var x => OkName x
  | .py e => OkPy e

/-- See `OkCmd`. -/
def OkAt (p : Pen) : At → Prop
  | .floats l => l ≠ [] ∧ ∀ x ∈ l, p.OkF x
  | .range a i b => p.OkF a ∧ p.OkF i ∧ p.OkF b
  | .py e => OkPy e
  | .var x => OkName x
  | .counted a b _ n => p.OkF a ∧ p.OkF b ∧ p.OkI n

/-- See `OkCmd`. -/
def OkCol (p : Pen) : Col → Prop
  | .scalar s => OkSc p s
  | _ => True

/-- See `OkCmd`. -/
def OkCols (p : Pen) (c : Option (List Col)) : Prop := ∀ l ∈ c, l ≠ [] ∧ ∀ q ∈ l, OkCol p q

/-- See `OkCmd`. -/
def OkWhat : PrintWhat → Prop
  | .message t => OkStr t
  | .messagePy e => OkPy e
  | .messageVar x => OkName x
  | .function k i =>
    k ∈ ["detfn", "probfn", "im", "edp", "fragfn", "lossfn", "compgroup"] ∧ OkName i
  | _ => True

/-- See `OkCmd`. -/
def OkTo (o : Option PrintOpts) : Prop := ∀ q ∈ o, OkFile q.file

/-- See `OkCmd`. -/
def OkBody (p : Pen) : RecBody → Prop
  | .fn _ i a c => OkName i ∧ OkAt p a ∧ OkCols p c
  | .dsrate i => OkName i
  | .collrate i => OkName i
  | .rates _ i a => OkName i ∧ OkAt p a
  | .pdf i a _ => OkName i ∧ OkAt p a
  | .npv i a b c r => OkName i ∧ p.OkI a ∧ p.OkI b ∧ p.OkI c ∧ p.OkF r
  | .by_ _ i a c => OkName i ∧ OkAt p a ∧ OkCols p c
  | .annual i _ c => OkName i ∧ OkCols p c

/-- The names of a command are names, its strings are literals, its Python expressions are balanced,
the pen writes its numbers, and none of its lists is empty. -/
def OkCmd (p : Pen) : Cmd → Prop
  | .title t => OkStr t
  | .detfnHyperbolic i q c => OkName i ∧ OkSc2 p q ∧ OkSc p c
  | .detfnPowerlaw i q => OkName i ∧ OkSc2 p q
  | .detfnLoglog i l => OkName i ∧ l ≠ [] ∧ ∀ q ∈ l, OkSc2 p q
  | .detfnLinear i l => OkName i ∧ l ≠ [] ∧ ∀ q ∈ l, OkSc2 p q
  | .probfn i m s _ => OkName i ∧ OkFn m ∧ OkFn s
  | .im i f => OkName i ∧ OkName f
  | .edp i m f => OkName i ∧ OkName m ∧ OkName f
  | .dist _ i q _ => OkName i ∧ OkSc2 p q
  | .fragfnDb i f k => OkName i ∧ (∀ s ∈ f, OkFile s) ∧ OkName k
  | .fragfnUser i l _ => OkName i ∧ l ≠ [] ∧ ∀ q ∈ l, OkSc2 p q
  | .lossSimple i l _ => OkName i ∧ l ≠ [] ∧ ∀ q ∈ l, OkSc2 p q
  | .lossBilevel i l => OkName i ∧ l ≠ [] ∧
      ∀ b ∈ l, OkNum p b.a ∧ OkNum p b.b ∧ OkNum p b.c ∧ OkNum p b.d ∧ OkNum p b.e
  | .compgroup i e f c d n l => OkName i ∧ OkName e ∧ OkName f ∧ OkName c ∧ (∀ s ∈ d, OkName s) ∧
      p.OkI n ∧ l.length ≤ 2 ∧ ∀ x ∈ l, p.OkF x
  | .structure_ i l => OkName i ∧ l ≠ [] ∧ ∀ g ∈ l, OkName g
  | .print w o => OkWhat w ∧ OkTo o
  | .integration a n s => OkNum p a ∧ OkIntArg p n ∧ ∀ q ∈ s, OkIntArg p q.2
  | .recorder r b o => OkName r ∧ OkBody p b ∧ OkTo o
  | .set x (.py e) => OkName x ∧ OkPy e
  | .set x (.var v) => OkName x ∧ OkName v
  | .set x (.params q) => OkName x ∧ OkParams p q
  | .importProbfn i f => OkName i ∧ OkFile f
  | .importIm i f => OkName i ∧ OkFile f
  | .log _ f => ∀ s ∈ f, OkFile s
  | .inputdir d => OkFile d
  | .outputdir d => OkFile d
  | _ => True

/-! ## The shape of a command -/

mutual
/-- See `Shape`. -/
def ShapeParams : Params → Prop
  | .one _ => True
  | .arr l => l ≠ []
  | .dict .nil => False
  | .dict (.cons b k v r) => ShapeEntries (.cons b k v r)
/-- See `Shape`. -/
def ShapeEntries : Entries → Prop
  | .nil => True
  | .cons _ _ v r => ShapeParams v ∧ ShapeEntries r
end

/-- See `Shape`. -/
def ShapeAt : At → Prop
  | .floats l => l ≠ []
  | _ => True

/-- See `Shape`. -/
def ShapeCols (c : Option (List Col)) : Prop := ∀ l ∈ c, l ≠ []

/-- See `Shape`. -/
def ShapeBody : RecBody → Prop
  | .fn _ _ a c => ShapeAt a ∧ ShapeCols c
  | .rates _ _ a => ShapeAt a
  | .pdf _ a _ => ShapeAt a
  | .by_ _ _ a c => ShapeAt a ∧ ShapeCols c
  | .annual _ _ c => ShapeCols c
  | _ => True

/-- The lists of a command are not empty, a component group has at most two adjustments, and the
definitions that can be printed are those of the language. -/
def Shape : Cmd → Prop
  | .detfnLoglog _ l => l ≠ []
  | .detfnLinear _ l => l ≠ []
  | .fragfnUser _ l _ => l ≠ []
  | .lossSimple _ l _ => l ≠ []
  | .lossBilevel _ l => l ≠ []
  | .compgroup _ _ _ _ _ _ l => l.length ≤ 2
  | .structure_ _ l => l ≠ []
  | .print (.function k _) _ =>
    k ∈ ["detfn", "probfn", "im", "edp", "fragfn", "lossfn", "compgroup"]
  | .recorder _ b _ => ShapeBody b
  | .set _ (.params q) => ShapeParams q
  | _ => True

/-! ## What matters of a row of tokens -/

/-- What matters of a token: the texts of names, files and strings, the values of numbers, the
characters of Python expressions; of all other tokens, only which it is. -/
inductive Part
  | word (k : Kind)
  | name (t : List Char)
  | str (t : List Char)
  | int (n : ℕ)
  | flt (x : ℚ)
  | py (c : Char)

/-- The parts of a token. -/
def partOf : Tok → List Part
  | (.ID, t) => [.name t]
  | (.FILE_NAME, t) => [.name t]
  | (.STRING, t) => [.str t]
  | (.INTEGER, t) => [.int (intValue (String.ofList t))]
  | (.FLOAT_VAL, t) => [.flt (floatValue (String.ofList t))]
  | (.OTHER, t) => t.map .py
  | (.PYMODELPAREN, t) => t.map .py
  | (.NESTEDOTHER, t) => t.map .py
  | (.NESTEDLPAREN, t) => t.map .py
  | (.NESTEDRPAREN, t) => t.map .py
  | (k, _) => [.word k]

/-- The parts of a row of tokens. -/
def parts (u : List Tok) : List Part := u.flatMap partOf

end Slat.Gram
