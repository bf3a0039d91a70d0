import Verif.LexModel

/-!
# What a script means as a row of tokens

Stated without the regular expressions of the lexer: character classes are those of the standard
library, and `Written` says what a user may write for a row of tokens.
-/

namespace Slat.Lex

/-! ## The texts that a regular expression matches -/

/-- The texts matched by a regular expression, by the usual definition. -/
inductive Rx.Lang : Rx → List Char → Prop
  | eps : Lang .eps []
  | sat {f : Char → Bool} {c : Char} : f c = true → Lang (.sat f) [c]
  | altL {a b : Rx} {s : List Char} : Lang a s → Lang (.alt a b) s
  | altR {a b : Rx} {s : List Char} : Lang b s → Lang (.alt a b) s
  | seq {a b : Rx} {s t : List Char} : Lang a s → Lang b t → Lang (.seq a b) (s ++ t)
  | nil {a : Rx} : Lang (.star a) []
  | cons {a : Rx} {s t : List Char} : Lang a s → Lang (.star a) t → Lang (.star a) (s ++ t)

/-- The text of an item. -/
def Item.text : Item → List Char
  | .tok _ t => t
  | .skip t => t
  | .bad t => t
  | .crash t => t

/-- No text was dropped with an error message and the lexer came to the end. -/
def Clean (l : List Item) : Prop := ∀ i ∈ l, (∃ k t, i = .tok k t) ∨ ∃ t, i = .skip t

/-- `k`, the `n`-character start of `s`, is what a lexer with the rules `rs` has to take: the rule
matches it, no rule matches a longer start, and no earlier rule matches the same start. -/
def Takes (rs : List (Kind × Rx)) (s : List Char) (k : Kind) (n : Nat) : Prop :=
  ∃ before r after, rs = before ++ (k, r) :: after ∧ n ≤ s.length ∧ r.Lang (s.take n) ∧
    (∀ p ∈ rs, ∀ m ≤ s.length, p.2.Lang (s.take m) → m ≤ n) ∧
    ∀ p ∈ before, ¬ p.2.Lang (s.take n)

/-- Some rule matches a text that starts with `t`. -/
def Viable (rs : List (Kind × Rx)) (t : List Char) : Prop := ∃ p ∈ rs, ∃ u, p.2.Lang (t ++ u)

/-- `Lexes m s l`: a lexer at the text `s` with the stack of modes `m` makes the items `l`, by the
rules of ANTLR: the longest match of the first rule is taken; where no rule matches anything, the
text as far as some rule could have gone on is dropped, with the character after it. -/
inductive Lexes : Stack → List Char → List Item → Prop
  | nil {m : Stack} : Lexes m [] []
  | take {m m' : Stack} {s : List Char} {k : Kind} {n : Nat} {l : List Item} :
      Takes (rulesOf m.cur) s k n → act k m = some m' → Lexes m' (s.drop n) l →
      Lexes m s (item k (s.take n) :: l)
  | drop {m : Stack} {s : List Char} {n : Nat} {l : List Item} :
      (∀ p ∈ rulesOf m.cur, ∀ j ≤ s.length, ¬ p.2.Lang (s.take j)) → n < s.length →
      Viable (rulesOf m.cur) (s.take n) →
      (¬ Viable (rulesOf m.cur) (s.take (n + 1)) ∨ n + 1 = s.length) →
      Lexes m (s.drop (n + 1)) l → Lexes m s (.bad (s.take (n + 1)) :: l)

/-! ## Words -/

/-- The keywords, options and punctuation of the language, other than `loglog` and `$(`. -/
def vocabulary : List (Kind × String) :=
  [(.LOG, "log"), (.STDERR_FLAG, "--stderr"), (.NOSTDERR_FLAG, "--nostderr"), (.LBRACE, "{"),
   (.RBRACE, "}"), (.LBRACKET, "["), (.RBRACKET, "]"), (.LPAREN, "("), (.RPAREN, ")"),
   (.INPUTDIR, "inputdir"), (.OUTPUTDIR, "outputdir"), (.TITLE, "title"), (.PRINT, "print"),
   (.DETFN, "detfn"), (.PROBFN, "probfn"), (.COLLAPSE, "collapse"), (.DEMOLITION, "demolition"),
   (.COLLRATE, "collrate"), (.IM, "im"), (.EDP, "edp"), (.FRAGFN, "fragfn"), (.LOSSFN, "lossfn"),
   (.COMPGROUP, "compgroup"), (.STRUCTURE, "structure"), (.REBUILDCOST, "rebuildcost"),
   (.DEMOLITIONCOST, "demolitioncost"), (.IMRATE, "imrate"), (.EDPIM, "edpim"),
   (.EDPRATE, "edprate"), (.DSEDP, "dsedp"), (.DSIM, "dsim"), (.LOSSDS, "lossds"),
   (.COSTEDP, "costedp"), (.DELAYIM, "delayim"), (.DELAYEDP, "delayedp"), (.COSTIM, "costim"),
   (.STRUCTCOST, "structcost"), (.DSRATE, "dsrate"), (.ANNCOST, "anncost"),
   (.COSTRATE, "costrate"), (.TOTALCOST, "totalcost"), (.PDF, "pdf"), (.DEAGG, "deagg"),
   (.APPEND_OPTION, "--append"), (.NEW_OPTION, "--new"), (.DOLLARS, "$"),
   (.MEAN_LN_X, "mean_ln_x"), (.MEDIAN_X, "median_x"), (.MEAN_X, "mean_x"),
   (.SD_LN_X, "sd_ln_x"), (.SD_X, "sd_x"), (.MAQ, "maq"), (.BINARY, "binary"),
   (.REVBIN, "revbin"), (.LOWREV, "lowrev"), (.SCATTERED, "scattered"), (.DIRECTED, "directed"),
   (.BY_FATE_FLAG, "--by-fate"), (.BY_EDP_FLAG, "--by-edp"), (.BY_FRAG_FLAG, "--by-frag"),
   (.ANNUAL_FLAG, "--annual"), (.NPV_FLAG, "--npv"), (.HYPERBOLIC, "hyperbolic"),
   (.POWERLAW, "powerlaw"), (.LINEAR, "linear"), (.LINFLAG, "--linear"), (.LOGFLAG, "--log"),
   (.COMMA, ","), (.SEMICOLON, ";"), (.COLON, ":"), (.LOGNORMAL, "lognormal"),
   (.DB_FLAG, "--db"), (.STDFUNC_FLAG, "--stdfunc"), (.MU_FLAG, "--mu"), (.SD_FLAG, "--sd"),
   (.SIMPLE, "simple"), (.BILEVEL, "bilevel"), (.COST, "cost"), (.DISP, "disp"),
   (.UPPER_COST, "upper_cost"), (.LOWER_COST, "lower_cost"), (.LOWER_N, "lower_n"),
   (.UPPER_N, "upper_n"), (.MEAN_UNCERT, "mean_uncert"), (.VAR_UNCERT, "var_uncert"),
   (.MESSAGE, "message"), (.INTEGRATION, "integration"), (.RECORDER, "recorder"),
   (.LAMBDA_FLAG, "--lambda"), (.NORMALISE_FLAG, "--normalise"), (.COLS_FLAG, "--cols"),
   (.ANALYZE, "analyze"), (.SET, "set"), (.IMPORTPROBFN, "importprobfn"),
   (.IMPORTIMFN, "importimfn"), (.PLUS, "+"), (.MINUS, "-"), (.STAR, "*"),
   (.INTSTATS, "intstats"), (.RESET, "reset")]

/-- `t` is a word of the vocabulary. -/
def Reserved (t : List Char) : Prop := ∃ p ∈ vocabulary, p.2.toList = t

/-- A letter, an underscore or a full stop: what a name may start with. -/
def NameStart (c : Char) : Prop := c.isAlpha = true ∨ c = '_' ∨ c = '.'

/-- A character of a name. -/
def NameChar (c : Char) : Prop := NameStart c ∨ c.isDigit = true

/-- A name: `detfn1`, `my.func`, ... -/
def IsName (t : List Char) : Prop :=
  ∃ c r, t = c :: r ∧ NameStart c ∧ ∀ d ∈ r, NameChar d

/-- One or more digits. -/
def Digits (t : List Char) : Prop := t ≠ [] ∧ ∀ c ∈ t, c.isDigit = true

/-- Nothing, `+` or `-`. -/
def Sign (t : List Char) : Prop := t = [] ∨ t = ['+'] ∨ t = ['-']

/-- `12`, `12.`, `12.5` or `.5`. -/
def Mantissa (t : List Char) : Prop :=
  Digits t ∨ (∃ a, Digits a ∧ t = a ++ ['.']) ∨
    (∃ a b, Digits a ∧ Digits b ∧ t = a ++ '.' :: b) ∨ ∃ b, Digits b ∧ t = '.' :: b

/-- Nothing, or `e`, a sign and digits. -/
def Exponent (t : List Char) : Prop :=
  t = [] ∨ ∃ e g d, (e = 'e' ∨ e = 'E') ∧ Sign g ∧ Digits d ∧ t = e :: (g ++ d)

/-- A number: sign, mantissa, exponent. -/
def IsNumber (t : List Char) : Prop :=
  ∃ g m x, Sign g ∧ Mantissa m ∧ Exponent x ∧ t = g ++ m ++ x

/-- A path: characters of names and slashes. -/
def IsPath (t : List Char) : Prop := t ≠ [] ∧ ∀ c ∈ t, NameChar c ∨ c = '/'

/-- Characters that may continue a word, a number, a path or an option. -/
def Joins (c : Char) : Prop := NameChar c ∨ c = '/' ∨ c = '+' ∨ c = '-'

/-- The inside of a single-quoted string: a quote only after a backslash, and no backslash at the
end. -/
def Single (b : List Char) : Prop :=
  (∀ u v, b = u ++ '\'' :: v → u.getLast? = some '\\') ∧ b.getLast? ≠ some '\\'

/-- The inside of a double-quoted string: quotes and backslashes come with a backslash. -/
inductive Double : List Char → Prop
  | nil : Double []
  | plain {c : Char} {s : List Char} : c ≠ '"' → c ≠ '\\' → Double s → Double (c :: s)
  | esc {c : Char} {s : List Char} : (c = '"' ∨ c = '\\') → Double s → Double ('\\' :: c :: s)

/-- `t`, standing by itself, is a token of type `k`. -/
inductive Whole : Kind → List Char → Prop
  | word {k : Kind} {w : String} : (k, w) ∈ vocabulary → Whole k w.toList
  | loglog : Whole .LOGLOG " loglog".toList
  | integer {t : List Char} : Digits t → Whole .INTEGER t
  | name {t : List Char} : IsName t → ¬ Reserved t → Whole .ID t
  | number {t : List Char} : IsNumber t → ¬ Digits t → ¬ IsName t → Whole .FLOAT_VAL t
  | path {t : List Char} : IsPath t → ¬ IsName t → ¬ IsNumber t → Whole .FILE_NAME t
  | single {b : List Char} : Single b → Whole .STRING ('\'' :: (b ++ ['\'']))
  | double {b : List Char} : Double b → Whole .STRING ('"' :: (b ++ ['"']))

/-- The text `s` may follow the token text `t` without a blank between them. -/
def Apart (t s : List Char) : Prop :=
  ∀ l c, t.getLast? = some l → s.head? = some c →
    (Joins l → ¬ Joins c) ∧ (t = ['$'] → c ≠ '(')

/-! ## Python expressions -/

/-- Text in which the parentheses are balanced. -/
inductive Balanced : List Char → Prop
  | nil : Balanced []
  | plain {c : Char} {s : List Char} : c ≠ '(' → c ≠ ')' → Balanced s → Balanced (c :: s)
  | paren {a s : List Char} : Balanced a → Balanced s → Balanced ('(' :: (a ++ ')' :: s))

/-- The tokens of the text inside `$( ... )`, one for each character; `d` counts the parentheses
that are open. -/
def pyTokens : Nat → List Char → List (Kind × List Char)
  | _, [] => []
  | d, c :: s =>
    if c = '(' then ((if d = 0 then .PYMODELPAREN else .NESTEDLPAREN), [c]) :: pyTokens (d + 1) s
    else if c = ')' then (.NESTEDRPAREN, [c]) :: pyTokens (d - 1) s
    else ((if d = 0 then .OTHER else .NESTEDOTHER), [c]) :: pyTokens d s

/-! ## Scripts -/

/-- A blank, a tab or the end of a line. -/
def Blank (c : Char) : Prop := c = ' ' ∨ c = '\t' ∨ c = '\r' ∨ c = '\n'

/-- The end of the text or of a line. -/
def LineEnd (s : List Char) : Prop := ∀ c, s.head? = some c → c = '\r' ∨ c = '\n'

/-- `Written ts s`: the text `s` writes the row of tokens `ts`.  Tokens may be surrounded by blanks
and comments, and need them only where the characters would run together (`Apart`). -/
inductive Written : List (Kind × List Char) → List Char → Prop
  | nil : Written [] []
  | blank {ts : List (Kind × List Char)} {c : Char} {s : List Char} :
      Blank c → ¬ " loglog".toList <+: c :: s → Written ts s → Written ts (c :: s)
  | comment {ts : List (Kind × List Char)} {b s : List Char} :
      (∀ c ∈ b, c ≠ '\r' ∧ c ≠ '\n') → LineEnd s → Written ts s → Written ts ('#' :: (b ++ s))
  | tok {ts : List (Kind × List Char)} {k : Kind} {t s : List Char} :
      Whole k t → Apart t s → Written ts s → Written ((k, t) :: ts) (t ++ s)
  | python {ts : List (Kind × List Char)} {b s : List Char} :
      Balanced b → Written ts s →
      Written ((.PYTHON_ESCAPE, "$(".toList) :: (pyTokens 0 b ++ (.PYTHON_END, [')']) :: ts))
        ('$' :: '(' :: (b ++ ')' :: s))

end Slat.Lex
