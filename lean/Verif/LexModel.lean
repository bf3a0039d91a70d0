/-!
# The lexer of the command language

A script given to `SlatInterpreter.py` is first cut into tokens by the lexer that ANTLR makes from
`slatLexer.g4`.  The rules are transcribed here one by one, in the order of the file, as regular
expressions; the way ANTLR runs them is modelled as follows.

* At each place, of all the rules of the current mode the one with the longest match is taken and,
  among rules with equally long matches, the one that comes first in the file.
* A token of a rule with `-> skip` is thrown away.
* When no rule matches, a message is printed and the text from that place through the first
  character at which no rule can go on is thrown away; lexing then goes on
  (`LexerNoViableAltException`, `Lexer.recover`).  The interpreter installs its
  `BailErrorStrategy` in the parser only (`SlatInterpreter.py:739-740`).
* `pushMode` and `popMode` keep the stack of modes; a pop of the empty stack raises an exception
  in ANTLR and is `crash` here.

ANTLR itself and the code that it generates are not modelled.  The text is a list of characters
(`InputStream` holds code points).
-/

namespace Slat.Lex

/-- The token types, in the order of the file (`slatLexer.g4:5-185`); the rules marked `fragment`
make no tokens. -/
inductive Kind
  | WS | COMMENT | PYTHON_ESCAPE | LOG | STDERR_FLAG | NOSTDERR_FLAG | LBRACE | RBRACE
  | LBRACKET | RBRACKET | LPAREN | RPAREN | INPUTDIR | OUTPUTDIR | TITLE | PRINT | DETFN
  | PROBFN | COLLAPSE | DEMOLITION | COLLRATE | IM | EDP | FRAGFN | LOSSFN | COMPGROUP
  | STRUCTURE | REBUILDCOST | DEMOLITIONCOST | IMRATE | EDPIM | EDPRATE | DSEDP | DSIM | LOSSDS
  | COSTEDP | DELAYIM | DELAYEDP | COSTIM | STRUCTCOST | DSRATE | ANNCOST | COSTRATE
  | TOTALCOST | PDF | DEAGG | APPEND_OPTION | NEW_OPTION | DOLLARS | MEAN_LN_X | MEDIAN_X
  | MEAN_X | SD_LN_X | SD_X | MAQ | BINARY | REVBIN | LOWREV | SCATTERED | DIRECTED
  | BY_FATE_FLAG | BY_EDP_FLAG | BY_FRAG_FLAG | ANNUAL_FLAG | NPV_FLAG | STRING | HYPERBOLIC
  | POWERLAW | LOGLOG | LINEAR | LINFLAG | LOGFLAG | COMMA | SEMICOLON | COLON | LOGNORMAL
  | DB_FLAG | STDFUNC_FLAG | MU_FLAG | SD_FLAG | SIMPLE | BILEVEL | COST | DISP | UPPER_COST
  | LOWER_COST | LOWER_N | UPPER_N | MEAN_UNCERT | VAR_UNCERT | MESSAGE | INTEGRATION
  | RECORDER | LAMBDA_FLAG | NORMALISE_FLAG | COLS_FLAG | ANALYZE | SET | IMPORTPROBFN
  | IMPORTIMFN | PLUS | MINUS | STAR | INTSTATS | RESET | SINGLE_QUOTED_STRING | INTEGER | ID
  | FLOAT_VAL | FILE_NAME | PYTHON_END | PYMODELPAREN | OTHER | NESTEDLPAREN | NESTEDRPAREN
  | NESTEDOTHER
  deriving DecidableEq, Repr

/-- Regular expressions over characters: what the bodies of the rules of `slatLexer.g4:5-185` are
made of.  `sat` is a set of characters. -/
inductive Rx
  | empty | eps
  | sat (f : Char → Bool)
  | alt (a b : Rx)
  | seq (a b : Rx)
  | star (a : Rx)

namespace Rx

/-- Does the expression match the empty text?  (Part of running the rules of
`slatLexer.g4:5-185`.) -/
def nullable : Rx → Bool
  | empty => false
  | eps => true
  | sat _ => false
  | alt a b => nullable a || nullable b
  | seq a b => nullable a && nullable b
  | star _ => true

/-- Choice, dropping branches that cannot match (running the rules of `slatLexer.g4:5-185`). -/
def mkAlt : Rx → Rx → Rx
  | empty, b => b
  | a, empty => a
  | a, b => alt a b

/-- Sequence, collapsing when a part cannot match or matches only the empty text (running the rules
of `slatLexer.g4:5-185`). -/
def mkSeq : Rx → Rx → Rx
  | empty, _ => empty
  | _, empty => empty
  | eps, b => b
  | a, b => seq a b

/-- What remains to be matched after the character `c` (running the rules of
`slatLexer.g4:5-185`). -/
def deriv (c : Char) : Rx → Rx
  | empty => empty
  | eps => empty
  | sat f => if f c then eps else empty
  | alt a b => mkAlt (deriv c a) (deriv c b)
  | seq a b =>
    if nullable a then mkAlt (mkSeq (deriv c a) b) (deriv c b) else mkSeq (deriv c a) b
  | star a => mkSeq (deriv c a) (star a)

/-- Can the expression match nothing at all any more?  (No state of the automaton is left, running
the rules of `slatLexer.g4:5-185`; every set of characters used there has a member.) -/
def dead : Rx → Bool
  | empty => true
  | eps => false
  | sat _ => false
  | alt a b => dead a && dead b
  | seq a b => dead a || dead b
  | star _ => false

/-- The length of the longest match at the start of a text, if there is one (running the rules of
`slatLexer.g4:5-185`). -/
def longest : Rx → List Char → Option Nat
  | empty, _ => none
  | r, [] => if nullable r then some 0 else none
  | r, c :: s =>
    match longest (deriv c r) s with
    | some n => some (n + 1)
    | none => if nullable r then some 0 else none

/-- One character (`'c'` in `slatLexer.g4:5-185`). -/
def chr (c : Char) : Rx := sat (fun d => d == c)

/-- A literal (`'...'` in `slatLexer.g4:14-125`). -/
def lit : List Char → Rx
  | [] => eps
  | c :: s => seq (chr c) (lit s)

/-- `r?` (`slatLexer.g4:161,167,173`). -/
def opt (r : Rx) : Rx := alt r eps

/-- `r+` (`slatLexer.g4:158,170,175`). -/
def plus (r : Rx) : Rx := seq r (star r)

end Rx

open Rx

/-- A range of characters in a set (`[a-z]`, `slatLexer.g4:153,156,158,175`). -/
def inRange (a b c : Char) : Bool := a.val ≤ c.val && c.val ≤ b.val

/-- `Digit : [0-9]` (`slatLexer.g4:155-156`). -/
def digit (c : Char) : Bool := inRange '0' '9' c

/-- `Nondigit : [a-zA-Z_.]` (`slatLexer.g4:152-153`). -/
def nondigit (c : Char) : Bool :=
  inRange 'a' 'z' c || inRange 'A' 'Z' c || c == '_' || c == '.'

/-- The characters of `FILE_NAME`, `[/a-zA-Z_.0-9]` (`slatLexer.g4:175`). -/
def fileChar (c : Char) : Bool :=
  c == '/' || inRange 'a' 'z' c || inRange 'A' 'Z' c || c == '_' || c == '.' || inRange '0' '9' c

/-- `COMMENT : '#' ~[\r\n]*` (`slatLexer.g4:12`). -/
def commentRx : Rx := seq (chr '#') (star (sat fun c => c != '\r' && c != '\n'))

/-- `WS`, which includes comments (`slatLexer.g4:5-11`). -/
def wsRx : Rx :=
  alt (chr ' ') (alt (chr '\t') (alt (chr '\r') (alt (chr '\n') commentRx)))

/-- `SQ_UNESCAPED_CHAR : ~[']`, which includes the backslash, and `SQ_ESCAPED_CHAR`
(`slatLexer.g4:136-140`). -/
def sqBody : Rx :=
  alt (sat fun c => c != '\'') (alt (lit ['\\', '\'']) (lit ['\\', '\\']))

/-- `SINGLE_QUOTED_STRING` (`slatLexer.g4:128,133-134`). -/
def sqRx : Rx := seq (chr '\'') (seq (star sqBody) (chr '\''))

/-- `DQ_UNESCAPED_CHAR : ~[\\"]` and `DQ_ESCAPED_CHAR` (`slatLexer.g4:145-149`). -/
def dqBody : Rx :=
  alt (sat fun c => c != '\\' && c != '"') (alt (lit ['\\', '"']) (lit ['\\', '\\']))

/-- `DOUBLE_QUOTED_STRING` (`slatLexer.g4:130-131,142-143`). -/
def dqRx : Rx := seq (chr '"') (seq (star dqBody) (chr '"'))

/-- `STRING` (`slatLexer.g4:85`). -/
def stringRx : Rx := alt sqRx dqRx

/-- `INTEGER : [0-9]+` (`slatLexer.g4:158`). -/
def integerRx : Rx := plus (sat digit)

/-- `ID : Nondigit (Nondigit | Digit)*` (`slatLexer.g4:160`). -/
def idRx : Rx := seq (sat nondigit) (star (alt (sat nondigit) (sat digit)))

/-- `SIGN: '-' | '+'` (`slatLexer.g4:163-164`). -/
def signRx : Rx := alt (chr '-') (chr '+')

/-- `DIGIT_SEQUENCE : Digit+` (`slatLexer.g4:169-170`). -/
def digitsRx : Rx := plus (sat digit)

/-- `FRACTION` (`slatLexer.g4:166-167`). -/
def fractionRx : Rx :=
  alt (seq digitsRx (opt (seq (chr '.') (opt digitsRx)))) (seq (chr '.') digitsRx)

/-- `EXPONENT` (`slatLexer.g4:172-173`). -/
def exponentRx : Rx := seq (alt (chr 'e') (chr 'E')) (seq (opt signRx) digitsRx)

/-- `FLOAT_VAL: SIGN? FRACTION EXPONENT?` (`slatLexer.g4:161`). -/
def floatRx : Rx := seq (opt signRx) (seq fractionRx (opt exponentRx))

/-- `FILE_NAME : [/a-zA-Z_.0-9]+` (`slatLexer.g4:175`). -/
def fileRx : Rx := plus (sat fileChar)

/-- The rules that are literals and come before `STRING` (`slatLexer.g4:14-83`). -/
def literals1 : List (Kind × List Char) :=
  [(.PYTHON_ESCAPE, ['$', '(']),
   (.LOG, ['l', 'o', 'g']),
   (.STDERR_FLAG, ['-', '-', 's', 't', 'd', 'e', 'r', 'r']),
   (.NOSTDERR_FLAG, ['-', '-', 'n', 'o', 's', 't', 'd', 'e', 'r', 'r']),
   (.LBRACE, ['{']),
   (.RBRACE, ['}']),
   (.LBRACKET, ['[']),
   (.RBRACKET, [']']),
   (.LPAREN, ['(']),
   (.RPAREN, [')']),
   (.INPUTDIR, ['i', 'n', 'p', 'u', 't', 'd', 'i', 'r']),
   (.OUTPUTDIR, ['o', 'u', 't', 'p', 'u', 't', 'd', 'i', 'r']),
   (.TITLE, ['t', 'i', 't', 'l', 'e']),
   (.PRINT, ['p', 'r', 'i', 'n', 't']),
   (.DETFN, ['d', 'e', 't', 'f', 'n']),
   (.PROBFN, ['p', 'r', 'o', 'b', 'f', 'n']),
   (.COLLAPSE, ['c', 'o', 'l', 'l', 'a', 'p', 's', 'e']),
   (.DEMOLITION, ['d', 'e', 'm', 'o', 'l', 'i', 't', 'i', 'o', 'n']),
   (.COLLRATE, ['c', 'o', 'l', 'l', 'r', 'a', 't', 'e']),
   (.IM, ['i', 'm']),
   (.EDP, ['e', 'd', 'p']),
   (.FRAGFN, ['f', 'r', 'a', 'g', 'f', 'n']),
   (.LOSSFN, ['l', 'o', 's', 's', 'f', 'n']),
   (.COMPGROUP, ['c', 'o', 'm', 'p', 'g', 'r', 'o', 'u', 'p']),
   (.STRUCTURE, ['s', 't', 'r', 'u', 'c', 't', 'u', 'r', 'e']),
   (.REBUILDCOST, ['r', 'e', 'b', 'u', 'i', 'l', 'd', 'c', 'o', 's', 't']),
   (.DEMOLITIONCOST, ['d', 'e', 'm', 'o', 'l', 'i', 't', 'i', 'o', 'n', 'c', 'o', 's', 't']),
   (.IMRATE, ['i', 'm', 'r', 'a', 't', 'e']),
   (.EDPIM, ['e', 'd', 'p', 'i', 'm']),
   (.EDPRATE, ['e', 'd', 'p', 'r', 'a', 't', 'e']),
   (.DSEDP, ['d', 's', 'e', 'd', 'p']),
   (.DSIM, ['d', 's', 'i', 'm']),
   (.LOSSDS, ['l', 'o', 's', 's', 'd', 's']),
   (.COSTEDP, ['c', 'o', 's', 't', 'e', 'd', 'p']),
   (.DELAYIM, ['d', 'e', 'l', 'a', 'y', 'i', 'm']),
   (.DELAYEDP, ['d', 'e', 'l', 'a', 'y', 'e', 'd', 'p']),
   (.COSTIM, ['c', 'o', 's', 't', 'i', 'm']),
   (.STRUCTCOST, ['s', 't', 'r', 'u', 'c', 't', 'c', 'o', 's', 't']),
   (.DSRATE, ['d', 's', 'r', 'a', 't', 'e']),
   (.ANNCOST, ['a', 'n', 'n', 'c', 'o', 's', 't']),
   (.COSTRATE, ['c', 'o', 's', 't', 'r', 'a', 't', 'e']),
   (.TOTALCOST, ['t', 'o', 't', 'a', 'l', 'c', 'o', 's', 't']),
   (.PDF, ['p', 'd', 'f']),
   (.DEAGG, ['d', 'e', 'a', 'g', 'g']),
   (.APPEND_OPTION, ['-', '-', 'a', 'p', 'p', 'e', 'n', 'd']),
   (.NEW_OPTION, ['-', '-', 'n', 'e', 'w']),
   (.DOLLARS, ['$']),
   (.MEAN_LN_X, ['m', 'e', 'a', 'n', '_', 'l', 'n', '_', 'x']),
   (.MEDIAN_X, ['m', 'e', 'd', 'i', 'a', 'n', '_', 'x']),
   (.MEAN_X, ['m', 'e', 'a', 'n', '_', 'x']),
   (.SD_LN_X, ['s', 'd', '_', 'l', 'n', '_', 'x']),
   (.SD_X, ['s', 'd', '_', 'x']),
   (.MAQ, ['m', 'a', 'q']),
   (.BINARY, ['b', 'i', 'n', 'a', 'r', 'y']),
   (.REVBIN, ['r', 'e', 'v', 'b', 'i', 'n']),
   (.LOWREV, ['l', 'o', 'w', 'r', 'e', 'v']),
   (.SCATTERED, ['s', 'c', 'a', 't', 't', 'e', 'r', 'e', 'd']),
   (.DIRECTED, ['d', 'i', 'r', 'e', 'c', 't', 'e', 'd']),
   (.BY_FATE_FLAG, ['-', '-', 'b', 'y', '-', 'f', 'a', 't', 'e']),
   (.BY_EDP_FLAG, ['-', '-', 'b', 'y', '-', 'e', 'd', 'p']),
   (.BY_FRAG_FLAG, ['-', '-', 'b', 'y', '-', 'f', 'r', 'a', 'g']),
   (.ANNUAL_FLAG, ['-', '-', 'a', 'n', 'n', 'u', 'a', 'l']),
   (.NPV_FLAG, ['-', '-', 'n', 'p', 'v'])]

/-- The rules that are literals and come after `STRING` (`slatLexer.g4:87-125`).  `LOGLOG` begins with
a blank in the file (`slatLexer.g4:89`). -/
def literals2 : List (Kind × List Char) :=
  [(.HYPERBOLIC, ['h', 'y', 'p', 'e', 'r', 'b', 'o', 'l', 'i', 'c']),
   (.POWERLAW, ['p', 'o', 'w', 'e', 'r', 'l', 'a', 'w']),
   (.LOGLOG, [' ', 'l', 'o', 'g', 'l', 'o', 'g']),
   (.LINEAR, ['l', 'i', 'n', 'e', 'a', 'r']),
   (.LINFLAG, ['-', '-', 'l', 'i', 'n', 'e', 'a', 'r']),
   (.LOGFLAG, ['-', '-', 'l', 'o', 'g']),
   (.COMMA, [',']),
   (.SEMICOLON, [';']),
   (.COLON, [':']),
   (.LOGNORMAL, ['l', 'o', 'g', 'n', 'o', 'r', 'm', 'a', 'l']),
   (.DB_FLAG, ['-', '-', 'd', 'b']),
   (.STDFUNC_FLAG, ['-', '-', 's', 't', 'd', 'f', 'u', 'n', 'c']),
   (.MU_FLAG, ['-', '-', 'm', 'u']),
   (.SD_FLAG, ['-', '-', 's', 'd']),
   (.SIMPLE, ['s', 'i', 'm', 'p', 'l', 'e']),
   (.BILEVEL, ['b', 'i', 'l', 'e', 'v', 'e', 'l']),
   (.COST, ['c', 'o', 's', 't']),
   (.DISP, ['d', 'i', 's', 'p']),
   (.UPPER_COST, ['u', 'p', 'p', 'e', 'r', '_', 'c', 'o', 's', 't']),
   (.LOWER_COST, ['l', 'o', 'w', 'e', 'r', '_', 'c', 'o', 's', 't']),
   (.LOWER_N, ['l', 'o', 'w', 'e', 'r', '_', 'n']),
   (.UPPER_N, ['u', 'p', 'p', 'e', 'r', '_', 'n']),
   (.MEAN_UNCERT, ['m', 'e', 'a', 'n', '_', 'u', 'n', 'c', 'e', 'r', 't']),
   (.VAR_UNCERT, ['v', 'a', 'r', '_', 'u', 'n', 'c', 'e', 'r', 't']),
   (.MESSAGE, ['m', 'e', 's', 's', 'a', 'g', 'e']),
   (.INTEGRATION, ['i', 'n', 't', 'e', 'g', 'r', 'a', 't', 'i', 'o', 'n']),
   (.RECORDER, ['r', 'e', 'c', 'o', 'r', 'd', 'e', 'r']),
   (.LAMBDA_FLAG, ['-', '-', 'l', 'a', 'm', 'b', 'd', 'a']),
   (.NORMALISE_FLAG, ['-', '-', 'n', 'o', 'r', 'm', 'a', 'l', 'i', 's', 'e']),
   (.COLS_FLAG, ['-', '-', 'c', 'o', 'l', 's']),
   (.ANALYZE, ['a', 'n', 'a', 'l', 'y', 'z', 'e']),
   (.SET, ['s', 'e', 't']),
   (.IMPORTPROBFN, ['i', 'm', 'p', 'o', 'r', 't', 'p', 'r', 'o', 'b', 'f', 'n']),
   (.IMPORTIMFN, ['i', 'm', 'p', 'o', 'r', 't', 'i', 'm', 'f', 'n']),
   (.PLUS, ['+']),
   (.MINUS, ['-']),
   (.STAR, ['*']),
   (.INTSTATS, ['i', 'n', 't', 's', 't', 'a', 't', 's']),
   (.RESET, ['r', 'e', 's', 'e', 't'])]

/-- The rule of a literal (`slatLexer.g4:14-125`). -/
def litRule (p : Kind × List Char) : Kind × Rx := (p.1, lit p.2)

/-- The rules of the mode in which the lexer starts, in the order of the file
(`slatLexer.g4:5-175`). -/
def mainRules : List (Kind × Rx) :=
  [(.WS, wsRx), (.COMMENT, commentRx)] ++ literals1.map litRule ++ [(.STRING, stringRx)] ++
    literals2.map litRule ++
    [(.SINGLE_QUOTED_STRING, sqRx), (.INTEGER, integerRx), (.ID, idRx), (.FLOAT_VAL, floatRx),
      (.FILE_NAME, fileRx)]

/-- `.`, any character (`slatLexer.g4:181,185`). -/
def anyRx : Rx := sat fun _ => true

/-- The rules of `PYMODE` (`slatLexer.g4:178-181`). -/
def pyRules : List (Kind × Rx) :=
  [(.PYTHON_END, lit [')']), (.PYMODELPAREN, lit ['(']), (.OTHER, anyRx)]

/-- The rules of `NESTEDPYMODE` (`slatLexer.g4:182-185`). -/
def nestedRules : List (Kind × Rx) :=
  [(.NESTEDLPAREN, lit ['(']), (.NESTEDRPAREN, lit [')']), (.NESTEDOTHER, anyRx)]

/-- The modes of the lexer (`slatLexer.g4:3,178,182`). -/
inductive Mode
  | main | py | nested
  deriving DecidableEq, Repr

/-- The rules of a mode (`slatLexer.g4:3,178,182`). -/
def rulesOf : Mode → List (Kind × Rx)
  | .main => mainRules
  | .py => pyRules
  | .nested => nestedRules

/-- The rule to apply and the length of its match: the longest match and, among equally long ones,
the first rule of the file (ANTLR's lexer on `slatLexer.g4:5-185`). -/
def best : List (Kind × Rx) → List Char → Option (Kind × Nat)
  | [], _ => none
  | (k, r) :: rs, s =>
    match longest r s, best rs s with
    | none, b => b
    | some n, none => some (k, n)
    | some n, some (k', m) => if n < m then some (k', m) else some (k, n)

/-- How many characters can be read before no rule can go on (ANTLR's lexer on
`slatLexer.g4:5-185`). -/
def viable (rs : List Rx) : List Char → Nat
  | [] => 0
  | c :: s =>
    if (rs.map (deriv c)).all dead then 0 else viable (rs.map (deriv c)) s + 1

/-- A mode and the modes below it on the stack (`pushMode`, `popMode`,
`slatLexer.g4:14,179-180,183-184`). -/
structure Stack where
  cur : Mode
  below : List Mode
  deriving DecidableEq, Repr

/-- What the commands after `->` do to the stack; `none` is the exception raised when the empty
stack is popped (`slatLexer.g4:14,179-180,183-184`). -/
def act (k : Kind) (m : Stack) : Option Stack :=
  match k with
  | .PYTHON_ESCAPE => some ⟨.py, m.cur :: m.below⟩
  | .PYMODELPAREN => some ⟨.nested, m.cur :: m.below⟩
  | .NESTEDLPAREN => some ⟨.nested, m.cur :: m.below⟩
  | .PYTHON_END | .NESTEDRPAREN =>
    match m.below with
    | [] => none
    | c :: b => some ⟨c, b⟩
  | _ => some m

/-- What becomes of a stretch of text: a token for the parser, text skipped, text dropped with an
error message, or the end of the lexer by an exception (ANTLR's lexer on `slatLexer.g4:5-185`). -/
inductive Item
  | tok (k : Kind) (t : List Char)
  | skip (t : List Char)
  | bad (t : List Char)
  | crash (t : List Char)
  deriving DecidableEq, Repr

/-- The token of a rule, thrown away for `-> skip` (`slatLexer.g4:10`). -/
def item (k : Kind) (t : List Char) : Item :=
  match k with
  | .WS => .skip t
  | k => .tok k t

/-- The lexer, at a place with the text `s` still to come; `fuel` bounds the number of steps and
`lex` gives it one step for each character (`Lexer.nextToken` on `slatLexer.g4:5-185`).  A match of
the empty text would keep ANTLR at the same place for ever; no rule has one (`rules_not_nullable`).
-/
def lexF : Nat → Stack → List Char → List Item
  | _, _, [] => []
  | 0, _, s => [.crash s]
  | fuel + 1, m, c :: s =>
    match best (rulesOf m.cur) (c :: s) with
    | some (k, n + 1) =>
      let t := (c :: s).take (n + 1)
      match act k m with
      | none => [.crash (c :: s)]
      | some m' => item k t :: lexF fuel m' (s.drop n)
    | _ =>
      let n := viable ((rulesOf m.cur).map (·.2)) (c :: s)
      .bad ((c :: s).take (n + 1)) :: lexF fuel m (s.drop n)

/-- The lexer on a whole text (`SlatInterpreter.py:736-738`: `InputStream`, `slatLexer`,
`CommonTokenStream`). -/
def lex (s : List Char) : List Item := lexF s.length ⟨.main, []⟩ s

/-- The tokens that the parser receives (`SlatInterpreter.py:738-739`). -/
def tokens : List Item → List (Kind × List Char)
  | [] => []
  | .tok k t :: r => (k, t) :: tokens r
  | .skip _ :: r => tokens r
  | .bad _ :: r => tokens r
  | .crash _ :: r => tokens r

end Slat.Lex
