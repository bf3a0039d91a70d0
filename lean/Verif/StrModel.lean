import Verif.LexModel

/-!
# String literals: what the interpreter makes of the text of a `STRING` token
-/

namespace Slat.Lex

/-- The characters that `strip('\'"')` removes (`SlatInterpreter.py:24`). -/
def isQuote (c : Char) : Bool := c == '\'' || c == '"'

/-- `s.strip('\'"')`: all quotes at the start and at the end are removed
(`SlatInterpreter.py:24`). -/
def strip (s : List Char) : List Char := ((s.dropWhile isQuote).reverse.dropWhile isQuote).reverse

/-- `s.replace(ab, c)` for a two-character text `ab`: each occurrence, from the left, those found
not overlapping (`SlatInterpreter.py:24`). -/
def replace2 (a b c : Char) : List Char → List Char
  | [] => []
  | [x] => [x]
  | x :: y :: s => if x = a ∧ y = b then c :: replace2 a b c s else x :: replace2 a b c (y :: s)

/-- `preprocess_string` (`SlatInterpreter.py:23-24`), which makes the value of a string in a script
from the text of its token (`SlatInterpreter.py:77,122,163,455`). -/
def preprocess (s : List Char) : List Char :=
  replace2 '\\' '\\' '\\' (replace2 '\\' '\'' '\'' (replace2 '\\' '"' '"' (strip s)))

end Slat.Lex
