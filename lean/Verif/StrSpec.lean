import Verif.StrModel

/-!
# String literals as the documentation has them

"Strings can also use escape sequences to include quotes or backslashes" (`slat-lang.org:145-149`):
between quotes `q`, a quote `q` or a backslash is written with a backslash before it, and
everything else as it is.
-/

namespace Slat.Lex

/-- The text `s` with a backslash before each quote `q` and each backslash. -/
def escape (q : Char) : List Char → List Char
  | [] => []
  | c :: s => if c = q ∨ c = '\\' then '\\' :: c :: escape q s else c :: escape q s

/-- The literal for the text `s` between quotes `q`. -/
def literal (q : Char) (s : List Char) : List Char := q :: (escape q s ++ [q])

/-- The two quotes. -/
def Quote (q : Char) : Prop := q = '\'' ∨ q = '"'

/-- The quote that is not `q`. -/
def other (q : Char) : Char := if q = '"' then '\'' else '"'

/-- `s` without its last characters `other q`; if what is left ends in `q`, that `q` becomes a
backslash. -/
def trimEnd (q : Char) (s : List Char) : List Char :=
  match s.reverse.dropWhile (fun c => c == other q) with
  | [] => []
  | c :: r => if c = q then r.reverse ++ ['\\'] else r.reverse ++ [c]

end Slat.Lex
