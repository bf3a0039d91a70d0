import Verif.GramProps

/-!
# C85: texts that users may expect to be accepted

Examples of the reference manual (`slat-lang.org`) and of `parser/test_cases` that the parser
rejects, each beside a text that it accepts.
-/

namespace Slat.Gram

open Slat.Interp

set_option maxRecDepth 10000

/-- The text is accepted as a script. -/
def Accepted (s : String) : Prop := (parse (Lex.tokens (Lex.lex s.toList))).isSome = true

instance (s : String) : Decidable (Accepted s) := inferInstanceAs (Decidable (_ = true))

/-- **C85.** The values of a recorder, the rate of `--npv` and the adjustments of a component group
cannot be written as integers: only a `FLOAT_VAL` is allowed there (`slatParser.g4:87,117,124-128`). -/
theorem integer_fails :
    (Accepted "recorder r imrate i 1.0, 2.0;" ∧ ¬ Accepted "recorder r imrate i 1, 2;") ∧
    (Accepted "recorder r imrate i 0.0:0.5:2.0;" ∧ ¬ Accepted "recorder r imrate i 0:0.5:2;") ∧
    (Accepted "recorder r structcost s --npv 1:1:9 0.0;" ∧
      ¬ Accepted "recorder r structcost s --npv 1:1:9 0;") ∧
    (Accepted "compgroup g e f l 10 1.0;" ∧ ¬ Accepted "compgroup g e f l 10 1;") := by
  decide +kernel

/-- **C85.** Forms that the manual shows and the grammar does not have
(`slat-lang.org:139,185,199,211,235,317-321,390,415`). -/
theorem manual_fails :
    (Accepted "detfn mu_func powerlaw 0.1, 1.5;" ∧ ¬ Accepted "detfn powerlaw mu_func 0.1, 1.5;") ∧
    (Accepted "probfn p lognormal m, s --mu median_x;" ∧
      ¬ Accepted "probfn p lognormal m s --mu median_x;") ∧
    (Accepted "probfn p lognormal m, s --mu mean_ln_x;" ∧
      ¬ Accepted "probfn p lognormal m, s --mu mu_ln_x;") ∧
    (Accepted "compgroup c1 edp1 frag1 loss1 10;" ∧ ¬ Accepted "comgrp c1 edp1 frag1 loss1 10;") ∧
    (Accepted "recorder r detfn f 0.0, 0.1;" ∧ ¬ Accepted "recorder detfn f 0.0, 0.1;") ∧
    (Accepted "title \"Example 1\";" ∧ ¬ Accepted "title \"Example 1\"") := by
  decide +kernel

/-- **C85.** A word of the vocabulary is never a name (`parser/test_cases/short_script2.slat` has
`mean_x`), a number cannot start with its point (`parser/test_cases/Comments.slat:3`), and `loglog`
cannot start a line. -/
theorem words_fails :
    (Accepted "im im1 f;" ∧ ¬ Accepted "im im f;") ∧
    (Accepted "probfn P lognormal Mean_x, S;" ∧ ¬ Accepted "probfn P lognormal mean_x, S;") ∧
    (Accepted "detfn f powerlaw 0.5, 1;" ∧ ¬ Accepted "detfn f powerlaw .5, 1;") ∧
    (Accepted "detfn f loglog [1, 1], [2, 2];" ∧ ¬ Accepted "detfn f\nloglog [1, 1], [2, 2];") := by
  decide +kernel

/-- **C85.** Characters that no rule of the lexer knows are no reason to reject a script; they are
left out. -/
theorem stray_fails : Accepted "im ?i @f =;" ∧
    parse (Lex.tokens (Lex.lex "im ?i @f =;".toList)) =
      parse (Lex.tokens (Lex.lex "im i f;".toList)) := by
  have h : Lex.tokens (Lex.lex "im ?i @f =;".toList) = Lex.tokens (Lex.lex "im i f;".toList) := by
    decide +kernel
  exact ⟨by decide +kernel, by rw [h]⟩

end Slat.Gram
