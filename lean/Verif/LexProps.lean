import Verif.LexWritten

/-!
# C83: scripts are cut into the tokens that they write
-/

namespace Slat.Lex

open Rx

set_option maxRecDepth 10000

/-- **C83.** No text is lost or made up: the items of a script, put one after the other, are the
script. -/
theorem lex_lossless (s : List Char) : (lex s).flatMap Item.text = s := by
  have key : ∀ f (m : Stack) (s : List Char), (lexF f m s).flatMap Item.text = s := by
    intro f
    induction f with
    | zero => intro m s; cases s <;> simp [lexF, Item.text]
    | succ f ih =>
      intro m s
      cases s with
      | nil => simp [lexF]
      | cons c s =>
        have hit : ∀ k t, (item k t).text = t := by
          intro k t; unfold item; split <;> rfl
        rw [lexF]
        split
        · split
          · simp [Item.text]
          · rw [List.flatMap_cons, ih, hit]; simp
        · rw [List.flatMap_cons, ih]; simp [Item.text]
  exact key _ _ _

example : (lex "set x = 5; # note".toList).flatMap Item.text = "set x = 5; # note".toList :=
  lex_lossless _

/-- **C83.** The lexer obeys the rules of ANTLR: the longest match of the first rule, or, where
nothing matches, the text that no rule can go on from; it comes to the end of every text. -/
theorem lex_obeys (s : List Char) : Lexes ⟨.main, []⟩ s (lex s) :=
  lexF_lexes _ _ _ (.inl rfl) (Nat.le_refl _)

/-- **C83.** These rules leave no choice. -/
theorem lexes_unique {m : Stack} {s : List Char} {l l' : List Item} (h : Lexes m s l)
    (h' : Lexes m s l') : l = l' := by
  have hne : ∀ {m : Stack} {n k}, ¬ Takes (rulesOf m.cur) [] k n := by
    rintro m n k ⟨b, r, a, e, -, hL, -, -⟩
    exact rules_ne_nil (p := (k, r)) (m := m.cur) (by rw [e]; simp) (by simpa using hL)
  have htd : ∀ {rs : List (Kind × Rx)} {s : List Char} {k n}, Takes rs s k n →
      ¬ ∀ p ∈ rs, ∀ j ≤ s.length, ¬ p.2.Lang (s.take j) := by
    rintro rs s k n ⟨b, r, a, e, hn, hL, -, -⟩ h
    exact h (k, r) (by rw [e]; simp) n hn hL
  have mono : ∀ {rs : List (Kind × Rx)} {s : List Char} {i j : Nat}, i ≤ j →
      Viable rs (s.take j) → Viable rs (s.take i) := by
    rintro rs s i j hij ⟨p, hp, u, hu⟩
    refine ⟨p, hp, (s.take j).drop i ++ u, ?_⟩
    rw [← List.append_assoc]
    have : s.take i ++ (s.take j).drop i = s.take j := by
      conv_rhs => rw [← List.take_append_drop i (s.take j), List.take_take, Nat.min_eq_left hij]
    rwa [this]
  induction h generalizing l' with
  | nil =>
    generalize hw : ([] : List Char) = w at h'
    cases h' with
    | nil => rfl
    | take ht _ _ => subst hw; exact absurd ht hne
    | drop _ hn _ _ _ => subst hw; simp at hn
  | @take m m' s k n l ht ha _ ih =>
    cases h' with
    | nil => exact absurd ht hne
    | take ht' ha' hl' =>
      obtain ⟨rfl, rfl⟩ := takes_unique ht ht'
      rw [ha] at ha'
      cases ha'
      rw [ih hl']
    | drop hb _ _ _ _ => exact absurd hb (htd ht)
  | @drop m s n l hb hn hv hd _ ih =>
    cases h' with
    | nil => simp at hn
    | take ht _ _ => exact absurd hb (htd ht)
    | @drop _ _ n' _ _ hn' hv' hd' hl' =>
      have : n = n' := by
        rcases Nat.lt_trichotomy n n' with h | h | h
        · rcases hd with hd | hd
          · exact absurd (mono (by omega) hv') hd
          · omega
        · exact h
        · rcases hd' with hd' | hd'
          · exact absurd (mono (by omega) hv) hd'
          · omega
      subst this
      rw [ih hl']

example (l : List Item) (h : Lexes ⟨.main, []⟩ "title 'a\\'; im x y".toList l) :
    l = lex "title 'a\\'; im x y".toList := lexes_unique h (lex_obeys _)

/-- **C83.** The lexer is never stopped by an exception: every `popMode` has its `pushMode`. -/
theorem never_crashes (s t : List Char) : Item.crash t ∉ lex s := by
  have key : ∀ {m s l}, Lexes m s l → Item.crash t ∉ l := by
    intro m s l h
    induction h with
    | nil => simp
    | @take m m' s k n l _ _ _ ih =>
      rw [List.mem_cons, not_or]
      refine ⟨?_, ih⟩
      unfold item
      split <;> simp
    | drop _ _ _ _ _ ih => simp [ih]
  exact key (lex_obeys s)

example : Item.crash [')'] ∉ lex "))$(()".toList := never_crashes _ _

/-- **C83.** A script is read as the tokens that it writes, whatever blanks, line ends and comments
stand between them, and no error is reported. -/
theorem written_read {ts : List (Kind × List Char)} {s : List Char} (h : Written ts s) :
    tokens (lex s) = ts ∧ Clean (lex s) := written_run h

/-- **C83.** So two texts that write the same tokens are the same script for the parser. -/
theorem layout_free {ts : List (Kind × List Char)} {s s' : List Char} (h : Written ts s)
    (h' : Written ts s') : tokens (lex s) = tokens (lex s') := by
  rw [(written_read h).1, (written_read h').1]

/-- A script with a comment, blanks, a number, a name and a Python expression. -/
theorem written_example :
    Written [(.SET, "set".toList), (.ID, "x1".toList), (.FLOAT_VAL, "-1e5".toList),
      (.COMMA, [',']), (.PYTHON_ESCAPE, "$(".toList), (.OTHER, ['f']), (.PYMODELPAREN, ['(']),
      (.NESTEDOTHER, ['2']), (.NESTEDRPAREN, [')']), (.PYTHON_END, [')']), (.SEMICOLON, [';'])]
      "set# ;\n x1 -1e5,$(f(2));".toList := by
  have digits5 : Digits ['5'] := ⟨by simp, by simp⟩
  have digits1 : Digits ['1'] := ⟨by simp, by simp⟩
  have setW : Whole .SET "set".toList := .word (by decide +kernel)
  have commaW : Whole .COMMA ",".toList := .word (by decide +kernel)
  have semiW : Whole .SEMICOLON ";".toList := .word (by decide +kernel)
  have nameW : Whole .ID "x1".toList := by
    refine .name ⟨'x', ['1'], rfl, .inl (by decide), ?_⟩ (by unfold Reserved; decide +kernel)
    intro d hd
    rw [List.mem_singleton.1 hd]
    exact .inr (by decide)
  have numW : Whole .FLOAT_VAL "-1e5".toList := by
    refine .number ⟨['-'], ['1'], "e5".toList, .inr (.inr rfl), .inl digits1,
      .inr ⟨'e', [], ['5'], .inl rfl, .inl rfl, digits5, rfl⟩, rfl⟩ ?_ ?_
    · rintro ⟨-, h⟩; exact absurd (h '-' (by simp)) (by decide)
    · rintro ⟨c, r, e, h, -⟩
      have : c = '-' := by
        have := congrArg List.head? e
        simpa using this.symm
      subst this
      exact absurd ((nondigit_iff _).2 h) (by decide)
  have bal : Balanced "f(2)".toList := by
    have h1 : Balanced ['2'] := .plain (by decide) (by decide) .nil
    exact .plain (by decide) (by decide) (.paren h1 .nil)
  have apart : ∀ (t : List Char) (c : Char) (s : List Char), joins c = false → t ≠ ['$'] →
      Apart t (c :: s) := by
    intro t c s hc ht l d _ hd
    simp only [List.head?_cons, Option.some.injEq] at hd
    subst hd
    refine ⟨fun _ hj => ?_, fun h => absurd h ht⟩
    rw [← joins_iff, hc] at hj
    cases hj
  refine .tok setW (apart _ '#' _ (by decide) (by decide)) ?_
  refine .comment (b := " ;".toList) (s := "\n x1 -1e5,$(f(2));".toList) (by decide) ?_ ?_
  · intro c hc; right; simpa using hc.symm
  refine .blank (.inr (.inr (.inr rfl))) (by decide) (.blank (.inl rfl) (by decide) ?_)
  refine .tok nameW (apart _ ' ' _ (by decide) (by decide)) ?_
  refine .blank (.inl rfl) (by decide) ?_
  refine .tok numW (apart _ ',' _ (by decide) (by decide)) ?_
  refine .tok commaW (apart _ '$' _ (by decide) (by decide)) ?_
  refine .python (b := "f(2)".toList) (s := [';']) bal ?_
  exact .tok (s := []) semiW (by intro l c _ h; cases h) .nil

example : tokens (lex "set# ;\n x1 -1e5,$(f(2));".toList) =
    [(.SET, "set".toList), (.ID, "x1".toList), (.FLOAT_VAL, "-1e5".toList),
      (.COMMA, [',']), (.PYTHON_ESCAPE, "$(".toList), (.OTHER, ['f']), (.PYMODELPAREN, ['(']),
      (.NESTEDOTHER, ['2']), (.NESTEDRPAREN, [')']), (.PYTHON_END, [')']), (.SEMICOLON, [';'])] :=
  (written_read written_example).1

example : tokens (lex "set x1 -1e5 , $(f(2)) ;".toList) =
    tokens (lex "set# ;\n x1 -1e5,$(f(2));".toList) := by
  rw [(written_read written_example).1]; decide +kernel

/-- **C83.** A token followed by anything that it is set apart from is read as that token, and the
rest is read as if it stood alone. -/
theorem token_read {k : Kind} {t s : List Char} (h : Whole k t) (ha : Apart t s) :
    lex (t ++ s) = .tok k t :: lex s := run_whole h ha

example : lex ("recorder".toList ++ " r1".toList) =
    .tok .RECORDER "recorder".toList :: lex " r1".toList :=
  token_read (.word (by decide +kernel)) (by
    intro l c _ hc
    have : c = ' ' := by simpa using hc.symm
    subst this
    exact ⟨fun _ hj => absurd ((joins_iff _).2 hj) (by decide), by decide⟩)

/-- **C83.** The text between `$(` and its `)` reaches the interpreter unchanged, if its parentheses
are balanced (`getText` of the Python expression puts the texts of the tokens together,
`SlatInterpreter.py:675-677`). -/
theorem python_text {b : List Char} (h : Balanced b) (s : List Char) :
    ∃ ts : List (Kind × List Char), lex ('$' :: '(' :: (b ++ ')' :: s)) =
        .tok .PYTHON_ESCAPE ['$', '('] :: (ts.map (fun p => Item.tok p.1 p.2) ++
          .tok .PYTHON_END [')'] :: lex s) ∧ ts.flatMap (·.2) = b := by
  refine ⟨pyTokens 0 b, run_python h s, ?_⟩
  have key : ∀ (b : List Char) d, (pyTokens d b).flatMap (·.2) = b := by
    intro b
    induction b with
    | nil => intro d; rfl
    | cons c b ih =>
      intro d
      rw [pyTokens]
      split
      · rw [List.flatMap_cons, ih]; rfl
      · split <;> rw [List.flatMap_cons, ih] <;> rfl
  exact key b 0

example : ∃ ts : List (Kind × List Char), lex "$(f(2)+'a');".toList =
    .tok .PYTHON_ESCAPE ['$', '('] :: (ts.map (fun p => Item.tok p.1 p.2) ++
      .tok .PYTHON_END [')'] :: lex [';']) ∧ ts.flatMap (·.2) = "f(2)+'a'".toList :=
  python_text (b := "f(2)+'a'".toList)
    (.plain (by decide) (by decide) (.paren (a := ['2'])
      (.plain (by decide) (by decide) .nil)
      (.plain (by decide) (by decide) (.plain (by decide) (by decide)
        (.plain (by decide) (by decide) (.plain (by decide) (by decide) .nil)))))) [';']

/-- **C83.** The parser never receives blanks or comments, nor a single-quoted string as anything
but `STRING`. -/
theorem parser_kinds {s t : List Char} {k : Kind} (h : (k, t) ∈ tokens (lex s)) :
    k ≠ .WS ∧ k ≠ .COMMENT ∧ k ≠ .SINGLE_QUOTED_STRING := by
  have hitem : ∀ (l : List Item), (k, t) ∈ tokens l → Item.tok k t ∈ l := by
    intro l
    induction l with
    | nil => simp [tokens]
    | cons i l ih =>
      cases i with
      | tok k' t' =>
        rw [tokens, List.mem_cons, List.mem_cons]
        rintro (h | h)
        · simp only [Prod.mk.injEq] at h; left; rw [h.1, h.2]
        · exact .inr (ih h)
      | skip _ | bad _ | crash _ => rw [tokens]; exact fun h => List.mem_cons_of_mem _ (ih h)
  have key : ∀ {m s l}, Lexes m s l → Item.tok k t ∈ l →
      k ≠ .WS ∧ ∃ (m : Mode) (s : List Char) (n : Nat), Takes (rulesOf m) s k n := by
    intro m s l h
    induction h with
    | nil => simp
    | @take m m' s k' n l ht _ _ ih =>
      rw [List.mem_cons]
      rintro (hi | hi)
      · unfold item at hi
        split at hi
        · cases hi
        · rename_i hk
          simp only [Item.tok.injEq] at hi
          rw [hi.1]
          exact ⟨hk, m.cur, s, n, ht⟩
      · exact ih hi
    | drop _ _ _ _ _ ih => simpa using ih
  obtain ⟨h1, m, s', n, b, r, a, e, hn, hL, hall, hb⟩ := key (lex_obeys s) (hitem _ h)
  refine ⟨h1, ?_⟩
  by_cases hk : k = .COMMENT ∨ k = .SINGLE_QUOTED_STRING
  swap
  · tauto
  exfalso
  have hmain : m = .main := by
    have hmem : k ∈ (rulesOf m).map (·.1) := by rw [e]; simp
    cases m with
    | main => rfl
    | py => rcases hk with rfl | rfl <;> revert hmem <;> decide
    | nested => rcases hk with rfl | rfl <;> revert hmem <;> decide
  subst hmain
  have hpre : ∀ (p q : List (Kind × Rx)), mainRules = p ++ q → k ∉ p.map (·.1) →
      ∀ x ∈ p, x ∈ b := by
    intro p q hpq hkp x hx
    have he : b ++ (k, r) :: a = p ++ q := by rw [← hpq, ← e]; rfl
    rcases List.append_eq_append_iff.1 he with ⟨c, h2, h3⟩ | ⟨c, h2, h3⟩
    · cases c with
      | nil => rw [List.append_nil] at h2; rwa [h2] at hx
      | cons y c =>
        simp only [List.cons_append, List.cons.injEq] at h3
        exact absurd (by rw [h2, ← h3.1]; simp) hkp
    · rw [h2]; simp [hx]
  have hmem : (k, r) ∈ mainRules := by
    have : (k, r) ∈ rulesOf .main := by rw [e]; simp
    exact this
  rcases hk with rfl | rfl
  · have hr : r = commentRx := by
      have hkind : ∀ q ∈ literals1 ++ literals2, q.1 ≠ .COMMENT := by decide +kernel
      rcases mem_mainRules hmem with h | h | ⟨q, hq, h⟩ | h | h | h | h | h | h <;>
        simp only [Prod.mk.injEq, reduceCtorEq, false_and] at h
      · exact h.2
      · exact absurd h.1.symm (hkind q hq)
    subst hr
    have := hpre [(.WS, wsRx)] _ rfl (by decide) (.WS, wsRx) (by simp)
    exact hb _ this ((ws_iff _).2 (.inr hL))
  · have hr : r = sqRx := by
      have hkind : ∀ q ∈ literals1 ++ literals2, q.1 ≠ .SINGLE_QUOTED_STRING := by decide +kernel
      rcases mem_mainRules hmem with h | h | ⟨q, hq, h⟩ | h | h | h | h | h | h <;>
        simp only [Prod.mk.injEq, reduceCtorEq, false_and] at h
      · exact absurd h.1.symm (hkind q hq)
      · exact h.2
    subst hr
    have := hpre ([(.WS, wsRx), (.COMMENT, commentRx)] ++ literals1.map litRule ++
      [(.STRING, stringRx)]) (literals2.map litRule ++
        [(.SINGLE_QUOTED_STRING, sqRx), (.INTEGER, integerRx), (.ID, idRx), (.FLOAT_VAL, floatRx),
          (.FILE_NAME, fileRx)]) (by simp [mainRules]) (by decide +kernel) (.STRING, stringRx)
      (by simp)
    exact hb _ this ((string_iff _).2 (.inl hL))

example : (Kind.STRING, "'a'".toList) ∈ tokens (lex "# x\n 'a'".toList) := by decide +kernel

/-! ## Where the tokens are not the ones meant -/

/-- **C83.** A number that starts with its point is a name, with any digits after the point. -/
theorem point_number_fails {d : List Char} (h : Digits d) :
    IsNumber ('.' :: d) ∧ lex ('.' :: d) = [.tok .ID ('.' :: d)] := by
  have hn : IsNumber ('.' :: d) :=
    ⟨[], '.' :: d, [], .inl rfl, .inr (.inr (.inr ⟨d, h, rfl⟩)), .inl rfl, by simp⟩
  refine ⟨hn, ?_⟩
  have hw : Whole .ID ('.' :: d) :=
    .name ⟨'.', d, rfl, .inr (.inr rfl), fun c hc => .inr (h.2 c hc)⟩ (number_not_reserved hn)
  have := run_whole (s := []) hw (by intro l c _ hc; cases hc)
  rwa [List.append_nil, run_nil] at this

example : IsNumber ".25".toList ∧ lex ".25".toList = [.tok .ID ".25".toList] :=
  point_number_fails ⟨by simp, by simp; decide⟩

/-- **C83.** The keyword `loglog` is known only right after a blank: at the start of a line or after
a tab it is a name. -/
theorem loglog_line_fails {c : Char} (h : c = '\t' ∨ c = '\r' ∨ c = '\n') :
    lex (c :: "loglog".toList) = [.skip [c], .tok .ID "loglog".toList] := by
  rcases h with rfl | rfl | rfl <;> decide +kernel

example : tokens (lex "detfn f loglog".toList) =
    [(.DETFN, "detfn".toList), (.ID, ['f']), (.LOGLOG, " loglog".toList)] := by decide +kernel

/-- **C83.** A name that starts with `loglog` is cut in two when it comes after a blank. -/
theorem loglog_name_fails {t : List Char} (h : IsName t) (hr : ¬ Reserved t) :
    IsName ("loglog".toList ++ t) ∧
    lex (" loglog".toList ++ t) = [.tok .LOGLOG " loglog".toList, .tok .ID t] := by
  obtain ⟨c, r, rfl, hc, hall⟩ := h
  refine ⟨⟨'l', "oglog".toList ++ c :: r, rfl, .inl (by decide), ?_⟩, ?_⟩
  · intro d hd
    rcases List.mem_append.1 hd with hd | hd
    · have : ∀ d ∈ "oglog".toList, d.isAlpha = true := by decide
      exact .inl (.inl (this d hd))
    · rcases List.mem_cons.1 hd with rfl | hd
      · exact .inl hc
      · exact hall d hd
  · have hb : best (rulesOf .main) (" loglog".toList ++ (c :: r)) =
        some (.LOGLOG, " loglog".toList.length) := by
      refine best_append (by decide +kernel) ?_
      intro p hp u v hu _ hL
      have hS := rule_shape hp hL
      rcases shape_blank (c := ' ') (u := "loglog".toList ++ u) hS (.inl rfl) with h | h
      · cases h
      · have := congrArg List.length h
        simp at this
        exact hu this
    have h1 := run_take (m := ⟨.main, []⟩) (by simp) hb rfl
    have h2 := run_whole (s := []) (.name ⟨c, r, rfl, hc, hall⟩ hr)
      (by intro l c _ hc; cases hc)
    rw [List.append_nil, run_nil] at h2
    rw [lex_eq_run, h1, h2]
    rfl

example : lex " loglog_curve".toList = [.tok .LOGLOG " loglog".toList, .tok .ID "_curve".toList] :=
  (loglog_name_fails (t := "_curve".toList)
    ⟨'_', "curve".toList, rfl, .inr (.inl rfl), fun d hd =>
      .inl (.inl ((by decide : ∀ d ∈ "curve".toList, d.isAlpha = true) d hd))⟩
    (by unfold Reserved; decide +kernel)).2

/-- A character that no token, comment or blank starts with. -/
def Stray (c : Char) : Prop :=
  ¬ Joins c ∧ ¬ Blank c ∧ c ∉ ['{', '}', '[', ']', '(', ')', '*', ',', ';', ':', '$'] ∧
    c ≠ '#' ∧ c ≠ '\'' ∧ c ≠ '"'

/-- **C83.** A character that starts no token is dropped, with a message, and lexing goes on as if it
were not there: `set x = 5;`, as in the documentation, and `set x @ 5;` are both read as
`set x 5;`. -/
theorem stray_dropped {c : Char} (h : Stray c) (s : List Char) : lex (c :: s) = .bad [c] :: lex s := by
  obtain ⟨h1, h2, h3, h4, h5, h6⟩ := h
  have hj : joins c = false := by
    cases hh : joins c with
    | false => rfl
    | true => exact absurd ((joins_iff c).1 hh) h1
  have hS : ∀ u, ¬ Shape (c :: u) := by
    intro u hu
    generalize hw : c :: u = w at hu
    cases hu with
    | word _ h => subst hw; have := h c (by simp); rw [hj] at this; cases this
    | punct hp => simp only [List.cons.injEq] at hw; rw [hw.1] at h3; exact h3 hp
    | blank hp => simp only [List.cons.injEq] at hw; rw [hw.1] at h2; exact h2 hp
    | escape => simp only [List.cons.injEq] at hw; rw [hw.1] at h3; exact h3 (by simp)
    | loglog => simp only [List.cons.injEq] at hw; rw [hw.1] at h2; exact h2 (.inl rfl)
    | comment _ => simp only [List.cons.injEq] at hw; exact h4 hw.1
    | single _ => simp only [List.cons.injEq] at hw; exact h5 hw.1
    | double _ => simp only [List.cons.injEq] at hw; exact h6 hw.1
  refine lexes_unique (lex_obeys _) ?_
  refine .drop (n := 0) (s := c :: s) (m := ⟨.main, []⟩) ?_ (by simp) ?_ ?_ (lex_obeys s)
  · intro p hp j _ hL
    cases j with
    | zero => exact rules_ne_nil hp (by simpa using hL)
    | succ j => rw [List.take_succ_cons] at hL; exact hS _ (rule_shape hp hL)
  · exact (viable_rules _ _).1 (by simpa using rules_some .main)
  · left
    rintro ⟨p, hp, u, hu⟩
    exact hS _ (rule_shape hp hu)

example : lex "= 5;".toList = .bad ['='] :: lex " 5;".toList :=
  stray_dropped ⟨fun h => absurd ((joins_iff _).2 h) (by decide),
    by rintro (h | h | h | h) <;> exact absurd h (by decide), by decide, by decide, by decide,
    by decide⟩ _

/-- **C83.** A path with a hyphen is no path: `out-1.txt` is read as a name, a number and a name. -/
theorem hyphen_path_fails : tokens (lex "log out-1.txt;".toList) =
    [(.LOG, "log".toList), (.ID, "out".toList), (.FLOAT_VAL, "-1.".toList), (.ID, "txt".toList),
      (.SEMICOLON, [';'])] := by decide +kernel

/-- **C83.** A parenthesis inside a string of a Python expression counts: the expression
`list(')')` is cut after `list(')'`, and the parenthesis that was to close it is left over. -/
theorem python_string_fails : tokens (lex "set x $(list(')'));".toList) =
    [(.SET, "set".toList), (.ID, ['x']), (.PYTHON_ESCAPE, "$(".toList), (.OTHER, ['l']),
      (.OTHER, ['i']), (.OTHER, ['s']), (.OTHER, ['t']), (.PYMODELPAREN, ['(']),
      (.NESTEDOTHER, ['\'']), (.NESTEDRPAREN, [')']), (.OTHER, ['\'']), (.PYTHON_END, [')']),
      (.RPAREN, [')']), (.SEMICOLON, [';'])] := by decide +kernel

end Slat.Lex
