import Verif.LexLemmas

/-!
# The steps of the lexer on written text
-/

namespace Slat.Lex

open Rx

/-! ## Fuel -/

theorem lexF_nil (f : Nat) (m : Stack) : lexF f m [] = [] := by cases f <;> rfl

theorem lexF_fuel (f g : Nat) (m : Stack) (s : List Char) (hf : s.length ≤ f) (hg : s.length ≤ g) :
    lexF f m s = lexF g m s := by
  induction f generalizing g m s with
  | zero =>
    rw [List.length_eq_zero_iff.1 (Nat.le_zero.1 hf), lexF_nil, lexF_nil]
  | succ f ih =>
    cases s with
    | nil => rw [lexF_nil, lexF_nil]
    | cons c s =>
      cases g with
      | zero => simp at hg
      | succ g =>
        simp only [List.length_cons, Nat.add_le_add_iff_right] at hf hg
        have hd : ∀ n m, lexF f m (s.drop n) = lexF g m (s.drop n) := fun n m =>
          ih g m _ (by rw [List.length_drop]; omega) (by rw [List.length_drop]; omega)
        simp only [lexF, hd]

/-- The lexer at a text, with enough fuel. -/
def run (m : Stack) (s : List Char) : List Item := lexF s.length m s

theorem lex_eq_run (s : List Char) : lex s = run ⟨.main, []⟩ s := rfl

theorem run_nil (m : Stack) : run m [] = [] := lexF_nil _ _

theorem run_take {m m' : Stack} {t s : List Char} {k : Kind} (ht : t ≠ [])
    (h : best (rulesOf m.cur) (t ++ s) = some (k, t.length)) (ha : act k m = some m') :
    run m (t ++ s) = item k t :: run m' s := by
  cases t with
  | nil => exact absurd rfl ht
  | cons c t =>
    rw [List.cons_append, List.length_cons] at h
    simp only [run, List.cons_append, List.length_cons, lexF, h, ha]
    congr 1
    · congr 1
      simp
    · rw [List.drop_left]
      exact lexF_fuel _ _ _ _ (by simp) (Nat.le_refl _)

/-! ## Rules and modes -/

theorem best_mem {rs : List (Kind × Rx)} {s : List Char} {k : Kind} {n : Nat}
    (h : best rs s = some (k, n)) : k ∈ rs.map (·.1) := by
  obtain ⟨b, r, a, rfl, -⟩ := best_takes h
  simp

theorem py_best (c : Char) (s : List Char) :
    best pyRules (c :: s) =
      some (if c = ')' then .PYTHON_END else if c = '(' then .PYMODELPAREN else .OTHER, 1) := by
  have h1 : ∀ p ∈ pyRules, ∀ u v, u ≠ [] → s = u ++ v → ¬ p.2.Lang ([c] ++ u) := by
    intro p hp u v hu _ hL
    simp only [pyRules, List.mem_cons, List.not_mem_nil, or_false] at hp
    rcases hp with rfl | rfl | rfl
    · rw [lang_lit_iff] at hL; simp [hu] at hL
    · rw [lang_lit_iff] at hL; simp [hu] at hL
    · rw [anyRx, lang_sat_iff] at hL; simp [hu] at hL
  refine best_append (t := [c]) ?_ h1
  by_cases hc : c = ')'
  · subst hc; decide
  · by_cases hd : c = '('
    · subst hd; decide
    · rw [if_neg hc, if_neg hd]
      refine best_whole (b := [(.PYTHON_END, lit [')']), (.PYMODELPAREN, lit ['('])]) (a := [])
        rfl (.sat rfl) ?_
      intro p hp
      simp only [List.mem_cons, List.not_mem_nil, or_false] at hp
      rcases hp with rfl | rfl
      · rw [lang_lit_iff]; simpa using hc
      · rw [lang_lit_iff]; simpa using hd

theorem nested_best (c : Char) (s : List Char) :
    best nestedRules (c :: s) =
      some (if c = '(' then .NESTEDLPAREN else if c = ')' then .NESTEDRPAREN else .NESTEDOTHER,
        1) := by
  have h1 : ∀ p ∈ nestedRules, ∀ u v, u ≠ [] → s = u ++ v → ¬ p.2.Lang ([c] ++ u) := by
    intro p hp u v hu _ hL
    simp only [nestedRules, List.mem_cons, List.not_mem_nil, or_false] at hp
    rcases hp with rfl | rfl | rfl
    · rw [lang_lit_iff] at hL; simp [hu] at hL
    · rw [lang_lit_iff] at hL; simp [hu] at hL
    · rw [anyRx, lang_sat_iff] at hL; simp [hu] at hL
  refine best_append (t := [c]) ?_ h1
  by_cases hc : c = '('
  · subst hc; decide
  · by_cases hd : c = ')'
    · subst hd; decide
    · rw [if_neg hc, if_neg hd]
      refine best_whole (b := [(.NESTEDLPAREN, lit ['(']), (.NESTEDRPAREN, lit [')'])]) (a := [])
        rfl (.sat rfl) ?_
      intro p hp
      simp only [List.mem_cons, List.not_mem_nil, or_false] at hp
      rcases hp with rfl | rfl
      · rw [lang_lit_iff]; simpa using hc
      · rw [lang_lit_iff]; simpa using hd

/-- The stack inside a Python expression with `d` parentheses open. -/
def pyStack : Nat → Stack
  | 0 => ⟨.py, [.main]⟩
  | d + 1 => ⟨.nested, (pyStack d).cur :: (pyStack d).below⟩

theorem pyStack_pop (d : Nat) : (⟨(pyStack d).cur, (pyStack d).below⟩ : Stack) = pyStack d := by
  cases d <;> rfl

/-- One character inside a Python expression. -/
theorem run_py (d : Nat) (c : Char) (s : List Char) :
    run (pyStack d) (c :: s) =
      if c = '(' then .tok (if d = 0 then .PYMODELPAREN else .NESTEDLPAREN) [c] ::
        run (pyStack (d + 1)) s
      else if c = ')' then
        match d with
        | 0 => .tok .PYTHON_END [c] :: run ⟨.main, []⟩ s
        | d + 1 => .tok .NESTEDRPAREN [c] :: run (pyStack d) s
      else .tok (if d = 0 then .OTHER else .NESTEDOTHER) [c] :: run (pyStack d) s := by
  cases d with
  | zero =>
    have hb : best (rulesOf (pyStack 0).cur) ([c] ++ s) = _ := py_best c s
    by_cases hc : c = '('
    · subst hc
      exact run_take (m := pyStack 0) (m' := pyStack 1) (t := ['(']) (by simp) hb rfl
    · by_cases hd : c = ')'
      · subst hd
        exact run_take (m := pyStack 0) (t := [')']) (by simp) hb rfl
      · rw [if_neg hd, if_neg hc] at hb
        rw [if_neg hc, if_neg hd]
        exact run_take (m := pyStack 0) (m' := pyStack 0) (t := [c]) (by simp) hb rfl
  | succ d =>
    have hb : best (rulesOf (pyStack (d + 1)).cur) ([c] ++ s) = _ := nested_best c s
    by_cases hc : c = '('
    · subst hc
      exact run_take (m := pyStack (d + 1)) (m' := pyStack (d + 2)) (t := ['(']) (by simp) hb rfl
    · by_cases hd : c = ')'
      · subst hd
        exact run_take (m := pyStack (d + 1)) (m' := pyStack d) (t := [')']) (by simp) hb
          (congrArg some (pyStack_pop d))
      · rw [if_neg hc, if_neg hd] at hb
        rw [if_neg hc, if_neg hd]
        exact run_take (m := pyStack (d + 1)) (m' := pyStack (d + 1)) (t := [c]) (by simp) hb rfl

theorem pyTokens_append {b : List Char} (h : Balanced b) (d : Nat) (s : List Char) :
    pyTokens d (b ++ s) = pyTokens d b ++ pyTokens d s := by
  induction h generalizing d s with
  | nil => rfl
  | plain h1 h2 _ ih => simp [pyTokens, h1, h2, ih]
  | paren _ _ iha ihs => simp [pyTokens, iha, ihs]

/-- Balanced text inside a Python expression. -/
theorem run_balanced {b : List Char} (h : Balanced b) (d : Nat) (s : List Char) :
    run (pyStack d) (b ++ s) =
      (pyTokens d b).map (fun p => Item.tok p.1 p.2) ++ run (pyStack d) s := by
  induction h generalizing d s with
  | nil => rfl
  | plain h1 h2 _ ih =>
    rw [List.cons_append, run_py, if_neg h1, if_neg h2, ih, pyTokens, if_neg h1, if_neg h2]
    rfl
  | @paren a s' ha _ iha ihs =>
    rw [List.cons_append, List.append_assoc, run_py, if_pos rfl, iha, List.cons_append, run_py]
    have h1 : (')' : Char) ≠ '(' := by decide
    rw [if_neg h1, if_pos rfl]
    simp only
    rw [ihs, pyTokens, if_pos rfl, pyTokens_append ha, pyTokens,
      if_neg h1, if_pos rfl]
    simp

/-! ## Words -/

set_option maxRecDepth 20000 in
theorem vocabulary_best :
    ∀ p ∈ vocabulary, best mainRules p.2.toList = some (p.1, p.2.toList.length) := by
  decide +kernel

theorem vocabulary_shape : ∀ p ∈ vocabulary,
    (p.2.toList ≠ [] ∧ ∀ c ∈ p.2.toList, joins c = true) ∨ ∃ c ∈ puncts, p.2.toList = [c] := by
  decide +kernel

theorem literals_reserved : ∀ p ∈ literals1 ++ literals2,
    (∃ q ∈ vocabulary, q.2.toList = p.2) ∨ p.2 = [' ', 'l', 'o', 'g', 'l', 'o', 'g'] ∨
      p.2 = ['$', '('] := by
  decide +kernel

theorem act_of_main {k : Kind} (h : k ∈ mainRules.map (·.1)) (m : Stack) (hk : k ≠ .PYTHON_ESCAPE) :
    act k m = some m := by
  have : k ≠ .PYTHON_END ∧ k ≠ .NESTEDRPAREN ∧ k ≠ .PYMODELPAREN ∧ k ≠ .NESTEDLPAREN := by
    have key : ∀ k ∈ mainRules.map (·.1), k ≠ .PYTHON_END ∧ k ≠ .NESTEDRPAREN ∧
      k ≠ .PYMODELPAREN ∧ k ≠ .NESTEDLPAREN := by decide +kernel
    exact key k h
  unfold act
  split <;> simp_all

/-- The texts of words: all characters join. -/
def Wordy (t : List Char) : Prop := t ≠ [] ∧ ∀ c ∈ t, joins c = true

theorem wordy_more {t s : List Char} (h : Wordy t) (ha : Apart t s) {p : Kind × Rx}
    (hp : p ∈ mainRules) {u v : List Char} (hu : u ≠ []) (hs : s = u ++ v) :
    ¬ p.2.Lang (t ++ u) := by
  intro hL
  have hS := rule_shape hp hL
  obtain ⟨hne, hall⟩ := h
  cases u with
  | nil => exact hu rfl
  | cons d u =>
    obtain ⟨l, hl⟩ : ∃ l, t.getLast? = some l := by
      cases ht : t.getLast? with
      | none => exact absurd (List.getLast?_eq_none_iff.1 ht) hne
      | some l => exact ⟨l, rfl⟩
    have hlj := hall l (List.mem_of_getLast? hl)
    have := (ha l d hl (by rw [hs]; rfl)).1 ((joins_iff l).1 hlj)
    apply this
    rw [← joins_iff]
    cases t with
    | nil => exact absurd rfl hne
    | cons c t =>
      rw [List.cons_append] at hS
      exact shape_word hS (hall c (by simp)) d (by simp)

theorem rules_split : ∃ b : List (Kind × Rx), mainRules = b ++ [(.INTEGER, integerRx), (.ID, idRx),
      (.FLOAT_VAL, floatRx), (.FILE_NAME, fileRx)] ∧
    ∀ p ∈ b, ∀ u : List Char, p.2.Lang u → Wordy u → Reserved u := by
  refine ⟨[(.WS, wsRx), (.COMMENT, commentRx)] ++ literals1.map litRule ++ [(.STRING, stringRx)] ++
    literals2.map litRule ++ [(.SINGLE_QUOTED_STRING, sqRx)], by simp [mainRules], ?_⟩
  have hc : ∀ u, Lang commentRx u → ¬ Wordy u := fun u hu hw => by
    obtain ⟨b, rfl, -⟩ := (comment_iff u).1 hu
    exact absurd (hw.2 '#' (by simp)) (by decide)
  have hq : ∀ u, Lang sqRx u → ¬ Wordy u := fun u hu hw => by
    obtain ⟨b, rfl, -⟩ := (sq_iff u).1 hu
    exact absurd (hw.2 '\'' (by simp)) (by decide)
  have hlit : ∀ q ∈ literals1 ++ literals2, ∀ u, (litRule q).2.Lang u → Wordy u → Reserved u := by
    intro q hq u hu hw
    rw [litRule, lang_lit_iff] at hu
    subst hu
    rcases literals_reserved q hq with h | h | h
    · exact h
    · rw [h] at hw; exact absurd (hw.2 ' ' (by simp)) (by decide)
    · rw [h] at hw; exact absurd (hw.2 '$' (by simp)) (by decide)
  intro p hp u hu hw
  simp only [List.mem_append, List.mem_cons, List.not_mem_nil, or_false, List.mem_map] at hp
  rcases hp with ((((rfl | rfl) | ⟨q, hm, rfl⟩) | rfl) | ⟨q, hm, rfl⟩) | rfl
  · exfalso
    rcases (ws_iff u).1 hu with ⟨c, rfl, hb⟩ | hu
    · have := hw.2 c (by simp); rw [blank_not_joins hb] at this; cases this
    · exact hc u hu hw
  · exact absurd hw (hc u hu)
  · exact hlit q (by simp [hm]) u hu hw
  · exfalso
    rcases (string_iff u).1 hu with hu | hu
    · exact hq u hu hw
    · obtain ⟨b, rfl, -⟩ := (dq_iff u).1 hu
      exact absurd (hw.2 '"' (by simp)) (by decide)
  · exact hlit q (by simp [hm]) u hu hw
  · exact absurd hw (hq u hu)

theorem digit_not_nameStart {c : Char} (h : c.isDigit = true) : ¬ NameStart c := by
  rw [← nondigit_iff]
  rw [← digit_iff] at h
  simp only [digit, inRange, Bool.and_eq_true, decide_eq_true_eq] at h
  simp only [nondigit, inRange, Bool.and_eq_true, Bool.or_eq_true, decide_eq_true_eq, beq_iff_eq]
  have h1 : ('a' : Char).val.toNat = 97 := rfl
  have h2 : ('0' : Char).val.toNat = 48 := rfl
  have h3 : ('A' : Char).val.toNat = 65 := rfl
  have h4 : ('9' : Char).val.toNat = 57 := rfl
  have e1 : ('_' : Char).val.toNat = 95 := rfl
  have e2 : ('.' : Char).val.toNat = 46 := rfl
  simp only [UInt32.le_iff_toNat_le] at h ⊢
  rintro (((h5 | h5) | rfl) | rfl) <;> omega

theorem digits_not_name {t : List Char} (h : Digits t) : ¬ IsName t := by
  rintro ⟨c, r, rfl, hc, -⟩
  exact digit_not_nameStart (h.2 c (by simp)) hc

set_option maxRecDepth 20000 in
theorem vocabulary_heads : ∀ p ∈ vocabulary, ∀ c ∈ p.2.toList, digit c = false := by
  decide +kernel

theorem digits_not_reserved {t : List Char} (h : Digits t) : ¬ Reserved t := by
  rintro ⟨p, hp, rfl⟩
  obtain ⟨hne, hd⟩ := h
  cases ht : p.2.toList with
  | nil => exact hne ht
  | cons c s =>
    have h1 := vocabulary_heads p hp c (by rw [ht]; simp)
    have h2 := hd c (by rw [ht]; simp)
    rw [← digit_iff, h1] at h2; cases h2

theorem digits_number {t : List Char} (h : Digits t) : IsNumber t :=
  ⟨[], t, [], .inl rfl, .inl h, .inl rfl, by simp⟩

/-- A reserved word that is no name is a number for no rule, and no path: it has no digit, and it
is made of hyphens and letters or is punctuation. -/
theorem reserved_kind : ∀ p ∈ vocabulary,
    (∃ c s, p.2.toList = c :: s ∧ nondigit c = true ∧ s.all nondigit = true) ∨
      ∃ c s, p.2.toList = c :: s ∧ fileChar c = false := by
  have key : ∀ p ∈ vocabulary, (match p.2.toList with
      | [] => false
      | c :: s => (nondigit c && s.all nondigit) || !fileChar c) = true := by decide +kernel
  intro p hp
  have := key p hp
  cases ht : p.2.toList with
  | nil => rw [ht] at this; cases this
  | cons c s =>
    rw [ht] at this
    simp only [Bool.or_eq_true, Bool.and_eq_true, Bool.not_eq_true'] at this
    rcases this with h | h
    · exact .inl ⟨c, s, rfl, h⟩
    · exact .inr ⟨c, s, rfl, h⟩

theorem number_digit {t : List Char} (h : IsNumber t) : ∃ c ∈ t, c.isDigit = true := by
  obtain ⟨g, m, x, -, hm, -, rfl⟩ := h
  have dig : ∀ a, Digits a → ∃ c ∈ a, c.isDigit = true := by
    rintro a ⟨hne, ha⟩
    obtain ⟨c, s, rfl⟩ := List.exists_cons_of_ne_nil hne
    exact ⟨c, by simp, ha c (by simp)⟩
  have : ∃ c ∈ m, c.isDigit = true := by
    rcases hm with h | ⟨a, ha, rfl⟩ | ⟨a, b, ha, -, rfl⟩ | ⟨b, hb, rfl⟩
    · exact dig m h
    · obtain ⟨c, hc, h⟩ := dig a ha; exact ⟨c, by simp [hc], h⟩
    · obtain ⟨c, hc, h⟩ := dig a ha; exact ⟨c, by simp [hc], h⟩
    · obtain ⟨c, hc, h⟩ := dig b hb; exact ⟨c, by simp [hc], h⟩
  obtain ⟨c, hc, h⟩ := this
  exact ⟨c, by simp [hc], h⟩

theorem number_not_reserved {t : List Char} (h : IsNumber t) : ¬ Reserved t := by
  rintro ⟨p, hp, rfl⟩
  obtain ⟨c, hc, hd⟩ := number_digit h
  have := vocabulary_heads p hp c hc
  rw [← digit_iff, this] at hd; cases hd

theorem path_not_reserved {t : List Char} (h : IsPath t) (hn : ¬ IsName t) : ¬ Reserved t := by
  rintro ⟨p, hp, rfl⟩
  rcases reserved_kind p hp with ⟨c, s, e, hc, hs⟩ | ⟨c, s, e, hc⟩
  · refine hn ⟨c, s, e, (nondigit_iff c).1 hc, fun d hd => .inl ?_⟩
    rw [← nondigit_iff]
    exact List.all_eq_true.1 hs d hd
  · have := (fileChar_iff c).2 (h.2 c (by rw [e]; simp))
    rw [hc] at this; cases this

/-- What stands by itself is taken as the token it is meant to be. -/
theorem whole_best {k : Kind} {t : List Char} (h : Whole k t) :
    best mainRules t = some (k, t.length) := by
  obtain ⟨b, hb, hres⟩ := rules_split
  cases h with
  | @word k w h => exact vocabulary_best _ h
  | loglog => decide +kernel
  | integer h =>
    refine best_whole (b := b) hb ((integer_iff t).2 h) fun p hp hL => ?_
    exact digits_not_reserved h (hres p hp t hL (digits_joins h))
  | name h hr =>
    refine best_whole (b := b ++ [(.INTEGER, integerRx)])
      (a := [(.FLOAT_VAL, floatRx), (.FILE_NAME, fileRx)]) (by rw [hb]; simp)
      ((id_iff t).2 h) fun p hp hL => ?_
    rcases List.mem_append.1 hp with hp | hp
    · exact hr (hres p hp t hL (name_joins h))
    · rw [List.mem_singleton.1 hp, integer_iff] at hL
      exact digits_not_name hL h
  | number h hd hn =>
    refine best_whole (b := b ++ [(.INTEGER, integerRx), (.ID, idRx)])
      (a := [(.FILE_NAME, fileRx)]) (by rw [hb]; simp)
      ((float_iff t).2 h) fun p hp hL => ?_
    rcases List.mem_append.1 hp with hp | hp
    · exact number_not_reserved h (hres p hp t hL (number_joins h))
    · simp only [List.mem_cons, List.not_mem_nil, or_false] at hp
      rcases hp with rfl | rfl
      · exact hd ((integer_iff t).1 hL)
      · exact hn ((id_iff t).1 hL)
  | path h hn hf =>
    refine best_whole (b := b ++ [(.INTEGER, integerRx), (.ID, idRx), (.FLOAT_VAL, floatRx)])
      (a := []) (by rw [hb]; simp) ((file_iff t).2 h) fun p hp hL => ?_
    rcases List.mem_append.1 hp with hp | hp
    · exact path_not_reserved h hn (hres p hp t hL (path_joins h))
    · simp only [List.mem_cons, List.not_mem_nil, or_false] at hp
      rcases hp with rfl | rfl | rfl
      · exact hf (digits_number ((integer_iff t).1 hL))
      · exact hn ((id_iff t).1 hL)
      · exact hf ((float_iff t).1 hL)
  | @single b h =>
    refine best_whole (b := [(.WS, wsRx), (.COMMENT, commentRx)] ++ literals1.map litRule)
      (r := stringRx)
      (a := literals2.map litRule ++ [(.SINGLE_QUOTED_STRING, sqRx), (.INTEGER, integerRx),
        (.ID, idRx), (.FLOAT_VAL, floatRx), (.FILE_NAME, fileRx)])
      (by simp [mainRules]) ?_ fun p hp hL => ?_
    · rw [string_iff, sq_iff]
      refine .inl ⟨b, rfl, (okq_iff _ _).2 fun u v e => ?_⟩
      have := h.1 u v e
      cases u with
      | nil => cases this
      | cons c u => rwa [List.getLast?_cons_cons]
    · exact string_before (.inl rfl) hp hL
  | @double b h =>
    refine best_whole (b := [(.WS, wsRx), (.COMMENT, commentRx)] ++ literals1.map litRule)
      (r := stringRx)
      (a := literals2.map litRule ++ [(.SINGLE_QUOTED_STRING, sqRx), (.INTEGER, integerRx),
        (.ID, idRx), (.FLOAT_VAL, floatRx), (.FILE_NAME, fileRx)])
      (by simp [mainRules]) ?_ fun p hp hL => ?_
    · rw [string_iff, dq_iff]
      exact .inr ⟨b, rfl, h⟩
    · exact string_before (.inr rfl) hp hL
where
  string_before {c : Char} {u : List Char} {p : Kind × Rx} (hc : c = '\'' ∨ c = '"')
      (hp : p ∈ [(.WS, wsRx), (.COMMENT, commentRx)] ++ literals1.map litRule)
      (hL : p.2.Lang (c :: u)) : False := by
    simp only [List.mem_append, List.mem_cons, List.not_mem_nil, or_false, List.mem_map] at hp
    have hcom : ¬ Lang commentRx (c :: u) := fun h => by
      obtain ⟨b, e, -⟩ := (comment_iff _).1 h
      simp only [List.cons.injEq] at e
      rcases hc with rfl | rfl <;> exact absurd e.1 (by decide)
    rcases hp with (rfl | rfl) | ⟨q, hq, rfl⟩
    · rcases (ws_iff _).1 hL with ⟨d, e, hd⟩ | h
      · simp only [List.cons.injEq] at e
        obtain ⟨rfl, -⟩ := e
        rcases hc with rfl | rfl <;> rcases hd with h | h | h | h <;> exact absurd h (by decide)
      · exact hcom h
    · exact hcom hL
    · rw [litRule, lang_lit_iff] at hL
      have key : ∀ q ∈ literals1, q.2.head? ≠ some '\'' ∧ q.2.head? ≠ some '"' := by decide +kernel
      have := key q hq
      rw [← hL] at this
      rcases hc with rfl | rfl
      · exact this.1 rfl
      · exact this.2 rfl

theorem double_append {b r : List Char} (h : Double b) : ¬ Double (b ++ '"' :: r) := by
  induction h with
  | nil =>
    intro h
    rw [List.nil_append] at h
    generalize hw : '"' :: r = w at h
    cases h with
    | nil => cases hw
    | plain h _ _ => simp only [List.cons.injEq] at hw; exact h hw.1.symm
    | esc _ _ => simp only [List.cons.injEq] at hw; exact absurd hw.1 (by decide)
  | @plain c s h1 h2 _ ih =>
    intro h
    rw [List.cons_append] at h
    generalize hw : c :: (s ++ '"' :: r) = w at h
    cases h with
    | nil => cases hw
    | plain _ _ h => simp only [List.cons.injEq] at hw; rw [← hw.2] at h; exact ih h
    | esc _ _ => simp only [List.cons.injEq] at hw; exact h2 hw.1
  | @esc c s h1 _ ih =>
    intro h
    rw [List.cons_append, List.cons_append] at h
    generalize hw : '\\' :: c :: (s ++ '"' :: r) = w at h
    cases h with
    | nil => cases hw
    | plain _ h _ => simp only [List.cons.injEq] at hw; exact h hw.1.symm
    | esc _ h => simp only [List.cons.injEq] at hw; rw [← hw.2.2] at h; exact ih h

end Slat.Lex
