import Verif.LexSteps

/-!
# Written text is read as the tokens that it writes, and the lexer obeys the rules of ANTLR
-/

namespace Slat.Lex

open Rx

theorem append_last {b b' u : List Char} {q r : Char} (hu : u ≠ [])
    (h : b ++ q :: u = b' ++ [r]) : ∃ w, b' = b ++ q :: w := by
  rcases List.append_eq_append_iff.1 h with ⟨c, h1, h2⟩ | ⟨c, h1, h2⟩
  · cases c with
    | nil => simp only [List.nil_append, List.cons.injEq] at h2; exact absurd h2.2 hu
    | cons x c =>
      simp only [List.cons_append, List.cons.injEq] at h2
      obtain ⟨rfl, -⟩ := h2
      exact ⟨c, h1⟩
  · cases c with
    | nil =>
      simp only [List.nil_append, List.cons.injEq] at h2
      exact absurd h2.2.symm hu
    | cons x c =>
      simp only [List.cons_append, List.cons.injEq, List.nil_eq, List.append_eq_nil_iff] at h2
      exact absurd h2.2.2 (by simp)

/-- No rule goes on past a token that is set apart from what follows. -/
theorem whole_more {k : Kind} {t s : List Char} (h : Whole k t) (ha : Apart t s) {p : Kind × Rx}
    (hp : p ∈ mainRules) {u v : List Char} (hu : u ≠ []) (hs : s = u ++ v) :
    ¬ p.2.Lang (t ++ u) := by
  cases h with
  | @word k w h =>
    rcases vocabulary_shape _ h with h | ⟨c, hc, h⟩
    · exact wordy_more h ha hp hu hs
    · intro hL
      have hS := rule_shape hp hL
      simp only at h
      rw [h] at hS ha
      rcases shape_punct hS hc with h0 | ⟨rfl, rfl⟩
      · exact hu h0
      · exact (ha '$' '(' rfl (by rw [hs]; rfl)).2 rfl rfl
  | loglog =>
    intro hL
    have hS := rule_shape hp hL
    rcases shape_blank (c := ' ') (u := "loglog".toList ++ u) hS (.inl rfl) with h | h
    · cases h
    · have := congrArg List.length h
      simp at this
      exact hu this
  | integer h => exact wordy_more (digits_joins h) ha hp hu hs
  | name h _ => exact wordy_more (name_joins h) ha hp hu hs
  | number h _ _ => exact wordy_more (number_joins h) ha hp hu hs
  | path h _ _ => exact wordy_more (path_joins h) ha hp hu hs
  | @single b h =>
    intro hL
    have hS := rule_shape hp hL
    obtain ⟨b', e, hb'⟩ := shape_single (u := (b ++ ['\'']) ++ u) hS
    rw [List.append_assoc] at e
    obtain ⟨w, rfl⟩ := append_last hu e
    have := (okq_iff _ _).1 hb' b w rfl
    cases b with
    | nil => simp at this
    | cons c b => rw [List.getLast?_cons_cons] at this; exact h.2 this
  | @double b h =>
    intro hL
    have hS := rule_shape hp hL
    obtain ⟨b', e, hb'⟩ := shape_double (u := (b ++ ['"']) ++ u) hS
    rw [List.append_assoc] at e
    obtain ⟨w, rfl⟩ := append_last hu e
    exact double_append h hb'

theorem whole_ne_nil {k : Kind} {t : List Char} (h : Whole k t) : t ≠ [] := by
  cases h with
  | @word k w h =>
    rcases vocabulary_shape _ h with h | ⟨c, _, h⟩
    · exact h.1
    · simp only at h; rw [h]; simp
  | loglog => simp
  | integer h => exact h.1
  | name h _ => exact (name_joins h).1
  | number h _ _ => exact (number_joins h).1
  | path h _ _ => exact h.1
  | single _ | double _ => simp

theorem whole_kind {k : Kind} {t : List Char} (h : Whole k t) :
    k ≠ .WS ∧ k ≠ .COMMENT ∧ k ≠ .PYTHON_ESCAPE ∧ k ≠ .SINGLE_QUOTED_STRING := by
  cases h with
  | @word k w h =>
    have key : ∀ p ∈ vocabulary, p.1 ≠ .WS ∧ p.1 ≠ .COMMENT ∧ p.1 ≠ .PYTHON_ESCAPE ∧
      p.1 ≠ .SINGLE_QUOTED_STRING := by decide +kernel
    exact key _ h
  | _ => decide

theorem item_tok {k : Kind} (h : k ≠ .WS) (t : List Char) : item k t = .tok k t := by
  unfold item; split <;> simp_all

/-- A token before text that is set apart from it. -/
theorem run_whole {k : Kind} {t s : List Char} (h : Whole k t) (ha : Apart t s) :
    run ⟨.main, []⟩ (t ++ s) = .tok k t :: run ⟨.main, []⟩ s := by
  have hb : best (rulesOf .main) (t ++ s) = some (k, t.length) :=
    best_append (whole_best h) fun p hp u v hu hs => whole_more h ha hp hu hs
  have hk := whole_kind h
  rw [run_take (m := ⟨.main, []⟩) (whole_ne_nil h) hb
    (act_of_main (best_mem hb) _ hk.2.2.1), item_tok hk.1]

theorem ws_first : ∃ a, mainRules = [] ++ (Kind.WS, wsRx) :: a := ⟨_, rfl⟩

/-- A blank that does not start ` loglog` is skipped. -/
theorem run_blank {c : Char} {s : List Char} (h : Blank c) (hl : ¬ " loglog".toList <+: c :: s) :
    run ⟨.main, []⟩ (c :: s) = .skip [c] :: run ⟨.main, []⟩ s := by
  obtain ⟨a, e⟩ := ws_first
  have hb : best (rulesOf .main) ([c] ++ s) = some (.WS, [c].length) := by
    refine best_append (best_whole e ((ws_iff _).2 (.inl ⟨c, rfl, h⟩)) (by simp)) ?_
    intro p hp u v hu hs hL
    rcases shape_blank (rule_shape hp hL) h with h0 | h0
    · exact hu (by simpa using h0)
    · refine hl ⟨v, ?_⟩
      rw [hs]
      show [' ', 'l', 'o', 'g', 'l', 'o', 'g'] ++ v = _
      rw [← h0]; rfl
  exact run_take (m := ⟨.main, []⟩) (t := [c]) (by simp) hb rfl

/-- A comment is skipped to the end of the line. -/
theorem run_comment {b s : List Char} (h : ∀ c ∈ b, c ≠ '\r' ∧ c ≠ '\n') (hs : LineEnd s) :
    run ⟨.main, []⟩ ('#' :: (b ++ s)) = .skip ('#' :: b) :: run ⟨.main, []⟩ s := by
  obtain ⟨a, e⟩ := ws_first
  have hb : best (rulesOf .main) (('#' :: b) ++ s) = some (.WS, ('#' :: b).length) := by
    refine best_append (best_whole e
      ((ws_iff _).2 (.inr ((comment_iff _).2 ⟨b, rfl, h⟩))) (by simp)) ?_
    intro p hp u v hu hsu hL
    have := shape_comment (rule_shape hp hL)
    obtain ⟨c, u, rfl⟩ := List.exists_cons_of_ne_nil hu
    have h1 := this c (by simp)
    rcases hs c (by rw [hsu]; rfl) with rfl | rfl
    · exact h1.1 rfl
    · exact h1.2 rfl
  exact run_take (m := ⟨.main, []⟩) (t := '#' :: b) (by simp) hb rfl

/-- `$(` opens a Python expression. -/
theorem run_escape (s : List Char) :
    run ⟨.main, []⟩ ('$' :: '(' :: s) =
      .tok .PYTHON_ESCAPE ['$', '('] :: run (pyStack 0) s := by
  have hb : best (rulesOf .main) (['$', '('] ++ s) =
      some (.PYTHON_ESCAPE, (['$', '('] : List Char).length) := by
    refine best_append (by decide +kernel) ?_
    intro p hp u v hu _ hL
    rcases shape_punct (c := '$') (u := '(' :: u) (rule_shape hp hL) (by decide) with h | h
    · cases h
    · simp only [List.cons.injEq, true_and] at h; exact hu h
  exact run_take (m := ⟨.main, []⟩) (m' := pyStack 0) (t := ['$', '(']) (by simp) hb rfl

/-- A Python expression whose parentheses are balanced. -/
theorem run_python {b : List Char} (h : Balanced b) (s : List Char) :
    run ⟨.main, []⟩ ('$' :: '(' :: (b ++ ')' :: s)) =
      .tok .PYTHON_ESCAPE ['$', '('] :: ((pyTokens 0 b).map (fun p => Item.tok p.1 p.2) ++
        .tok .PYTHON_END [')'] :: run ⟨.main, []⟩ s) := by
  have h1 : (')' : Char) ≠ '(' := by decide
  rw [run_escape, run_balanced h, run_py, if_neg h1, if_pos rfl]

theorem tokens_append (a b : List Item) : tokens (a ++ b) = tokens a ++ tokens b := by
  induction a with
  | nil => rfl
  | cons i a ih => cases i <;> simp [tokens, ih]

theorem tokens_map (l : List (Kind × List Char)) :
    tokens (l.map fun p => Item.tok p.1 p.2) = l := by
  induction l with
  | nil => rfl
  | cons p l ih => simp [tokens, ih]

theorem clean_cons_tok {k : Kind} {t : List Char} {l : List Item} (h : Clean l) :
    Clean (.tok k t :: l) := by
  intro i hi
  rcases List.mem_cons.1 hi with rfl | hi
  · exact .inl ⟨k, t, rfl⟩
  · exact h i hi

theorem clean_cons_skip {t : List Char} {l : List Item} (h : Clean l) : Clean (.skip t :: l) := by
  intro i hi
  rcases List.mem_cons.1 hi with rfl | hi
  · exact .inr ⟨t, rfl⟩
  · exact h i hi

theorem clean_append_map {p : List (Kind × List Char)} {l : List Item} (h : Clean l) :
    Clean (p.map (fun p => Item.tok p.1 p.2) ++ l) := by
  intro i hi
  rcases List.mem_append.1 hi with hi | hi
  · obtain ⟨q, -, rfl⟩ := List.mem_map.1 hi
    exact .inl ⟨_, _, rfl⟩
  · exact h i hi

theorem written_run {ts : List (Kind × List Char)} {s : List Char} (h : Written ts s) :
    tokens (run ⟨.main, []⟩ s) = ts ∧ Clean (run ⟨.main, []⟩ s) := by
  induction h with
  | nil => rw [run_nil]; exact ⟨rfl, by simp [Clean]⟩
  | blank hb hl _ ih =>
    rw [run_blank hb hl]; exact ⟨ih.1, clean_cons_skip ih.2⟩
  | comment hb hl _ ih =>
    rw [run_comment hb hl]; exact ⟨ih.1, clean_cons_skip ih.2⟩
  | tok hw ha _ ih =>
    rw [run_whole hw ha]
    exact ⟨by rw [tokens, ih.1], clean_cons_tok ih.2⟩
  | python hb _ ih =>
    rw [run_python hb]
    refine ⟨?_, clean_cons_tok (clean_append_map (clean_cons_tok ih.2))⟩
    rw [tokens, tokens_append, tokens_map, tokens, ih.1]; rfl

/-! ## The lexer obeys the rules of ANTLR -/

/-- The stacks that come up. -/
def Good (m : Stack) : Prop := m = ⟨.main, []⟩ ∨ ∃ d, m = pyStack d

theorem act_good {m : Stack} (h : Good m) {k : Kind} (hk : k ∈ (rulesOf m.cur).map (·.1)) :
    ∃ m', act k m = some m' ∧ Good m' := by
  rcases h with rfl | ⟨d, rfl⟩
  · by_cases he : k = .PYTHON_ESCAPE
    · subst he; exact ⟨pyStack 0, rfl, .inr ⟨0, rfl⟩⟩
    · exact ⟨_, act_of_main hk _ he, .inl rfl⟩
  · cases d with
    | zero =>
      have : k = .PYTHON_END ∨ k = .PYMODELPAREN ∨ k = .OTHER := by
        simpa [pyStack, rulesOf, pyRules] using hk
      rcases this with rfl | rfl | rfl
      · exact ⟨_, rfl, .inl rfl⟩
      · exact ⟨pyStack 1, rfl, .inr ⟨1, rfl⟩⟩
      · exact ⟨pyStack 0, rfl, .inr ⟨0, rfl⟩⟩
    | succ d =>
      have : k = .NESTEDLPAREN ∨ k = .NESTEDRPAREN ∨ k = .NESTEDOTHER := by
        simpa [pyStack, rulesOf, nestedRules] using hk
      rcases this with rfl | rfl | rfl
      · exact ⟨pyStack (d + 2), rfl, .inr ⟨d + 2, rfl⟩⟩
      · exact ⟨_, rfl, .inr ⟨d, pyStack_pop d⟩⟩
      · exact ⟨pyStack (d + 1), rfl, .inr ⟨d + 1, rfl⟩⟩

theorem rules_ne_nil {m : Mode} {p : Kind × Rx} (hp : p ∈ rulesOf m) : ¬ p.2.Lang [] := by
  cases m with
  | main => exact fun h => shape_ne_nil (rule_shape hp h) rfl
  | py =>
    simp only [rulesOf, pyRules, List.mem_cons, List.not_mem_nil, or_false] at hp
    rcases hp with rfl | rfl | rfl
    · rw [lang_lit_iff]; simp
    · rw [lang_lit_iff]; simp
    · rw [anyRx, lang_sat_iff]; simp
  | nested =>
    simp only [rulesOf, nestedRules, List.mem_cons, List.not_mem_nil, or_false] at hp
    rcases hp with rfl | rfl | rfl
    · rw [lang_lit_iff]; simp
    · rw [lang_lit_iff]; simp
    · rw [anyRx, lang_sat_iff]; simp

theorem lit_inhabited (t : List Char) : NonVoid (lit t) := by
  induction t with
  | nil => trivial
  | cons c t ih => exact ⟨⟨c, by simp⟩, ih⟩

theorem rules_inhabited (m : Mode) : ∀ r ∈ (rulesOf m).map (·.2), NonVoid r := by
  intro r hr
  obtain ⟨p, hp, rfl⟩ := List.mem_map.1 hr
  have chr_in : ∀ c, NonVoid (chr c) := fun c => ⟨c, by simp⟩
  have dig : ∃ c, digit c = true := ⟨'0', by decide⟩
  have non : ∃ c, nondigit c = true := ⟨'a', by decide⟩
  have fil : ∃ c, fileChar c = true := ⟨'a', by decide⟩
  have any : NonVoid anyRx := ⟨'a', rfl⟩
  have com : NonVoid commentRx := ⟨chr_in _, ⟨'a', by decide⟩⟩
  have sq : NonVoid sqRx :=
    ⟨chr_in _, ⟨⟨'a', by decide⟩, lit_inhabited _, lit_inhabited _⟩, chr_in _⟩
  have dq : NonVoid dqRx :=
    ⟨chr_in _, ⟨⟨'a', by decide⟩, lit_inhabited _, lit_inhabited _⟩, chr_in _⟩
  have digs : NonVoid digitsRx := ⟨dig, dig⟩
  have sgn : NonVoid (opt signRx) := ⟨⟨chr_in _, chr_in _⟩, trivial⟩
  cases m with
  | main =>
    rcases mem_mainRules hp with rfl | rfl | ⟨q, -, rfl⟩ | rfl | rfl | rfl | rfl | rfl | rfl
    · exact ⟨chr_in _, chr_in _, chr_in _, chr_in _, com⟩
    · exact com
    · exact lit_inhabited _
    · exact ⟨sq, dq⟩
    · exact sq
    · exact digs
    · exact ⟨non, non, dig⟩
    · exact ⟨sgn, ⟨⟨digs, ⟨chr_in _, digs, trivial⟩, trivial⟩, chr_in _, digs⟩,
        ⟨⟨chr_in _, chr_in _⟩, sgn, digs⟩, trivial⟩
    · exact ⟨fil, fil⟩
  | py =>
    simp only [rulesOf, pyRules, List.mem_cons, List.not_mem_nil, or_false] at hp
    rcases hp with rfl | rfl | rfl
    · exact lit_inhabited _
    · exact lit_inhabited _
    · exact any
  | nested =>
    simp only [rulesOf, nestedRules, List.mem_cons, List.not_mem_nil, or_false] at hp
    rcases hp with rfl | rfl | rfl
    · exact lit_inhabited _
    · exact lit_inhabited _
    · exact any

theorem viable_le (rs : List Rx) (s : List Char) : viable rs s ≤ s.length := by
  induction s generalizing rs with
  | nil => simp [viable]
  | cons c s ih =>
    rw [viable]
    split
    · simp
    · have := ih (rs.map (deriv c)); simp only [List.length_cons]; omega

/-- `viable` counts the characters that some rule can still go on from. -/
theorem viable_spec (rs : List Rx) (hin : ∀ r ∈ rs, NonVoid r) (s : List Char)
    (h0 : ∃ r ∈ rs, ∃ u, Lang r u) :
    (∃ r ∈ rs, ∃ u, Lang r (s.take (viable rs s) ++ u)) ∧
      (viable rs s = s.length ∨ ¬ ∃ r ∈ rs, ∃ u, Lang r (s.take (viable rs s + 1) ++ u)) := by
  induction s generalizing rs with
  | nil => exact ⟨by simpa [viable] using h0, .inl rfl⟩
  | cons c s ih =>
    have hall : (rs.map (deriv c)).all dead = true ↔ ¬ ∃ r ∈ rs, ∃ u, Lang r (c :: u) := by
      rw [List.all_eq_true]
      constructor
      · rintro h ⟨r, hr, u, hu⟩
        have := (dead_iff _ (deriv_inhabited c r (hin r hr))).1 (h _ (List.mem_map.2 ⟨r, hr, rfl⟩)) u
        exact this ((deriv_lang c r u).2 hu)
      · intro h x hx
        obtain ⟨r, hr, rfl⟩ := List.mem_map.1 hx
        rw [dead_iff _ (deriv_inhabited c r (hin r hr))]
        exact fun u hu => h ⟨r, hr, u, (deriv_lang c r u).1 hu⟩
    rw [viable]
    by_cases hd : (rs.map (deriv c)).all dead = true
    · rw [if_pos hd]
      refine ⟨by simpa using h0, .inr ?_⟩
      simpa using hall.1 hd
    · rw [if_neg hd]
      rw [hall, not_not] at hd
      have hin' : ∀ r ∈ rs.map (deriv c), NonVoid r := by
        intro x hx
        obtain ⟨r, hr, rfl⟩ := List.mem_map.1 hx
        exact deriv_inhabited c r (hin r hr)
      have hd' : ∃ r ∈ rs.map (deriv c), ∃ u, Lang r u := by
        obtain ⟨r, hr, u, hu⟩ := hd
        exact ⟨_, List.mem_map.2 ⟨r, hr, rfl⟩, u, (deriv_lang c r u).2 hu⟩
      have conv : ∀ t, (∃ r ∈ rs.map (deriv c), ∃ u, Lang r (t ++ u)) ↔
          ∃ r ∈ rs, ∃ u, Lang r (c :: t ++ u) := by
        intro t
        constructor
        · rintro ⟨x, hx, u, hu⟩
          obtain ⟨r, hr, rfl⟩ := List.mem_map.1 hx
          exact ⟨r, hr, u, (deriv_lang c r _).1 hu⟩
        · rintro ⟨r, hr, u, hu⟩
          exact ⟨_, List.mem_map.2 ⟨r, hr, rfl⟩, u, (deriv_lang c r _).2 hu⟩
      obtain ⟨h1, h2⟩ := ih _ hin' hd'
      refine ⟨?_, ?_⟩
      · rw [List.take_succ_cons, ← conv]; exact h1
      · rcases h2 with h2 | h2
        · left; rw [List.length_cons, h2]
        · right; rw [List.take_succ_cons, ← conv]; exact h2

theorem viable_rules (m : Mode) (t : List Char) :
    (∃ r ∈ (rulesOf m).map (·.2), ∃ u, Lang r (t ++ u)) ↔ Viable (rulesOf m) t := by
  constructor
  · rintro ⟨r, hr, u, hu⟩
    obtain ⟨p, hp, rfl⟩ := List.mem_map.1 hr
    exact ⟨p, hp, u, hu⟩
  · rintro ⟨p, hp, u, hu⟩
    exact ⟨p.2, List.mem_map.2 ⟨p, hp, rfl⟩, u, hu⟩

/-- Every mode has a rule that matches something. -/
theorem rules_some (m : Mode) : ∃ r ∈ (rulesOf m).map (·.2), ∃ u, Lang r u := by
  cases m
  · exact ⟨wsRx, by simp [rulesOf, mainRules], [' '], (ws_iff _).2 (.inl ⟨' ', rfl, .inl rfl⟩)⟩
  · exact ⟨anyRx, by simp [rulesOf, pyRules], ['a'], .sat rfl⟩
  · exact ⟨anyRx, by simp [rulesOf, nestedRules], ['a'], .sat rfl⟩

theorem lexF_lexes (f : Nat) : ∀ (m : Stack) (s : List Char), Good m → s.length ≤ f →
    Lexes m s (lexF f m s) := by
  induction f with
  | zero =>
    intro m s _ hs
    rw [List.length_eq_zero_iff.1 (Nat.le_zero.1 hs), lexF_nil]; exact .nil
  | succ f ih =>
    intro m s hm hs
    cases s with
    | nil => rw [lexF_nil]; exact .nil
    | cons c s =>
      simp only [List.length_cons, Nat.add_le_add_iff_right] at hs
      have hdrop : ∀ n, (s.drop n).length ≤ f := fun n => by rw [List.length_drop]; omega
      have hbad : best (rulesOf m.cur) (c :: s) = none →
          Lexes m (c :: s) (.bad ((c :: s).take
            (viable ((rulesOf m.cur).map (·.2)) (c :: s) + 1)) ::
            lexF f m (s.drop (viable ((rulesOf m.cur).map (·.2)) (c :: s)))) := by
        intro hb
        obtain ⟨v1, v2⟩ := viable_spec _ (rules_inhabited m.cur) (c :: s) (rules_some m.cur)
        have hle := viable_le ((rulesOf m.cur).map (·.2)) (c :: s)
        generalize viable ((rulesOf m.cur).map (·.2)) (c :: s) = n at v1 v2 hle ⊢
        rw [viable_rules] at v1 v2
        by_cases hn : n = (c :: s).length
        · subst hn
          obtain ⟨p, hp, u, hu⟩ := v1
          have e1 : (c :: s).take ((c :: s).length + 1) = (c :: s).take (s.length + 1) := by simp
          have e2 : s.drop (c :: s).length = [] := by simp
          have e3 : (c :: s).take s.length ++ (c :: s).drop s.length = c :: s :=
            List.take_append_drop _ _
          rw [e1, e2, lexF_nil]
          refine .drop (n := s.length) (best_none hb) (by simp) ?_ (.inr rfl) ?_
          · refine ⟨p, hp, (c :: s).drop s.length ++ u, ?_⟩
            rw [← List.append_assoc, e3]
            rwa [List.take_length] at hu
          · rw [List.drop_succ_cons, List.drop_length]; exact .nil
        · refine .drop (best_none hb) (by omega) v1 (.inl (v2.resolve_left hn)) ?_
          exact ih m _ hm (hdrop n)
      rw [lexF]
      cases hb : best (rulesOf m.cur) (c :: s) with
      | none => exact hbad hb
      | some q =>
        obtain ⟨k, n⟩ := q
        have ht := best_takes hb
        cases n with
        | zero =>
          obtain ⟨b, r, a, e, -, hL, -, -⟩ := ht
          exact absurd hL (rules_ne_nil (p := (k, r)) (by rw [e]; simp))
        | succ n =>
          obtain ⟨m', ha, hg⟩ := act_good hm (best_mem hb)
          simp only [ha]
          exact .take ht ha (ih m' _ hg (hdrop n))

end Slat.Lex
