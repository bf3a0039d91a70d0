import Verif.StrSpec
import Verif.LexProps
import Mathlib.Data.List.Induction

/-!
# C84: string literals mean what they say
-/

namespace Slat.Lex

open Rx

set_option maxRecDepth 10000

/-! ## Replacing -/

section Replace

variable {x y : Char} {u : List Char}

theorem replace2_cons (a b c : Char) (h : y ≠ a) : replace2 a b c (y :: u) = y :: replace2 a b c u := by
  cases u with
  | nil => rfl
  | cons z u => rw [replace2, if_neg (by tauto)]

theorem rep_plain (hx : x ≠ '\\') (h1 : y ≠ '\\') (h2 : y ≠ x) (m : Nat) :
    replace2 '\\' x x (List.replicate m '\\' ++ y :: u) =
      List.replicate m '\\' ++ y :: replace2 '\\' x x u := by
  induction m with
  | zero => exact replace2_cons _ _ _ h1
  | succ m ih =>
    cases m with
    | zero =>
      show replace2 '\\' x x ('\\' :: y :: u) = _
      rw [replace2, if_neg (by tauto), replace2_cons _ _ _ h1]; rfl
    | succ m =>
      rw [List.replicate_succ, List.replicate_succ, List.cons_append, List.cons_append, replace2,
        if_neg (fun h => hx h.2.symm), ← List.cons_append, ← List.replicate_succ, ih]
      rfl

theorem rep_hit (hx : x ≠ '\\') (m : Nat) :
    replace2 '\\' x x (List.replicate m '\\' ++ x :: u) =
      List.replicate (m - 1) '\\' ++ x :: replace2 '\\' x x u := by
  induction m with
  | zero => exact replace2_cons _ _ _ hx
  | succ m ih =>
    cases m with
    | zero =>
      show replace2 '\\' x x ('\\' :: x :: u) = _
      rw [replace2, if_pos ⟨rfl, rfl⟩]; rfl
    | succ m =>
      rw [List.replicate_succ, List.replicate_succ, List.cons_append, List.cons_append, replace2,
        if_neg (fun h => hx h.2.symm), ← List.cons_append, ← List.replicate_succ, ih]
      simp [List.replicate_succ]

theorem rep_end (hx : x ≠ '\\') (m : Nat) :
    replace2 '\\' x x (List.replicate m '\\') = List.replicate m '\\' := by
  induction m with
  | zero => rfl
  | succ m ih =>
    cases m with
    | zero => rfl
    | succ m =>
      rw [List.replicate_succ, List.replicate_succ, replace2, if_neg (fun h => hx h.2.symm),
        ← List.replicate_succ, ih]

theorem bs_run (h1 : y ≠ '\\') (m : Nat) :
    replace2 '\\' '\\' '\\' (List.replicate m '\\' ++ y :: u) =
      List.replicate ((m + 1) / 2) '\\' ++ y :: replace2 '\\' '\\' '\\' u := by
  induction m using Nat.strongRecOn with
  | ind m ih =>
    match m with
    | 0 => exact replace2_cons _ _ _ h1
    | 1 =>
      show replace2 '\\' '\\' '\\' ('\\' :: y :: u) = _
      rw [replace2, if_neg (by tauto), replace2_cons _ _ _ h1]; rfl
    | m + 2 =>
      have e : (m + 2 + 1) / 2 = (m + 1) / 2 + 1 := by omega
      rw [List.replicate_succ, List.replicate_succ, List.cons_append, List.cons_append, replace2,
        if_pos ⟨rfl, rfl⟩, ih m (by omega), e, List.replicate_succ, List.cons_append]

theorem bs_end (m : Nat) : replace2 '\\' '\\' '\\' (List.replicate m '\\') =
      List.replicate ((m + 1) / 2) '\\' := by
  induction m using Nat.strongRecOn with
  | ind m ih =>
    match m with
    | 0 => rfl
    | 1 => rfl
    | m + 2 =>
      have e : (m + 2 + 1) / 2 = (m + 1) / 2 + 1 := by omega
      rw [List.replicate_succ, List.replicate_succ, replace2, if_pos ⟨rfl, rfl⟩, ih m (by omega),
        e, List.replicate_succ]

end Replace

/-- The three replacements. -/
def unesc (s : List Char) : List Char :=
  replace2 '\\' '\\' '\\' (replace2 '\\' '\'' '\'' (replace2 '\\' '"' '"' s))

theorem preprocess_eq (s : List Char) : preprocess s = unesc (strip s) := rfl

theorem escape_replicate (q : Char) (n : Nat) (s : List Char) :
    escape q (List.replicate n '\\' ++ s) = List.replicate (2 * n) '\\' ++ escape q s := by
  induction n with
  | zero => rfl
  | succ n ih =>
    rw [List.replicate_succ, List.cons_append, escape, if_pos (.inr rfl), ih]
    have : 2 * (n + 1) = 2 * n + 1 + 1 := by omega
    rw [this, List.replicate_succ, List.replicate_succ]; rfl

theorem runs (s : List Char) : ∃ n, s = List.replicate n '\\' ∨
    ∃ y r, y ≠ '\\' ∧ s = List.replicate n '\\' ++ y :: r := by
  induction s with
  | nil => exact ⟨0, .inl rfl⟩
  | cons c s ih =>
    by_cases hc : c = '\\'
    · subst hc
      obtain ⟨n, rfl | ⟨y, r, hy, rfl⟩⟩ := ih
      · exact ⟨n + 1, .inl rfl⟩
      · exact ⟨n + 1, .inr ⟨y, r, hy, rfl⟩⟩
    · exact ⟨0, .inr ⟨c, s, hc, rfl⟩⟩

/-- Undoing the escapes gives the text back, also with one more backslash at the end. -/
theorem unesc_escape {q : Char} (hq : Quote q) (k : Nat) (e : List Char) (he : e = [] ∨ e = ['\\']) :
    ∀ s : List Char, s.length ≤ k → unesc (escape q s ++ e) = s ++ e := by
  induction k with
  | zero =>
    intro s hs
    rw [List.length_eq_zero_iff.1 (Nat.le_zero.1 hs)]
    rcases he with rfl | rfl <;> rfl
  | succ k ih =>
    intro s hs
    have h1 : ('\'' : Char) ≠ '\\' := by decide
    have h2 : ('"' : Char) ≠ '\\' := by decide
    have h3 : ('"' : Char) ≠ '\'' := by decide
    obtain ⟨n, rfl | ⟨y, r, hy, rfl⟩⟩ := runs s
    · have e0 : escape q (List.replicate n '\\') = List.replicate (2 * n) '\\' := by
        have := escape_replicate q n []
        simpa [escape] using this
      rw [e0]
      rcases he with rfl | rfl
      · rw [List.append_nil, List.append_nil, unesc, rep_end h2, rep_end h1, bs_end]
        congr 1; omega
      · rw [← List.replicate_succ', ← List.replicate_succ', unesc, rep_end h2, rep_end h1, bs_end]
        congr 1; omega
    · have hr : unesc (escape q r ++ e) = r ++ e := ih r (by
        simp only [List.length_append, List.length_cons] at hs; omega)
      rw [escape_replicate, List.append_assoc]
      by_cases hyq : y = q
      · have e1 : List.replicate (2 * n) '\\' ++ (escape q (y :: r) ++ e) =
            List.replicate (2 * n + 1) '\\' ++ y :: (escape q r ++ e) := by
          rw [escape, if_pos (.inl hyq), List.replicate_succ']; simp
        rw [e1, unesc]
        have e2 : (2 * n + 1) / 2 = n := by omega
        rcases hq with rfl | rfl
        · subst hyq
          rw [rep_plain h2 h1 h3.symm, rep_hit h1, bs_run h1]
          simp only [Nat.add_sub_cancel, e2]
          rw [← unesc, hr]; simp
        · subst hyq
          rw [rep_hit h2, rep_plain h1 h2 h3, bs_run h2]
          simp only [Nat.add_sub_cancel, e2]
          rw [← unesc, hr]; simp
      · have e1 : List.replicate (2 * n) '\\' ++ (escape q (y :: r) ++ e) =
            List.replicate (2 * n) '\\' ++ y :: (escape q r ++ e) := by
          rw [escape, if_neg (by tauto)]; rfl
        rw [e1, unesc]
        have e2 : (2 * n - 1 + 1) / 2 = n := by omega
        have e3 : (2 * n + 1) / 2 = n := by omega
        by_cases hy1 : y = '\''
        · subst hy1
          rw [rep_plain h2 h1 h3.symm, rep_hit h1, bs_run h1, e2, ← unesc, hr]; simp
        · by_cases hy2 : y = '"'
          · subst hy2
            rw [rep_hit h2, rep_plain h1 h2 h3, bs_run h2, e2, ← unesc, hr]; simp
          · rw [rep_plain h2 hy hy2, rep_plain h1 hy hy1, bs_run hy, e3, ← unesc, hr]; simp

/-! ## Stripping -/

theorem isQuote_iff (c : Char) : isQuote c = true ↔ Quote c := by simp [isQuote, Quote]

theorem other_quote (q : Char) : Quote (other q) := by
  unfold other; split
  · exact .inl rfl
  · exact .inr rfl

theorem quote_cases {q c : Char} (hq : Quote q) (hc : Quote c) : c = q ∨ c = other q := by
  rcases hq with rfl | rfl <;> rcases hc with rfl | rfl <;> simp [other]

theorem other_ne {q : Char} (hq : Quote q) : other q ≠ q ∧ other q ≠ '\\' := by
  rcases hq with rfl | rfl <;> decide

theorem lstrip_literal {q : Char} (hq : Quote q) (s : List Char) :
    (literal q s).dropWhile isQuote =
      if s.dropWhile (fun c => c == other q) = [] then []
      else escape q (s.dropWhile fun c => c == other q) ++ [q] := by
  have hqt : isQuote q = true := (isQuote_iff q).2 hq
  rw [literal, List.dropWhile_cons_of_pos hqt]
  induction s with
  | nil => simp [escape, hqt]
  | cons c s ih =>
    by_cases hc : c = other q
    · subst hc
      have h0 := other_ne hq
      have ho : isQuote (other q) = true := (isQuote_iff _).2 (other_quote q)
      rw [escape, if_neg (by tauto), List.cons_append, List.dropWhile_cons_of_pos ho, ih,
        List.dropWhile_cons_of_pos (by simp)]
    · rw [List.dropWhile_cons_of_neg (by simpa using hc), if_neg (by simp), escape]
      by_cases h1 : c = q ∨ c = '\\'
      · rw [if_pos h1, List.cons_append, List.dropWhile_cons_of_neg (by decide)]
      · rw [if_neg h1, List.cons_append, List.dropWhile_cons_of_neg]
        rw [isQuote_iff]
        intro h2
        rcases quote_cases hq h2 with h | h
        · exact h1 (.inl h)
        · exact hc h

theorem escape_append (q : Char) (s t : List Char) : escape q (s ++ t) = escape q s ++ escape q t := by
  induction s with
  | nil => rfl
  | cons c s ih =>
    rw [List.cons_append, escape, escape, ih]
    split <;> rfl

theorem rstrip_escape {q : Char} (hq : Quote q) (s : List Char) :
    unesc (((escape q s).reverse.dropWhile isQuote).reverse) = trimEnd q s := by
  have hqt : isQuote q = true := (isQuote_iff q).2 hq
  have hbs : ¬ isQuote '\\' = true := by decide
  induction s using List.reverseRecOn with
  | nil => rfl
  | append_singleton s c ih =>
    rw [trimEnd, escape_append, List.reverse_append, List.reverse_append, List.reverse_singleton]
    by_cases hc : c = other q
    · subst hc
      have h0 := other_ne hq
      have ho : isQuote (other q) = true := (isQuote_iff _).2 (other_quote q)
      have e1 : escape q [other q] = [other q] := by
        rw [escape, if_neg (by tauto)]; rfl
      rw [e1, List.reverse_singleton, List.singleton_append, List.dropWhile_cons_of_pos ho, ih,
        List.singleton_append, List.dropWhile_cons_of_pos (by simp), trimEnd]
    · have e0 : List.dropWhile (fun c => c == other q) ([c] ++ s.reverse) = c :: s.reverse := by
        rw [List.singleton_append, List.dropWhile_cons_of_neg (by simpa using hc)]
      rw [e0]
      simp only [List.reverse_reverse]
      by_cases h1 : c = q
      · subst h1
        have e1 : escape c [c] = ['\\', c] := by rw [escape, if_pos (.inl rfl)]; rfl
        rw [e1, if_pos rfl]
        show unesc ((List.dropWhile isQuote (c :: '\\' :: (escape c s).reverse)).reverse) = _
        rw [List.dropWhile_cons_of_pos hqt, List.dropWhile_cons_of_neg hbs, List.reverse_cons,
          List.reverse_reverse]
        exact unesc_escape hq s.length ['\\'] (.inr rfl) s (Nat.le_refl _)
      · rw [if_neg h1]
        have e1 : ∃ w, (escape q [c]).reverse = c :: w := by
          rw [escape]; split
          · exact ⟨['\\'], rfl⟩
          · exact ⟨[], rfl⟩
        obtain ⟨w, hw⟩ := e1
        have h2 : ¬ isQuote c = true := by
          rw [isQuote_iff]
          intro h
          rcases quote_cases hq h with h | h
          · exact h1 h
          · exact hc h
        rw [hw, List.cons_append, List.dropWhile_cons_of_neg h2, ← List.cons_append, ← hw,
          ← List.reverse_append, List.reverse_reverse, ← escape_append]
        have := unesc_escape hq (s ++ [c]).length [] (.inl rfl) (s ++ [c]) (Nat.le_refl _)
        rwa [List.append_nil, List.append_nil] at this

/-! ## The properties -/

/-- **C84.** What the interpreter makes of the literal for `s` between quotes `q`: `s` without the
other quotes at its start and at its end and, if it then ends in `q`, with a backslash for that
`q`. -/
theorem literal_value {q : Char} (hq : Quote q) (s : List Char) :
    preprocess (literal q s) = trimEnd q (s.dropWhile fun c => c == other q) := by
  rw [preprocess_eq, strip, lstrip_literal hq]
  split
  · rename_i h
    rw [h]; rfl
  · rw [List.reverse_append, List.reverse_singleton, List.singleton_append,
      List.dropWhile_cons_of_pos ((isQuote_iff q).2 hq), rstrip_escape hq]

example : preprocess (literal '"' "say \"hi\"".toList) = "say \"hi\\".toList := by
  rw [literal_value (.inr rfl)]; decide

theorem trimEnd_length (q : Char) (s : List Char) : (trimEnd q s).length ≤ s.length := by
  rw [trimEnd]
  have h := List.dropWhile_suffix (l := s.reverse) (fun c => c == other q)
  have h := h.length_le
  rw [List.length_reverse] at h
  split
  · simp
  · rename_i c r hr
    rw [hr, List.length_cons] at h
    split <;> simpa using h

theorem trimEnd_last {q : Char} (hq : Quote q) (s : List Char) (c : Char)
    (h : (trimEnd q s).getLast? = some c) : ¬ Quote c := by
  rw [trimEnd] at h
  split at h
  · cases h
  · rename_i d r hr
    split at h
    · simp only [List.getLast?_append, List.getLast?_singleton, Option.some_or,
        Option.some.injEq] at h
      rw [← h]
      rintro (h | h) <;> exact absurd h (by decide)
    · rename_i hdq
      simp only [List.getLast?_append, List.getLast?_singleton, Option.some_or,
        Option.some.injEq] at h
      subst h
      intro hd
      rcases quote_cases hq hd with h | h
      · exact hdq h
      · have := List.head?_dropWhile_not (fun c => c == other q) s.reverse
        rw [hr] at this
        simp [h] at this

/-- **C84.** A string comes out as it was meant exactly when it does not start with the other quote
and does not end with a quote of either kind. -/
theorem literal_round_trip {q : Char} (hq : Quote q) (s : List Char) :
    preprocess (literal q s) = s ↔
      s.head? ≠ some (other q) ∧ ∀ c, s.getLast? = some c → ¬ Quote c := by
  rw [literal_value hq]
  constructor
  · intro h
    refine ⟨fun h0 => ?_, fun c hc => trimEnd_last hq _ c (by rw [h]; exact hc)⟩
    cases s with
    | nil => cases h0
    | cons d s =>
      simp only [List.head?_cons, Option.some.injEq] at h0
      subst h0
      rw [List.dropWhile_cons_of_pos (by simp)] at h
      have h1 := trimEnd_length q (s.dropWhile fun c => c == other q)
      have h2 := (List.dropWhile_suffix (l := s) fun c => c == other q).length_le
      rw [h, List.length_cons] at h1
      omega
  · rintro ⟨h1, h2⟩
    have e1 : (s.dropWhile fun c => c == other q) = s := by
      cases s with
      | nil => rfl
      | cons d s =>
        rw [List.dropWhile_cons_of_neg]
        simpa using h1
    rw [e1]
    induction s using List.reverseRecOn with
    | nil => rfl
    | append_singleton s c =>
      have hc : ¬ Quote c := h2 c (by simp)
      have h3 : c ≠ other q := fun h => hc (h ▸ other_quote q)
      have h4 : c ≠ q := fun h => hc (h ▸ hq)
      rw [trimEnd, List.reverse_append, List.reverse_singleton, List.singleton_append,
        List.dropWhile_cons_of_neg (by simpa using h3)]
      simp [h4]

example : preprocess (literal '\'' "it's 5\" \\ wide".toList) = "it's 5\" \\ wide".toList :=
  (literal_round_trip (.inl rfl) _).2 ⟨by decide, by
    intro c hc
    have : c = 'e' := by simpa using hc.symm
    subst this
    rintro (h | h) <;> exact absurd h (by decide)⟩

theorem escape_last (q : Char) (s : List Char) : (escape q s).getLast? = s.getLast? := by
  induction s using List.reverseRecOn with
  | nil => rfl
  | append_singleton s c =>
    rw [escape_append, escape]
    split <;> simp [escape]

theorem escape_double (s : List Char) : Double (escape '"' s) := by
  induction s with
  | nil => exact .nil
  | cons c s ih =>
    rw [escape]
    split
    · rename_i h; exact .esc h ih
    · rename_i h; exact .plain (fun h' => h (.inl h')) (fun h' => h (.inr h')) ih

theorem escape_okq (s : List Char) (p : Char) : okq p (escape '\'' s) := by
  induction s generalizing p with
  | nil => trivial
  | cons c s ih =>
    rw [escape]
    split
    · exact ⟨by simp, by simp, ih c⟩
    · rename_i h; exact ⟨fun h' => absurd (.inl h') h, ih c⟩

theorem single_of_okq {b : List Char} (h : okq 'x' b) (hl : b.getLast? ≠ some '\\') : Single b := by
  refine ⟨fun u v e => ?_, hl⟩
  have := (okq_iff _ _).1 h u v e
  cases u with
  | nil => simp at this
  | cons c u => rwa [List.getLast?_cons_cons] at this

theorem apart_quote {q : Char} (hq : Quote q) (b s : List Char) : Apart (q :: (b ++ [q])) s := by
  intro l c hl _
  have : l = q := by
    rw [← List.cons_append, List.getLast?_append] at hl
    simpa using hl.symm
  subst this
  refine ⟨fun h => ?_, fun h => ?_⟩
  · rw [← joins_iff] at h
    rcases hq with rfl | rfl <;> exact absurd h (by decide)
  · have := congrArg List.length h
    simp at this

/-- **C84.** A double-quoted literal is one `STRING` token, whatever it holds and whatever follows. -/
theorem double_read (s r : List Char) :
    lex (literal '"' s ++ r) = .tok .STRING (literal '"' s) :: lex r :=
  token_read (.double (escape_double s)) (apart_quote (.inr rfl) _ _)

example : lex "\"a\\\\\"; print message \"b\";".toList =
    .tok .STRING "\"a\\\\\"".toList :: lex "; print message \"b\";".toList :=
  double_read ['a', '\\'] "; print message \"b\";".toList

/-- **C84.** A single-quoted literal is one `STRING` token, whatever follows, unless its text ends in
a backslash. -/
theorem single_read_partial {s : List Char} (h : s.getLast? ≠ some '\\') (r : List Char) :
    lex (literal '\'' s ++ r) = .tok .STRING (literal '\'' s) :: lex r :=
  token_read (.single (single_of_okq (escape_okq s 'x') (by rwa [escape_last])))
    (apart_quote (.inl rfl) _ _)

example : lex "'it\\'s'; print message 'b';".toList =
    .tok .STRING "'it\\'s'".toList :: lex "; print message 'b';".toList :=
  single_read_partial (s := "it's".toList) (by decide) "; print message 'b';".toList

theorem okq_append {p : Char} {a b : List Char} (ha : okq p a)
    (hb : okq ((p :: a).getLast (by simp)) b) : okq p (a ++ b) := by
  induction a generalizing p with
  | nil => simpa using hb
  | cons c a ih =>
    refine ⟨ha.1, ih ha.2 ?_⟩
    rwa [List.getLast_cons (by simp)] at hb

/-- **C84.** A single-quoted literal whose text ends in a backslash swallows everything up to a later
quote: both literals and what stands between them are one string. -/
theorem backslash_end_fails {s r : List Char} (hs : s.getLast? = some '\\')
    (hr : '\'' ∉ r) (hl : r.getLast? ≠ some '\\') (w : List Char) :
    lex (literal '\'' s ++ r ++ '\'' :: w) =
      .tok .STRING (literal '\'' s ++ r ++ ['\'']) :: lex w := by
  have hokr : ∀ (r : List Char) (p : Char), '\'' ∉ r → okq p r := by
    intro r
    induction r with
    | nil => intro p _; trivial
    | cons c r ih =>
      intro p h
      simp only [List.mem_cons, not_or] at h
      exact ⟨fun hc => absurd hc.symm h.1, ih c h.2⟩
  have hb : Single (escape '\'' s ++ '\'' :: r) := by
    refine single_of_okq (okq_append (escape_okq s 'x') ⟨fun _ => ?_, hokr r _ hr⟩) ?_
    · have h1 : (escape '\'' s).getLast? = some '\\' := by rw [escape_last, hs]
      have hne : escape '\'' s ≠ [] := by rintro h; rw [h] at h1; cases h1
      rw [List.getLast_cons hne]
      rw [List.getLast?_eq_some_getLast hne] at h1
      simpa using h1
    · rw [List.getLast?_append]
      cases r with
      | nil => simp
      | cons c r =>
        rw [List.getLast?_cons_cons]
        cases hc : (c :: r).getLast? with
        | none => simp at hc
        | some d => rw [hc] at hl; simpa using hl
  have key := token_read (.single hb) (apart_quote (.inl rfl) (escape '\'' s ++ '\'' :: r) w)
  simpa [literal] using key

/-- Two titles become one. -/
example : lex "'C:\\\\'; title 'b'; analyze;".toList =
    .tok .STRING "'C:\\\\'; title '".toList :: lex "b'; analyze;".toList :=
  backslash_end_fails (s := "C:\\".toList) (r := "; title ".toList) (by decide) (by decide)
    (by decide) "b'; analyze;".toList

/-- **C84.** A backslash before any other character is an error in a double-quoted string: the text
through that character is dropped and the quote that was to end the string starts one. -/
theorem dropped_escape_fails :
    tokens (lex "title \"C:\\dir\"; print message \"x\";".toList) =
      [(.TITLE, "title".toList), (.ID, "ir".toList), (.STRING, "\"; print message \"".toList),
        (.ID, ['x'])] := by decide +kernel

end Slat.Lex
