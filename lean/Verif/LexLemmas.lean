import Verif.LexRx

/-!
# The rules of the lexer: what they match, and the steps of the lexer
-/

namespace Slat.Lex

open Rx

/-! ## Classes of characters -/

theorem digit_iff (c : Char) : digit c = true ↔ c.isDigit = true := by
  simp only [digit, inRange, Char.isDigit, Bool.and_eq_true, decide_eq_true_eq]

theorem nondigit_iff (c : Char) : nondigit c = true ↔ NameStart c := by
  simp only [nondigit, inRange, NameStart, Char.isAlpha, Char.isUpper, Char.isLower,
    Bool.and_eq_true, Bool.or_eq_true, decide_eq_true_eq, beq_iff_eq]
  have h1 : ('a' : Char).val = 97 := rfl
  have h2 : ('z' : Char).val = 122 := rfl
  have h3 : ('A' : Char).val = 65 := rfl
  have h4 : ('Z' : Char).val = 90 := rfl
  rw [h1, h2, h3, h4]
  simp only [ge_iff_le]
  tauto

theorem fileChar_iff (c : Char) : fileChar c = true ↔ NameChar c ∨ c = '/' := by
  have h1 := nondigit_iff c
  have h2 := digit_iff c
  simp only [nondigit, digit, Bool.or_eq_true, beq_iff_eq] at h1 h2
  simp only [fileChar, Bool.or_eq_true, beq_iff_eq, NameChar, ← h1, ← h2]
  tauto

/-- `Joins` as a test. -/
def joins (c : Char) : Bool := fileChar c || c == '+' || c == '-'

theorem joins_iff (c : Char) : joins c = true ↔ Joins c := by
  simp only [joins, Bool.or_eq_true, beq_iff_eq, fileChar_iff, Joins]
  tauto

/-! ## What the rules match -/

theorem integer_iff (t : List Char) : Lang integerRx t ↔ Digits t := by
  rw [integerRx, plus_sat_iff, Digits]
  simp only [digit_iff]

theorem digits_iff (t : List Char) : Lang digitsRx t ↔ Digits t := integer_iff t

theorem id_iff (t : List Char) : Lang idRx t ↔ IsName t := by
  rw [idRx, lang_seq_iff]
  simp only [lang_sat_iff, star_alt_sat_iff, nondigit_iff, digit_iff]
  constructor
  · rintro ⟨u, v, rfl, ⟨c, rfl, hc⟩, hv⟩
    exact ⟨c, v, rfl, hc, hv⟩
  · rintro ⟨c, r, rfl, hc, hr⟩
    exact ⟨[c], r, rfl, ⟨c, rfl, hc⟩, hr⟩

theorem file_iff (t : List Char) : Lang fileRx t ↔ IsPath t := by
  rw [fileRx, plus_sat_iff, IsPath]
  simp only [fileChar_iff]

theorem sign_iff (t : List Char) : Lang (opt signRx) t ↔ Sign t := by
  rw [lang_opt_iff, signRx, lang_alt_iff, lang_chr_iff, lang_chr_iff, Sign]
  tauto

theorem fraction_iff (t : List Char) : Lang fractionRx t ↔ Mantissa t := by
  rw [fractionRx, lang_alt_iff, lang_seq_iff, lang_seq_iff]
  simp only [lang_opt_iff, lang_seq_iff, lang_chr_iff, digits_iff, Mantissa]
  constructor
  · rintro (⟨u, v, rfl, hu, ⟨a, b, rfl, rfl, hb | rfl⟩ | rfl⟩ | ⟨u, v, rfl, rfl, hv⟩)
    · exact .inr (.inr (.inl ⟨u, b, hu, hb, rfl⟩))
    · exact .inr (.inl ⟨u, hu, rfl⟩)
    · exact .inl (by simpa using hu)
    · exact .inr (.inr (.inr ⟨v, hv, rfl⟩))
  · rintro (h | ⟨a, ha, rfl⟩ | ⟨a, b, ha, hb, rfl⟩ | ⟨b, hb, rfl⟩)
    · exact .inl ⟨t, [], by simp, h, .inr rfl⟩
    · exact .inl ⟨a, ['.'], rfl, ha, .inl ⟨['.'], [], rfl, rfl, .inr rfl⟩⟩
    · exact .inl ⟨a, '.' :: b, rfl, ha, .inl ⟨['.'], b, rfl, rfl, .inl hb⟩⟩
    · exact .inr ⟨['.'], b, rfl, rfl, hb⟩

theorem exponent_iff (t : List Char) : Lang (opt exponentRx) t ↔ Exponent t := by
  rw [lang_opt_iff, exponentRx, lang_seq_iff]
  simp only [lang_alt_iff, lang_chr_iff, lang_seq_iff, sign_iff, digits_iff, Exponent]
  constructor
  · rintro (⟨u, v, rfl, rfl | rfl, g, d, rfl, hg, hd⟩ | rfl)
    · exact .inr ⟨'e', g, d, .inl rfl, hg, hd, rfl⟩
    · exact .inr ⟨'E', g, d, .inr rfl, hg, hd, rfl⟩
    · exact .inl rfl
  · rintro (rfl | ⟨e, g, d, rfl | rfl, hg, hd, rfl⟩)
    · exact .inr rfl
    · exact .inl ⟨['e'], g ++ d, rfl, .inl rfl, g, d, rfl, hg, hd⟩
    · exact .inl ⟨['E'], g ++ d, rfl, .inr rfl, g, d, rfl, hg, hd⟩

theorem float_iff (t : List Char) : Lang floatRx t ↔ IsNumber t := by
  rw [floatRx, lang_seq_iff]
  simp only [lang_seq_iff, sign_iff, fraction_iff, exponent_iff, IsNumber]
  constructor
  · rintro ⟨g, v, rfl, hg, m, x, rfl, hm, hx⟩
    exact ⟨g, m, x, hg, hm, hx, by simp⟩
  · rintro ⟨g, m, x, hg, hm, hx, rfl⟩
    exact ⟨g, m ++ x, by simp, hg, m, x, rfl, hm, hx⟩

/-- Each quote comes after a backslash; `p` is the character before the text. -/
def okq : Char → List Char → Prop
  | _, [] => True
  | p, c :: s => (c = '\'' → p = '\\') ∧ okq c s

theorem okq_iff (p : Char) (b : List Char) :
    okq p b ↔ ∀ u v, b = u ++ '\'' :: v → (p :: u).getLast? = some '\\' := by
  induction b generalizing p with
  | nil => simp [okq]
  | cons c s ih =>
    rw [okq, ih]
    constructor
    · rintro ⟨h1, h2⟩ u v h
      cases u with
      | nil =>
        simp only [List.nil_append, List.cons.injEq] at h
        simp [h1 h.1]
      | cons d u =>
        simp only [List.cons_append, List.cons.injEq] at h
        obtain ⟨rfl, h⟩ := h
        rw [List.getLast?_cons_cons]
        exact h2 u v h
    · intro h
      refine ⟨?_, ?_⟩
      · rintro rfl
        simpa using h [] s rfl
      · rintro u v rfl
        have := h (c :: u) v rfl
        rwa [List.getLast?_cons_cons] at this

theorem sqBody_iff (s : List Char) :
    Lang sqBody s ↔ (∃ c, s = [c] ∧ c ≠ '\'') ∨ s = ['\\', '\''] ∨ s = ['\\', '\\'] := by
  rw [sqBody, lang_alt_iff, lang_alt_iff, lang_sat_iff, lang_lit_iff, lang_lit_iff]
  simp only [bne_iff_ne]

theorem star_sq_okq {r : Rx} {b : List Char} (h : Lang r b) (hr : r = star sqBody) (p : Char) :
    okq p b := by
  induction h generalizing p with
  | eps | sat _ | altL _ | altR _ | seq _ _ => cases hr
  | nil => trivial
  | cons hu hv _ ihv =>
    cases hr
    rcases (sqBody_iff _).1 hu with ⟨c, rfl, hc⟩ | rfl | rfl
    · exact ⟨fun h => absurd h hc, ihv rfl c⟩
    · exact ⟨by simp, by simp, ihv rfl _⟩
    · exact ⟨by simp, by simp, ihv rfl _⟩

theorem okq_star_sq (n : Nat) : ∀ (b : List Char) (p : Char), b.length ≤ n → okq p b →
    (p = '\\' → b.head? ≠ some '\'') → Lang (star sqBody) b := by
  induction n with
  | zero =>
    intro b p hn _ _
    rw [List.length_eq_zero_iff.1 (Nat.le_zero.1 hn)]; exact .nil
  | succ n ih =>
    intro b p hn h hp
    cases b with
    | nil => exact .nil
    | cons c s =>
      have hc : c ≠ '\'' := fun hc => hp (h.1 hc) (by simp [hc])
      have plain : (c = '\\' → s.head? ≠ some '\'') → Lang (star sqBody) (c :: s) := fun hh =>
        .cons (s := [c]) ((sqBody_iff _).2 (.inl ⟨c, rfl, hc⟩))
          (ih s c (by simpa using hn) h.2 hh)
      by_cases hq : c = '\\' ∧ s.head? = some '\''
      · obtain ⟨rfl, hq⟩ := hq
        cases s with
        | nil => cases hq
        | cons d s =>
          simp only [List.head?_cons, Option.some.injEq] at hq
          subst hq
          refine .cons (s := ['\\', '\'']) ((sqBody_iff _).2 (.inr (.inl rfl))) ?_
          exact ih s '\'' (by simp only [List.length_cons] at hn; omega) h.2.2 (by simp)
      · exact plain fun h1 h2 => hq ⟨h1, h2⟩

theorem sq_iff (t : List Char) :
    Lang sqRx t ↔ ∃ b, t = '\'' :: (b ++ ['\'']) ∧ okq 'x' b := by
  rw [sqRx, lang_seq_iff]
  simp only [lang_seq_iff, lang_chr_iff]
  constructor
  · rintro ⟨u, v, rfl, rfl, b, w, rfl, hb, rfl⟩
    exact ⟨b, rfl, star_sq_okq hb rfl _⟩
  · rintro ⟨b, rfl, hb⟩
    exact ⟨['\''], b ++ ['\''], rfl, rfl, b, ['\''], rfl,
      okq_star_sq b.length b 'x' (Nat.le_refl _) hb (by simp), rfl⟩

theorem dqBody_iff (s : List Char) :
    Lang dqBody s ↔ (∃ c, s = [c] ∧ c ≠ '\\' ∧ c ≠ '"') ∨ s = ['\\', '"'] ∨ s = ['\\', '\\'] := by
  rw [dqBody, lang_alt_iff, lang_alt_iff, lang_sat_iff, lang_lit_iff, lang_lit_iff]
  simp only [bne_iff_ne, Bool.and_eq_true]

theorem star_dq_double {r : Rx} {b : List Char} (h : Lang r b) (hr : r = star dqBody) :
    Double b := by
  induction h with
  | eps | sat _ | altL _ | altR _ | seq _ _ => cases hr
  | nil => exact .nil
  | cons hu hv _ ihv =>
    cases hr
    rcases (dqBody_iff _).1 hu with ⟨c, rfl, hc⟩ | rfl | rfl
    · exact .plain hc.2 hc.1 (ihv rfl)
    · exact .esc (.inl rfl) (ihv rfl)
    · exact .esc (.inr rfl) (ihv rfl)

theorem double_star_dq {b : List Char} (h : Double b) : Lang (star dqBody) b := by
  induction h with
  | nil => exact .nil
  | @plain c s h1 h2 _ ih =>
    exact .cons (s := [c]) ((dqBody_iff _).2 (.inl ⟨c, rfl, h2, h1⟩)) ih
  | @esc c s h1 _ ih =>
    rcases h1 with rfl | rfl
    · exact .cons (s := ['\\', '"']) ((dqBody_iff _).2 (.inr (.inl rfl))) ih
    · exact .cons (s := ['\\', '\\']) ((dqBody_iff _).2 (.inr (.inr rfl))) ih

theorem dq_iff (t : List Char) : Lang dqRx t ↔ ∃ b, t = '"' :: (b ++ ['"']) ∧ Double b := by
  rw [dqRx, lang_seq_iff]
  simp only [lang_seq_iff, lang_chr_iff]
  constructor
  · rintro ⟨u, v, rfl, rfl, b, w, rfl, hb, rfl⟩
    exact ⟨b, rfl, star_dq_double hb rfl⟩
  · rintro ⟨b, rfl, hb⟩
    exact ⟨['"'], b ++ ['"'], rfl, rfl, b, ['"'], rfl, double_star_dq hb, rfl⟩

theorem string_iff (t : List Char) : Lang stringRx t ↔ Lang sqRx t ∨ Lang dqRx t :=
  lang_alt_iff _ _ _

theorem comment_iff (t : List Char) :
    Lang commentRx t ↔ ∃ b, t = '#' :: b ∧ ∀ c ∈ b, c ≠ '\r' ∧ c ≠ '\n' := by
  rw [commentRx, lang_seq_iff]
  simp only [lang_chr_iff, star_sat_iff, Bool.and_eq_true, bne_iff_ne]
  constructor
  · rintro ⟨u, v, rfl, rfl, hv⟩
    exact ⟨v, rfl, hv⟩
  · rintro ⟨b, rfl, hb⟩
    exact ⟨['#'], b, rfl, rfl, hb⟩

theorem ws_iff (t : List Char) :
    Lang wsRx t ↔ (∃ c, t = [c] ∧ Blank c) ∨ Lang commentRx t := by
  rw [wsRx, lang_alt_iff, lang_alt_iff, lang_alt_iff, lang_alt_iff]
  simp only [lang_chr_iff, Blank]
  constructor
  · rintro (rfl | rfl | rfl | rfl | h)
    · exact .inl ⟨_, rfl, .inl rfl⟩
    · exact .inl ⟨_, rfl, .inr (.inl rfl)⟩
    · exact .inl ⟨_, rfl, .inr (.inr (.inl rfl))⟩
    · exact .inl ⟨_, rfl, .inr (.inr (.inr rfl))⟩
    · exact .inr h
  · rintro (⟨c, rfl, rfl | rfl | rfl | rfl⟩ | h)
    · exact .inl rfl
    · exact .inr (.inl rfl)
    · exact .inr (.inr (.inl rfl))
    · exact .inr (.inr (.inr (.inl rfl)))
    · exact .inr (.inr (.inr (.inr h)))

/-! ## The shapes of what the rules match -/

/-- Punctuation: characters that are tokens by themselves and join with nothing. -/
def puncts : List Char := ['{', '}', '[', ']', '(', ')', '*', ',', ';', ':', '$']

/-- The possible forms of a text matched by a rule of the main mode. -/
inductive Shape : List Char → Prop
  | word {u : List Char} : u ≠ [] → (∀ c ∈ u, joins c = true) → Shape u
  | punct {c : Char} : c ∈ puncts → Shape [c]
  | escape : Shape ['$', '(']
  | blank {c : Char} : Blank c → Shape [c]
  | comment {b : List Char} : (∀ c ∈ b, c ≠ '\r' ∧ c ≠ '\n') → Shape ('#' :: b)
  | loglog : Shape [' ', 'l', 'o', 'g', 'l', 'o', 'g']
  | single {b : List Char} : okq 'x' b → Shape ('\'' :: (b ++ ['\'']))
  | double {b : List Char} : Double b → Shape ('"' :: (b ++ ['"']))

/-- The same for literals, as a test. -/
def litShape (u : List Char) : Bool :=
  (u != [] && u.all joins) || (match u with | [c] => puncts.contains c | _ => false) ||
    u == ['$', '('] || u == [' ', 'l', 'o', 'g', 'l', 'o', 'g']

theorem litShape_shape {u : List Char} (h : litShape u = true) : Shape u := by
  simp only [litShape, Bool.or_eq_true, Bool.and_eq_true, bne_iff_ne, beq_iff_eq,
    List.all_eq_true] at h
  rcases h with ((⟨h1, h2⟩ | h) | rfl) | rfl
  · exact .word h1 h2
  · split at h
    · exact .punct (by simpa using h)
    · cases h
  · exact .escape
  · exact .loglog

theorem literals_shape : ∀ p ∈ literals1 ++ literals2, litShape p.2 = true := by
  decide +kernel

theorem mem_mainRules {p : Kind × Rx} (h : p ∈ mainRules) :
    p = (.WS, wsRx) ∨ p = (.COMMENT, commentRx) ∨
    (∃ q ∈ literals1 ++ literals2, p = (q.1, lit q.2)) ∨ p = (.STRING, stringRx) ∨
    p = (.SINGLE_QUOTED_STRING, sqRx) ∨ p = (.INTEGER, integerRx) ∨ p = (.ID, idRx) ∨
    p = (.FLOAT_VAL, floatRx) ∨ p = (.FILE_NAME, fileRx) := by
  simp only [mainRules, List.mem_append, List.mem_cons, List.not_mem_nil, or_false, List.mem_map,
    litRule] at h ⊢
  rcases h with ((((h | h) | ⟨q, hq, rfl⟩) | h) | ⟨q, hq, rfl⟩) | h
  all_goals first
    | exact .inr (.inr (.inl ⟨q, .inl hq, rfl⟩))
    | exact .inr (.inr (.inl ⟨q, .inr hq, rfl⟩))
    | tauto

theorem digits_joins {t : List Char} (h : Digits t) : t ≠ [] ∧ ∀ c ∈ t, joins c = true :=
  ⟨h.1, fun c hc => (joins_iff c).2 (.inl (.inr (h.2 c hc)))⟩

theorem sign_joins {t : List Char} (h : Sign t) : ∀ c ∈ t, joins c = true := by
  rcases h with rfl | rfl | rfl
  · simp
  · decide
  · decide

theorem mantissa_joins {t : List Char} (h : Mantissa t) : t ≠ [] ∧ ∀ c ∈ t, joins c = true := by
  have hp : joins '.' = true := by decide
  rcases h with h | ⟨a, ha, rfl⟩ | ⟨a, b, ha, hb, rfl⟩ | ⟨b, hb, rfl⟩
  · exact digits_joins h
  · refine ⟨by simp, ?_⟩
    simp only [List.mem_append, List.mem_singleton]
    rintro c (hc | rfl)
    · exact (digits_joins ha).2 c hc
    · exact hp
  · refine ⟨by simp, ?_⟩
    simp only [List.mem_append, List.mem_cons]
    rintro c (hc | rfl | hc)
    · exact (digits_joins ha).2 c hc
    · exact hp
    · exact (digits_joins hb).2 c hc
  · refine ⟨by simp, ?_⟩
    simp only [List.mem_cons]
    rintro c (rfl | hc)
    · exact hp
    · exact (digits_joins hb).2 c hc

theorem exponent_joins {t : List Char} (h : Exponent t) : ∀ c ∈ t, joins c = true := by
  rcases h with rfl | ⟨e, g, d, he, hg, hd, rfl⟩
  · simp
  · simp only [List.mem_cons, List.mem_append]
    rintro c (rfl | hc | hc)
    · rcases he with rfl | rfl <;> decide
    · exact sign_joins hg c hc
    · exact (digits_joins hd).2 c hc

theorem number_joins {t : List Char} (h : IsNumber t) : t ≠ [] ∧ ∀ c ∈ t, joins c = true := by
  obtain ⟨g, m, x, hg, hm, hx, rfl⟩ := h
  refine ⟨?_, ?_⟩
  · intro h
    simp only [List.append_eq_nil_iff] at h
    exact (mantissa_joins hm).1 h.1.2
  · simp only [List.mem_append]
    rintro c ((hc | hc) | hc)
    · exact sign_joins hg c hc
    · exact (mantissa_joins hm).2 c hc
    · exact exponent_joins hx c hc

theorem name_joins {t : List Char} (h : IsName t) : t ≠ [] ∧ ∀ c ∈ t, joins c = true := by
  obtain ⟨c, r, rfl, hc, hr⟩ := h
  refine ⟨by simp, ?_⟩
  intro d hd
  rw [joins_iff]
  rcases List.mem_cons.1 hd with rfl | hd
  · exact .inl (.inl hc)
  · exact .inl (hr d hd)

theorem path_joins {t : List Char} (h : IsPath t) : t ≠ [] ∧ ∀ c ∈ t, joins c = true := by
  refine ⟨h.1, fun c hc => (joins_iff c).2 ?_⟩
  rcases h.2 c hc with h | h
  · exact .inl h
  · exact .inr (.inl h)

theorem rule_shape {p : Kind × Rx} (h : p ∈ mainRules) {u : List Char} (hu : p.2.Lang u) :
    Shape u := by
  have hc : ∀ u, Lang commentRx u → Shape u := fun u hu => by
    obtain ⟨b, rfl, hb⟩ := (comment_iff u).1 hu
    exact .comment hb
  have hq : ∀ u, Lang sqRx u → Shape u := fun u hu => by
    obtain ⟨b, rfl, hb⟩ := (sq_iff u).1 hu
    exact .single hb
  rcases mem_mainRules h with rfl | rfl | ⟨q, hm, rfl⟩ | rfl | rfl | rfl | rfl | rfl | rfl
  · rcases (ws_iff u).1 hu with ⟨c, rfl, hb⟩ | hu
    · exact .blank hb
    · exact hc u hu
  · exact hc u hu
  · rw [(lang_lit_iff _ _).1 hu]
    exact litShape_shape (literals_shape q hm)
  · rcases (string_iff u).1 hu with hu | hu
    · exact hq u hu
    · obtain ⟨b, rfl, hb⟩ := (dq_iff u).1 hu
      exact .double hb
  · exact hq u hu
  · have := digits_joins ((integer_iff u).1 hu); exact .word this.1 this.2
  · have := name_joins ((id_iff u).1 hu); exact .word this.1 this.2
  · have := number_joins ((float_iff u).1 hu); exact .word this.1 this.2
  · have := path_joins ((file_iff u).1 hu); exact .word this.1 this.2

theorem shape_ne_nil {u : List Char} (h : Shape u) : u ≠ [] := by
  cases h with
  | word h _ => exact h
  | _ => simp

theorem puncts_not_joins : ∀ c ∈ puncts, joins c = false := by decide

theorem blank_not_joins {c : Char} (h : Blank c) : joins c = false := by
  rcases h with rfl | rfl | rfl | rfl <;> decide

/-- A match that starts with a joining character is a word. -/
theorem shape_word {c : Char} {u : List Char} (h : Shape (c :: u)) (hc : joins c = true) :
    ∀ d ∈ u, joins d = true := by
  generalize hw : c :: u = w at h
  cases h with
  | word _ h => subst hw; exact fun d hd => h d (by simp [hd])
  | punct hp =>
    simp only [List.cons.injEq] at hw
    rw [hw.1, puncts_not_joins _ hp] at hc; cases hc
  | blank hb =>
    simp only [List.cons.injEq] at hw
    rw [hw.1, blank_not_joins hb] at hc; cases hc
  | escape | loglog =>
    simp only [List.cons.injEq] at hw
    rw [hw.1] at hc; exact absurd hc (by decide)
  | comment _ | single _ | double _ =>
    simp only [List.cons.injEq] at hw
    rw [hw.1] at hc; exact absurd hc (by decide)

/-- A match that starts with punctuation is that character, or `$(`. -/
theorem shape_punct {c : Char} {u : List Char} (h : Shape (c :: u)) (hc : c ∈ puncts) :
    u = [] ∨ (c = '$' ∧ u = ['(']) := by
  generalize hw : c :: u = w at h
  cases h with
  | word _ h =>
    subst hw
    have := h c (by simp)
    rw [puncts_not_joins _ hc] at this; cases this
  | punct _ | blank _ => simp only [List.cons.injEq] at hw; exact .inl hw.2
  | escape => simp only [List.cons.injEq] at hw; exact .inr hw
  | loglog | comment _ | single _ | double _ =>
    simp only [List.cons.injEq] at hw
    rw [hw.1] at hc; exact absurd hc (by decide)

/-- A match that starts with a blank is that blank or ` loglog`. -/
theorem shape_blank {c : Char} {u : List Char} (h : Shape (c :: u)) (hc : Blank c) :
    u = [] ∨ c :: u = [' ', 'l', 'o', 'g', 'l', 'o', 'g'] := by
  have hj := blank_not_joins hc
  have hp : c ∉ puncts := by rcases hc with rfl | rfl | rfl | rfl <;> decide
  have h1 : c ≠ '#' ∧ c ≠ '\'' ∧ c ≠ '"' ∧ c ≠ '$' := by
    rcases hc with rfl | rfl | rfl | rfl <;> decide
  generalize hw : c :: u = w at h
  cases h with
  | word _ h =>
    subst hw
    have := h c (by simp)
    rw [hj] at this; cases this
  | punct _ | blank _ => simp only [List.cons.injEq] at hw; exact .inl hw.2
  | loglog => exact .inr rfl
  | escape => simp only [List.cons.injEq] at hw; exact absurd hw.1 h1.2.2.2
  | comment _ => simp only [List.cons.injEq] at hw; exact absurd hw.1 h1.1
  | single _ => simp only [List.cons.injEq] at hw; exact absurd hw.1 h1.2.1
  | double _ => simp only [List.cons.injEq] at hw; exact absurd hw.1 h1.2.2.1

/-- A match that starts with `#` is a comment. -/
theorem shape_comment {u : List Char} (h : Shape ('#' :: u)) : ∀ c ∈ u, c ≠ '\r' ∧ c ≠ '\n' := by
  generalize hw : '#' :: u = w at h
  cases h with
  | word _ h => subst hw; have := h '#' (by simp); exact absurd this (by decide)
  | punct hp => simp only [List.cons.injEq] at hw; rw [← hw.1] at hp; exact absurd hp (by decide)
  | blank hp =>
    simp only [List.cons.injEq] at hw
    rw [← hw.1] at hp
    rcases hp with h | h | h | h <;> exact absurd h (by decide)
  | comment h => simp only [List.cons.injEq] at hw; rw [hw.2]; exact h
  | escape | loglog | single _ | double _ => simp only [List.cons.injEq] at hw; cases hw.1

/-- A match that starts with a single quote is a single-quoted string. -/
theorem shape_single {u : List Char} (h : Shape ('\'' :: u)) :
    ∃ b, u = b ++ ['\''] ∧ okq 'x' b := by
  generalize hw : '\'' :: u = w at h
  cases h with
  | word _ h => subst hw; have := h '\'' (by simp); exact absurd this (by decide)
  | punct hp => simp only [List.cons.injEq] at hw; rw [← hw.1] at hp; exact absurd hp (by decide)
  | blank hp =>
    simp only [List.cons.injEq] at hw
    rw [← hw.1] at hp
    rcases hp with h | h | h | h <;> exact absurd h (by decide)
  | @single b h => simp only [List.cons.injEq] at hw; exact ⟨b, hw.2, h⟩
  | escape | loglog | comment _ | double _ => simp only [List.cons.injEq] at hw; cases hw.1

/-- A match that starts with a double quote is a double-quoted string. -/
theorem shape_double {u : List Char} (h : Shape ('"' :: u)) : ∃ b, u = b ++ ['"'] ∧ Double b := by
  generalize hw : '"' :: u = w at h
  cases h with
  | word _ h => subst hw; have := h '"' (by simp); exact absurd this (by decide)
  | punct hp => simp only [List.cons.injEq] at hw; rw [← hw.1] at hp; exact absurd hp (by decide)
  | blank hp =>
    simp only [List.cons.injEq] at hw
    rw [← hw.1] at hp
    rcases hp with h | h | h | h <;> exact absurd h (by decide)
  | @double b h => simp only [List.cons.injEq] at hw; exact ⟨b, hw.2, h⟩
  | escape | loglog | comment _ | single _ => simp only [List.cons.injEq] at hw; cases hw.1

end Slat.Lex
