import Verif.GramText
import Verif.GramOnly
import Verif.LexProps

/-!
# C85: scripts are read as the commands that they write
-/

namespace Slat.Gram

open Slat.Lex (Kind)
open Slat.Interp
open G

set_option maxRecDepth 10000

/-! ## The grammar -/

/-- **C85.** The grammar is unambiguous: no row of tokens can be read as two different scripts. -/
theorem unambiguous {u : List Tok} {a b : List Cmd} (ha : Derives script u a)
    (hb : Derives script u b) : a = b :=
  (script_ll.unique ha hb (r := []) (r' := []) rfl (fol_nil _) (fol_nil _)).2

example : Derives script (toks [kw .IM "im", name "i", name "f", kw .SEMICOLON ";"]) [.im "i" "f"] :=
  ⟨0, [some (.im "i" "f")], ⟨[toks [kw .IM "im", name "i", name "f", kw .SEMICOLON ";"]], by simp,
    .cons ⟨by simp [toks, kw, Word.tokens], .inr ⟨_, ⟨(_, ";"), ⟨toks [kw .IM "im", name "i", name "f"],
      [(.SEMICOLON, ";".toList)], rfl, .inr (.inr (.inr (.inl ⟨("i", "f"), ⟨("im", "i", "f"),
        ⟨_, _, rfl, ⟨"im".toList, rfl, rfl⟩, ["i".toList].map (Prod.mk .ID), _, rfl,
          ⟨_, rfl, rfl⟩, ⟨"f".toList, rfl, rfl⟩⟩, rfl⟩, rfl⟩))), ⟨_, rfl, rfl⟩⟩, rfl⟩, rfl⟩⟩
      .nil⟩, rfl⟩

/-- **C85.** The parser of the model reads exactly what the grammar derives. -/
theorem parse_iff (ts : List Tok) (cs : List Cmd) : parse ts = some cs ↔ Derives script ts cs :=
  script_ll.parse_iff ts cs

/-! ## Semicolons -/

/-- The types of the tokens of a dictionary. -/
def dictKinds : List Kind :=
  [.LPAREN, .RPAREN, .LBRACKET, .RBRACKET, .COMMA, .COLON, .ID, .STRING, .INTEGER, .FLOAT_VAL]

/-- The types of the tokens of a grammar. -/
def kinds : {α : Type} → G α → List Kind
  | _, .tok k => [k]
  | _, .eps _ => []
  | _, .seq g h => kinds g ++ kinds h
  | _, .alt g h => kinds g ++ kinds h
  | _, .star g => kinds g
  | _, .map _ g => kinds g
  | _, .dict => dictKinds

theorem parses_kinds {D : List Tok → Entries → Prop}
    (hD : ∀ u e, D u e → ∀ x ∈ u, x.1 ∈ dictKinds) {α : Type} (g : G α) :
    ∀ {u : List Tok} {a : α}, Parses D g u a → ∀ x ∈ u, x.1 ∈ kinds g := by
  induction g with
  | tok k =>
    rintro u a ⟨t, rfl, -⟩ x hx
    rw [List.mem_singleton.1 hx]
    simp [kinds]
  | eps b => rintro u a ⟨rfl, -⟩ x hx; simp at hx
  | seq g h ihg ihh =>
    rintro u a ⟨v, w, rfl, h1, h2⟩ x hx
    rw [kinds, List.mem_append]
    rcases List.mem_append.1 hx with hx | hx
    · exact .inl (ihg h1 x hx)
    · exact .inr (ihh h2 x hx)
  | alt g h ihg ihh =>
    rintro u a (h1 | h1) x hx
    · rw [kinds, List.mem_append]; exact .inl (ihg h1 x hx)
    · rw [kinds, List.mem_append]; exact .inr (ihh h1 x hx)
  | star g ih =>
    rintro u a ⟨us, rfl, h⟩ x hx
    rw [kinds]
    induction h with
    | nil => simp at hx
    | cons h1 _ ih2 =>
      rw [List.flatten_cons] at hx
      rcases List.mem_append.1 hx with hx | hx
      · exact ih h1.2 x hx
      · exact ih2 hx
  | map f g ih =>
    rintro u a ⟨b, h, -⟩ x hx
    exact ih h x hx
  | dict => intro u a h x hx; exact hD _ _ h x hx

theorem dictN_kinds (n : Nat) : ∀ u e, DictN n u e → ∀ x ∈ u, x.1 ∈ dictKinds := by
  induction n with
  | zero => intro u e h; exact h.elim
  | succ n ih =>
    rintro u e ⟨t, v, rfl, h⟩ x hx
    rcases List.mem_cons.1 hx with rfl | hx
    · simp [dictKinds]
    · have h1 := parses_kinds ih dictBody h x hx
      have h2 : ∀ k ∈ kinds dictBody, k ∈ dictKinds := by decide +kernel
      exact h2 _ h1

theorem body_kinds {u : List Tok} {c : Cmd} (h : Derives command_body u c) :
    ∀ x ∈ u, x.1 ≠ .SEMICOLON ∧ x.1 ≠ .WS := by
  obtain ⟨n, h⟩ := h
  intro x hx
  have h1 := parses_kinds (dictN_kinds n) _ h x hx
  have h2 : ∀ k ∈ kinds command_body, k ≠ .SEMICOLON ∧ k ≠ .WS := by decide +kernel
  exact h2 _ h1

theorem split_unique {u u' v v' : List Tok} {t t' : List Char}
    (hu : ∀ x ∈ u, x.1 ≠ .SEMICOLON) (hu' : ∀ x ∈ u', x.1 ≠ .SEMICOLON)
    (e : u ++ (.SEMICOLON, t) :: v = u' ++ (.SEMICOLON, t') :: v') : u = u' ∧ v = v' := by
  induction u generalizing u' with
  | nil =>
    cases u' with
    | nil => simp at e; exact ⟨rfl, e.2⟩
    | cons x u' =>
      simp at e
      exact absurd (by rw [← e.1]) (hu' x (by simp))
  | cons x u ih =>
    cases u' with
    | nil =>
      simp at e
      exact absurd (by rw [e.1]) (hu x (by simp))
    | cons x' u' =>
      rw [List.cons_append, List.cons_append, List.cons.injEq] at e
      have := ih (fun y hy => hu y (by simp [hy])) (fun y hy => hu' y (by simp [hy])) e.2
      exact ⟨by rw [e.1, this.1], this.2⟩

/-- What a script derives, up to its first semicolon and after it. -/
theorem script_iff {u v : List Tok} {t : List Char} {cs : List Cmd}
    (hu : ∀ x ∈ u, x.1 ≠ .SEMICOLON ∧ x.1 ≠ .WS) :
    Derives script (u ++ (.SEMICOLON, t) :: v) cs ↔
      ∃ c l, Derives command_body u c ∧ Derives script v l ∧ cs = c :: l := by
  constructor
  · rintro ⟨n, l, ⟨us, e, h⟩, rfl⟩
    cases h with
    | nil => simp at e
    | @cons w o us l h1 h2 =>
      rw [List.flatten_cons] at e
      obtain ⟨hw, (⟨s, ⟨t', rfl, -⟩, -⟩ | ⟨c, ⟨⟨c', s⟩, ⟨b, w2, rfl, hc, ⟨t', rfl, -⟩⟩, rfl⟩, rfl⟩)⟩ := h1
      · cases u with
        | nil => simp at e
        | cons x u =>
          simp at e
          exact absurd (by rw [e.1]) (hu x (by simp)).2
      · have hb := body_kinds ⟨n, hc⟩
        rw [List.append_assoc] at e
        obtain ⟨rfl, rfl⟩ := split_unique (fun x hx => (hu x hx).1) (fun x hx => (hb x hx).1) e
        exact ⟨c', _, ⟨n, hc⟩, ⟨n, l, ⟨us, rfl, h2⟩, rfl⟩, rfl⟩
  · rintro ⟨c, l, ⟨n, hc⟩, ⟨m, l', ⟨us, rfl, h⟩, rfl⟩, rfl⟩
    have hc' := hc.up (Nat.le_max_left n m)
    have h' : Derives script us.flatten (l'.filterMap id) := ⟨m, l', ⟨us, rfl, h⟩, rfl⟩
    obtain ⟨k, hk⟩ : ∃ k, n ≤ k ∧ m ≤ k := ⟨max n m, Nat.le_max_left _ _, Nat.le_max_right _ _⟩
    refine ⟨k, some c :: l', ⟨(u ++ [(.SEMICOLON, t)]) :: us, by simp, .cons ⟨by simp, .inr ⟨c,
      ⟨(c, String.ofList t), ⟨u, _, rfl, hc.up hk.1, ⟨t, rfl, rfl⟩⟩, rfl⟩, rfl⟩⟩ ?_⟩, by simp⟩
    clear h' hc'
    induction h with
    | nil => exact .nil
    | cons q _ ih => exact .cons ⟨q.1, q.2.up hk.2⟩ ih

/-- **C85.** A script is cut at its semicolons; it is accepted if every piece is a command, and one
piece that is not makes the parser reject the whole script. -/
theorem semicolons {u v : List Tok} {t : List Char}
    (hu : ∀ x ∈ u, x.1 ≠ .SEMICOLON ∧ x.1 ≠ .WS) :
    parse (u ++ (.SEMICOLON, t) :: v) =
      (parseAs command_body u).bind fun c => (parse v).map (c :: ·) := by
  refine Option.ext fun cs => ?_
  rw [parse_iff, script_iff hu]
  simp only [Option.bind_eq_some_iff, Option.map_eq_some_iff, parse_iff, body_ll.parse_iff]
  constructor
  · rintro ⟨c, l, h1, h2, rfl⟩; exact ⟨c, h1, l, h2, rfl⟩
  · rintro ⟨c, h1, l, h2, rfl⟩; exact ⟨c, l, h1, h2, rfl⟩

/-- **C85.** The empty script is a script. -/
theorem empty_script : parse [] = some [] :=
  (parse_iff _ _).2 ⟨0, [], ⟨[], rfl, .nil⟩, rfl⟩

/-- **C85.** A last command without its semicolon makes the parser reject the whole script. -/
theorem semicolon_needed {u : List Tok} (hu : ∀ x ∈ u, x.1 ≠ .SEMICOLON ∧ x.1 ≠ .WS) (hne : u ≠ []) :
    parse u = none := by
  cases hp : parse u with
  | none => rfl
  | some cs =>
    rw [parse_iff] at hp
    obtain ⟨n, l, ⟨us, e, h⟩, -⟩ := hp
    cases h with
    | nil => exact absurd e hne
    | @cons w o us l h1 h2 =>
      rw [List.flatten_cons] at e
      obtain ⟨hw, (⟨s, ⟨t', rfl, -⟩, -⟩ | ⟨c, ⟨⟨c', s⟩, ⟨b, w2, rfl, hc, ⟨t', rfl, -⟩⟩, rfl⟩, rfl⟩)⟩ := h1
      · exact absurd rfl (hu (.WS, t') (by rw [e]; simp)).2
      · exact absurd rfl (hu (.SEMICOLON, t') (by rw [e]; simp)).1

theorem mapM_cons_option {α β : Type} (f : α → Option β) (a : α) (l : List α) :
    (a :: l).mapM f = (f a).bind fun b => (l.mapM f).map (b :: ·) := by
  rw [List.mapM_cons]
  cases f a with
  | none => rfl
  | some b => cases l.mapM f <;> rfl

/-- **C85.** So a script is read piece by piece. -/
theorem pieces {us : List (List Tok)} (h : ∀ u ∈ us, ∀ x ∈ u, x.1 ≠ .SEMICOLON ∧ x.1 ≠ .WS) :
    parse (us.flatMap fun u => u ++ [(.SEMICOLON, [';'])]) = us.mapM (parseAs command_body) := by
  induction us with
  | nil => exact empty_script
  | cons u us ih =>
    rw [List.flatMap_cons, List.append_assoc, List.singleton_append, semicolons (h u (by simp)),
      ih fun u hu => h u (by simp [hu]), mapM_cons_option]

/-- **C85.** One piece that is not a command, anywhere in the text, and nothing of the script is
done, not even the commands before it. -/
theorem one_mistake {s : List Char} {us : List (List Tok)} {u : List Tok}
    (h : ∀ u ∈ us, ∀ x ∈ u, x.1 ≠ .SEMICOLON)
    (hs : Lex.tokens (Lex.lex s) = us.flatMap fun u => u ++ [(.SEMICOLON, [';'])]) (hu : u ∈ us)
    (hb : ∀ c, ¬ Derives command_body u c) (ev : String → Except Err Val) : runText ev s = none := by
  have hw : ∀ u ∈ us, ∀ x ∈ u, x.1 ≠ .SEMICOLON ∧ x.1 ≠ .WS := by
    intro v hv x hx
    refine ⟨h v hv x hx, (Lex.parser_kinds (s := s) (t := x.2) ?_).1⟩
    rw [hs]
    exact List.mem_flatMap.2 ⟨v, hv, by simp [hx]⟩
  have hn : parseAs command_body u = none := by
    cases hp : parseAs command_body u with
    | none => rfl
    | some c => exact absurd ((body_ll.parse_iff _ _).1 hp) (hb c)
  have hm : us.mapM (parseAs command_body) = none := by
    clear hs h hw
    induction us with
    | nil => simp at hu
    | cons v us ih =>
      rw [mapM_cons_option]
      rcases List.mem_cons.1 hu with rfl | hu
      · rw [hn]; rfl
      · rw [ih hu]; cases parseAs command_body v <;> rfl
  rw [runText, hs, pieces hw, hm]
  rfl

example (ev : String → Except Err Val) : runText ev "title 'a'; analyse;".toList = none := by
  refine one_mistake (us := [[(.TITLE, "title".toList), (.STRING, "'a'".toList)],
    [(.ID, "analyse".toList)]]) (u := [(.ID, "analyse".toList)]) (by decide) (by decide +kernel)
    (by simp) ?_ ev
  intro c hc
  have : parseAs command_body [(.ID, "analyse".toList)] = some c := (body_ll.parse_iff _ _).2 hc
  have hn : (parseAs command_body [(.ID, "analyse".toList)]).isSome = false := by decide +kernel
  rw [this] at hn
  simp at hn

/-! ## What is written is read -/

/-- **C85.** Every text that writes a script, with any layout (`Lex.Written`), in any of the orders
that are allowed and with any spelling of the numbers, is read as exactly its commands. -/
theorem script_read {p : Pen} {l : List (Style × Cmd)} {s : List Char}
    (h : ∀ c ∈ l, OkCmd p c.2) (hs : Lex.Written (toks (writeScript p l)) s) :
    parse (Lex.tokens (Lex.lex s)) = some (l.map (·.2)) := by
  rw [(Lex.written_read hs).1, parse_iff]
  exact der_script l h

/-- **C85.** Then the handlers are called for exactly these commands, in this order. -/
theorem script_run {p : Pen} {l : List (Style × Cmd)} {s : List Char}
    (h : ∀ c ∈ l, OkCmd p c.2) (hs : Lex.Written (toks (writeScript p l)) s)
    (ev : String → Except Err Val) :
    runText ev s = some (walkScript ⟨ev, preprocessString⟩ (l.map (·.2)) {}) := by
  rw [runText, script_read h hs]
  rfl

/-- **C85.** Every script can be written: its words with a blank after each are a text for it. -/
theorem script_writable {p : Pen} {l : List (Style × Cmd)} (h : ∀ c ∈ l, OkCmd p c.2) :
    Lex.Written (toks (writeScript p l)) (text (writeScript p l)) :=
  written_text _ (ag_script h)

/-- **C85.** So two texts of the same commands do the same. -/
theorem same_commands {p p' : Pen} {l l' : List (Style × Cmd)} {s s' : List Char}
    (h : ∀ c ∈ l, OkCmd p c.2) (h' : ∀ c ∈ l', OkCmd p' c.2) (e : l.map (·.2) = l'.map (·.2))
    (hs : Lex.Written (toks (writeScript p l)) s) (hs' : Lex.Written (toks (writeScript p' l')) s')
    (ev : String → Except Err Val) : runText ev s = runText ev s' := by
  rw [script_run h hs, script_run h' hs', e]

/-! ## Only what is written is read -/

/-- **C85.** Conversely, an accepted text has the words of its commands and no others: the same
keywords, punctuation, names, strings, numbers and expressions, in an order that is allowed; and the
commands are of the shape that the language has.  `p` is any spelling of numbers (`pen_exists`). -/
theorem accepted_written {p : Pen} (hi : ∀ n, p.OkI n) (hf : ∀ x, Decimal x → p.OkF x)
    {s : List Char} {l : List Cmd} (h : parse (Lex.tokens (Lex.lex s)) = some l) :
    (∀ c ∈ l, Shape c) ∧ ∃ ys : List Style, ys.length = l.length ∧
      parts (Lex.tokens (Lex.lex s)) = parts (toks (writeScript p (ys.zip l))) :=
  only_script hi hf (fun x hx => (Lex.parser_kinds (s := s) (t := x.2) hx).1) ((parse_iff _ _).1 h)

/-- **C85.** The commands that can be written have that shape. -/
theorem shape_of_ok {p : Pen} (hi : ∀ n, p.OkI n) (hf : ∀ x, Decimal x → p.OkF x)
    {c : Cmd} (h : OkCmd p c) : Shape c := by
  have h1 : ∀ x ∈ [(({} : Style), c)], OkCmd p x.2 := by simpa using h
  exact (accepted_written hi hf (script_read h1 (script_writable h1))).1 c (by simp)

/-! ## Numbers -/

/-- **C85.** The value of a number: sign, digits, digits after the point, exponent. -/
theorem number_value {g a : List Char} {b : Option (List Char)}
    {x : Option (Char × List Char × List Char)} (hg : Lex.Sign g)
    (ha : ∀ c ∈ a, c.isDigit = true) (hb : ∀ t ∈ b, ∀ c ∈ t, c.isDigit = true)
    (hx : ∀ q ∈ x, (q.1 = 'e' ∨ q.1 = 'E') ∧ Lex.Sign q.2.1 ∧ ∀ c ∈ q.2.2, c.isDigit = true) :
    floatValue (String.ofList (g ++ a ++ (b.elim [] ('.' :: ·)) ++
      (x.elim [] fun q => q.1 :: (q.2.1 ++ q.2.2)))) =
    signum g * (numeral a + numeral (b.getD []) / 10 ^ (b.getD []).length) *
      10 ^ (x.elim 0 fun q => signum q.2.1 * (numeral q.2.2 : ℤ)) :=
  floatValue_eq hg ha hb hx

example : floatValue "-12.50e+3" = -12500 := by
  have h := number_value (g := ['-']) (a := "12".toList) (b := some "50".toList)
    (x := some ('e', ['+'], "3".toList)) (.inr (.inr rfl)) (by decide) (by decide)
    (by simp [Lex.Sign])
  rw [show String.ofList _ = "-12.50e+3" from by decide] at h
  rw [h]
  have h1 : numeral "12".toList = 12 := by decide
  have h2 : numeral "50".toList = 50 := by decide
  have h3 : numeral "3".toList = 3 := by decide
  have h4 : "50".toList.length = 2 := by decide
  have h5 : signum ['-'] = -1 := by decide
  have h6 : signum ['+'] = 1 := by decide
  simp only [Option.getD_some, Option.elim_some, h1, h2, h3, h4, h5, h6]
  norm_num

/-- **C85.** The value of an integer. -/
theorem integer_value (t : List Char) : intValue (String.ofList t) = numeral t := by
  rw [intValue, String.toList_ofList, numeral_eq]

/-- **C85.** There is a spelling for every natural number and every decimal number. -/
theorem pen_exists : ∃ p : Pen, (∀ n, p.OkI n) ∧ ∀ x, Decimal x → p.OkF x := by
  classical
  refine ⟨⟨natText, fun x => if h : Decimal x then fltText h.choose h.choose_spec.choose else []⟩,
    fun n => ⟨natText_digits n, ?_⟩, fun x hx => ?_⟩
  · rw [integer_value, natText_value]
  · have e : (Pen.mk natText fun x => if h : Decimal x then fltText h.choose h.choose_spec.choose
        else []).flt x = fltText hx.choose hx.choose_spec.choose := dif_pos hx
    rw [Pen.OkF, e]
    refine ⟨fltText_whole _ _, ?_⟩
    rw [fltText_value]
    exact hx.choose_spec.choose_spec.symm

/-- **C85.** No other numbers can be written. -/
theorem number_decimal (t : String) : Decimal (floatValue t) := floatValue_decimal t


/-! ## Examples -/

theorem okName {s : String} (h : (match s.toList with
    | [] => false
    | c :: r => Lex.nondigit c && r.all fun d => Lex.nondigit d || Lex.digit d) = true)
    (h2 : ∀ q ∈ Lex.vocabulary, q.2.toList ≠ s.toList) (h3 : ¬ "loglog".toList <+: s.toList) :
    OkName s := by
  refine ⟨?_, fun ⟨q, hq, e⟩ => h2 q hq e, h3⟩
  cases e : s.toList with
  | nil => rw [e] at h; simp at h
  | cons c r =>
    rw [e] at h
    simp only [Bool.and_eq_true, List.all_eq_true, Bool.or_eq_true] at h
    refine ⟨c, r, rfl, (Lex.nondigit_iff c).1 h.1, fun d hd => ?_⟩
    rcases h.2 d hd with h | h
    · exact .inl ((Lex.nondigit_iff d).1 h)
    · exact .inr ((Lex.digit_iff d).1 h)

/-- A script with a nested dictionary, options in the other order, a Python expression and a
file. -/
def demo : List (Style × Cmd) :=
  [({}, .set "d" (.params (.dict (.cons false "a" (.one (.int 1))
      (.cons false "b" (.dict (.cons false "c" (.arr [.id "u", .flt (1/2)]) .nil)) .nil))))),
   ({}, .detfnLoglog "f" [⟨.num (.int 1), .num (.flt (-3/4))⟩, ⟨.num (.py "2*(1+1)"), .num (.var "v")⟩]),
   ({ swap := true }, .probfn "pf" (.id "f") (.var "g") ⟨some .median, some .sdLn⟩),
   ({ new := true }, .recorder "r" (.fn .imrate "i" (.range (1/10) (1/10) 1) (some [.spread .sd]))
      (some ⟨"a/out.csv", false⟩))]

theorem demo_ok {p : Pen} (hi : ∀ n, p.OkI n) (hf : ∀ x, Decimal x → p.OkF x) :
    ∀ c ∈ demo, OkCmd p c.2 := by
  have n : ∀ s ∈ ["d", "a", "b", "c", "u", "f", "v", "pf", "g", "r", "i"], OkName s := by
    have h : ∀ s ∈ ["d", "a", "b", "c", "u", "f", "v", "pf", "g", "r", "i"], (match s.toList with
        | [] => false
        | c :: r => Lex.nondigit c && r.all fun d => Lex.nondigit d || Lex.digit d) = true ∧
        (∀ q ∈ Lex.vocabulary, q.2.toList ≠ s.toList) ∧ ¬ "loglog".toList <+: s.toList := by
      decide +kernel
    exact fun s hs => okName (h s hs).1 (h s hs).2.1 (h s hs).2.2
  have bal : OkPy "2*(1+1)" := by
    have h1 : Lex.Balanced "1+1".toList :=
      .plain (by decide) (by decide) (.plain (by decide) (by decide) (.plain (by decide) (by decide)
        .nil))
    exact .plain (by decide) (by decide) (.plain (by decide) (by decide) (.paren h1 .nil))
  have d1 : Decimal (1/2) := ⟨5, 1, by norm_num⟩
  have d2 : Decimal (-3/4) := ⟨-75, 2, by norm_num⟩
  have d3 : Decimal (1/10) := ⟨1, 1, by norm_num⟩
  have d4 : Decimal 1 := ⟨1, 0, by norm_num⟩
  have path : OkFile "a/out.csv" := by
    unfold OkFile
    rw [if_pos (by decide)]
    refine ⟨⟨by decide, fun c hc => (Lex.fileChar_iff c).1 ?_⟩, by decide⟩
    have : ∀ c ∈ "a/out.csv".toList, Lex.fileChar c = true := by decide
    exact this c hc
  intro c hc
  simp only [demo, List.mem_cons, List.not_mem_nil, or_false] at hc
  rcases hc with rfl | rfl | rfl | rfl
  · refine ⟨n _ (by decide), ?_⟩
    simp only [OkParams, OkEntries, OkParam]
    refine ⟨n _ (by decide), hi 1, n _ (by decide), ⟨n _ (by decide), ⟨by simp, ?_⟩, trivial⟩, trivial⟩
    intro q hq
    simp only [List.mem_cons, List.not_mem_nil, or_false] at hq
    rcases hq with rfl | rfl
    · exact n _ (by decide)
    · exact hf _ d1
  · refine ⟨n _ (by decide), by simp, fun q hq => ?_⟩
    simp only [List.mem_cons, List.not_mem_nil, or_false] at hq
    rcases hq with rfl | rfl
    · exact ⟨hi 1, hf _ d2⟩
    · exact ⟨bal, n _ (by decide)⟩
  · exact ⟨n _ (by decide), n _ (by decide), n _ (by decide)⟩
  · refine ⟨n _ (by decide), ⟨n _ (by decide), ⟨hf _ d3, hf _ d3, hf _ d4⟩, ?_⟩, ?_⟩
    · intro l hl
      simp only [Option.mem_def, Option.some.injEq] at hl
      subst hl
      simp [OkCol]
    · intro q hq
      simp only [Option.mem_def, Option.some.injEq] at hq
      subst hq
      exact path

example : ∃ (p : Pen) (s : List Char), (∀ c ∈ demo, OkCmd p c.2) ∧
    Lex.Written (toks (writeScript p demo)) s ∧
    parse (Lex.tokens (Lex.lex s)) = some (demo.map (·.2)) := by
  obtain ⟨p, hi, hf⟩ := pen_exists
  exact ⟨p, _, demo_ok hi hf, script_writable (demo_ok hi hf),
    script_read (demo_ok hi hf) (script_writable (demo_ok hi hf))⟩

example : ∃ (p : Pen) (s : List Char), (∀ n, p.OkI n) ∧ (∀ x, Decimal x → p.OkF x) ∧
    parse (Lex.tokens (Lex.lex s)) = some (demo.map (·.2)) ∧ ∀ c ∈ demo, Shape c.2 := by
  obtain ⟨p, hi, hf⟩ := pen_exists
  have h := script_read (demo_ok hi hf) (script_writable (demo_ok hi hf))
  exact ⟨p, _, hi, hf, h, fun c hc =>
    (accepted_written hi hf h).1 c.2 (List.mem_map_of_mem hc)⟩

end Slat.Gram
