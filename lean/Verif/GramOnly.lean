import Verif.GramText

/-!
# Only what is written is derived

Lemmas for `GramProps`: the tokens of every derivation are a way to write its value.
-/

namespace Slat.Gram

open Slat.Lex (Kind)
open Slat.Interp
open G

variable {D : List Tok → Entries → Prop} {α β : Type}

/-- The parts of a row of words. -/
def wparts (l : List Word) : List Part := parts (toks l)

theorem parts_append (u v : List Tok) : parts (u ++ v) = parts u ++ parts v := by simp [parts]

theorem wparts_nil : wparts [] = [] := rfl

theorem wparts_append (l l' : List Word) : wparts (l ++ l') = wparts l ++ wparts l' := by
  simp [wparts, toks_append, parts_append]

theorem wparts_cons (w : Word) (l : List Word) : wparts (w :: l) = wparts [w] ++ wparts l :=
  wparts_append [w] l

/-- The text of the token does not matter. -/
def Plain (k : Kind) : Prop := ∀ t, partOf (k, t) = [.word k]

theorem wparts_kw {k : Kind} (h : Plain k) (s : String) : wparts [kw k s] = [.word k] := by
  simp [wparts, toks, kw, Word.tokens, parts, h s.toList]

theorem wparts_name (s : String) : wparts [name s] = [.name s.toList] := rfl

theorem wparts_str (s : String) : wparts [str s] = [.str s.toList] := rfl

theorem wparts_file (s : String) : wparts [file s] = [.name s.toList] := by
  unfold file
  split <;> rfl

theorem parts_py (d : Nat) (e : List Char) : parts (Lex.pyTokens d e) = e.map .py := by
  induction e generalizing d with
  | nil => rfl
  | cons c e ih =>
    rw [Lex.pyTokens]
    split
    · split <;> simp [parts, partOf] <;> exact ih _
    · split
      · simp [parts, partOf]; exact ih _
      · split <;> simp [parts, partOf] <;> exact ih _

theorem wparts_py (s : String) :
    wparts [py s] = .word .PYTHON_ESCAPE :: (s.toList.map .py ++ [.word .PYTHON_END]) := by
  have : wparts [py s] = [.word .PYTHON_ESCAPE] ++ (parts (Lex.pyTokens 0 s.toList) ++
      [.word .PYTHON_END]) := by
    simp [wparts, toks, py, Word.tokens, parts, partOf]
  rw [this, parts_py]
  rfl

/-- All that `g` derives are ways to write its value, which has the property `Q`. -/
def E (D : List Tok → Entries → Prop) (g : G α) (w : α → List Word) (Q : α → Prop) : Prop :=
  ∀ u a, Parses D g u a → Q a ∧ parts u = wparts (w a)

/-- The same with a choice of style. -/
def ES (D : List Tok → Entries → Prop) (g : G α) (w : Style → α → List Word) (Q : α → Prop) : Prop :=
  ∀ u a, Parses D g u a → Q a ∧ ∃ y, parts u = wparts (w y a)

theorem E.es {g : G α} {w : α → List Word} {Q : α → Prop} (h : E D g w Q) :
    ES D g (fun _ => w) Q := fun u a hp => ⟨(h u a hp).1, {}, (h u a hp).2⟩

theorem e_name : E D (.tok .ID) (fun s => [name s]) fun _ => True := by
  rintro u a ⟨t, rfl, rfl⟩
  exact ⟨trivial, by simp [wparts_name, parts, partOf]⟩

theorem e_str : E D (.tok .STRING) (fun s => [str s]) fun _ => True := by
  rintro u a ⟨t, rfl, rfl⟩
  exact ⟨trivial, by simp [wparts_str, parts, partOf]⟩

theorem e_eps {a : α} {w : α → List Word} {Q : α → Prop} (h : Q a) (hw : wparts (w a) = []) :
    E D (.eps a) w Q := by
  rintro u b ⟨rfl, rfl⟩
  exact ⟨h, hw.symm⟩

theorem e_seq {g : G α} {h : G β} {w : α → List Word} {w' : β → List Word} {Q : α → Prop}
    {Q' : β → Prop} (h1 : E D g w Q) (h2 : E D h w' Q') :
    E D (.seq g h) (fun p => w p.1 ++ w' p.2) fun p => Q p.1 ∧ Q' p.2 := by
  rintro u a ⟨v, x, rfl, hv, hx⟩
  have h1 := h1 _ _ hv
  have h2 := h2 _ _ hx
  exact ⟨⟨h1.1, h2.1⟩, by rw [parts_append, h1.2, h2.2, wparts_append]⟩

theorem es_seq {g : G α} {h : G β} {w : α → List Word} {w' : Style → β → List Word} {Q : α → Prop}
    {Q' : β → Prop} (h1 : E D g w Q) (h2 : ES D h w' Q') :
    ES D (.seq g h) (fun y p => w p.1 ++ w' y p.2) fun p => Q p.1 ∧ Q' p.2 := by
  rintro u a ⟨v, x, rfl, hv, hx⟩
  have h1 := h1 _ _ hv
  obtain ⟨h2, y, h3⟩ := h2 _ _ hx
  exact ⟨⟨h1.1, h2⟩, y, by rw [parts_append, h1.2, h3, wparts_append]⟩

theorem e_alt {g h : G α} {w : α → List Word} {Q : α → Prop} (h1 : E D g w Q) (h2 : E D h w Q) :
    E D (.alt g h) w Q := by
  rintro u a (hp | hp)
  · exact h1 _ _ hp
  · exact h2 _ _ hp

theorem es_alt {g h : G α} {w : Style → α → List Word} {Q : α → Prop} (h1 : ES D g w Q)
    (h2 : ES D h w Q) : ES D (.alt g h) w Q := by
  rintro u a (hp | hp)
  · exact h1 _ _ hp
  · exact h2 _ _ hp

theorem e_map {f : α → β} {g : G α} {w : α → List Word} {w' : β → List Word} {Q : α → Prop}
    {Q' : β → Prop} (h : E D g w Q) (hf : ∀ a, Q a → Q' (f a) ∧ wparts (w' (f a)) = wparts (w a)) :
    E D (.map f g) w' Q' := by
  rintro u b ⟨a, hp, rfl⟩
  have h := h _ _ hp
  exact ⟨(hf a h.1).1, by rw [h.2, (hf a h.1).2]⟩

theorem es_map {f : α → β} {g : G α} {w : Style → α → List Word} {w' : Style → β → List Word}
    {Q : α → Prop} {Q' : β → Prop} (h : ES D g w Q)
    (hf : ∀ a, Q a → Q' (f a) ∧ ∀ y, wparts (w' y (f a)) = wparts (w y a)) :
    ES D (.map f g) w' Q' := by
  rintro u b ⟨a, hp, rfl⟩
  obtain ⟨h1, y, h2⟩ := h _ _ hp
  exact ⟨(hf a h1).1, y, by rw [h2, (hf a h1).2]⟩

theorem e_tok {k : Kind} (hk : Plain k) (s : String) :
    E D (.tok k) (fun _ => [kw k s]) fun _ => True := by
  rintro u a ⟨t, rfl, rfl⟩
  exact ⟨trivial, by rw [wparts_kw hk]; simp [parts, hk t]⟩

theorem e_after {k : Kind} {g : G α} {w : α → List Word} {Q : α → Prop} (hk : Plain k) (s : String)
    (h : E D g w Q) : E D (after k g) (fun a => kw k s :: w a) Q := by
  refine e_map (e_seq (e_tok hk s) h) fun a ha => ⟨ha.2, rfl⟩

theorem es_after {k : Kind} {g : G α} {w : Style → α → List Word} {Q : α → Prop} (hk : Plain k)
    (s : String) (h : ES D g w Q) : ES D (after k g) (fun y a => kw k s :: w y a) Q := by
  refine es_map (es_seq (e_tok hk s) h) fun a ha => ⟨ha.2, fun _ => rfl⟩

theorem e_before {k : Kind} {g : G α} {w : α → List Word} {Q : α → Prop} (hk : Plain k) (s : String)
    (h : E D g w Q) : E D (before g k) (fun a => w a ++ [kw k s]) Q := by
  refine e_map (e_seq h (e_tok hk s)) fun a ha => ⟨ha.1, rfl⟩

theorem e_is {k : Kind} {a : α} {w : α → List Word} {Q : α → Prop} (hk : Plain k) (h : Q a)
    (hw : wparts (w a) = [.word k]) : E D (is k a) w Q :=
  e_map (e_tok hk "") fun _ _ => ⟨h, by rw [hw, wparts_kw hk]⟩

theorem e_opt {g : G α} {w : α → List Word} {Q : α → Prop} (h : E D g w Q) :
    E D (opt g) (fun o => o.elim [] w) fun o => ∀ a ∈ o, Q a :=
  e_alt (e_map h fun a ha => ⟨by simpa using ha, rfl⟩) (e_eps (by simp) rfl)

theorem e_star {g : G α} {w : α → List Word} {Q : α → Prop} (h : E D g w Q) :
    E D (.star g) (fun l => l.flatMap w) fun l => ∀ a ∈ l, Q a := by
  rintro u l ⟨us, rfl, hp⟩
  induction hp with
  | nil => exact ⟨by simp, rfl⟩
  | cons q _ ih =>
    have hq := h _ _ q.2
    refine ⟨?_, by rw [List.flatten_cons, parts_append, hq.2, ih.2]; simp only [List.flatMap_cons, wparts_append]⟩
    intro a ha
    rcases List.mem_cons.1 ha with rfl | ha
    · exact hq.1
    · exact ih.1 a ha

theorem plain_comma : Plain .COMMA := fun _ => rfl

theorem e_commas {g : G α} {w : α → List Word} {Q : α → Prop} (h : E D g w Q) :
    E D (commas g) (fun l => sep (l.map w)) fun l => l ≠ [] ∧ ∀ a ∈ l, Q a := by
  refine e_map (e_seq h (e_star (e_after plain_comma "," h))) fun p hp => ⟨⟨by simp, ?_⟩, ?_⟩
  · intro a ha
    rcases List.mem_cons.1 ha with rfl | ha
    · exact hp.1
    · exact hp.2 a ha
  · simp only [List.map_cons, sep, List.flatMap_map]
    rfl

/-! ## Parts of commands -/

section
set_option linter.unusedSectionVars false
variable {p : Pen} (hi : ∀ n, p.OkI n) (hf : ∀ x, Decimal x → p.OkF x)
include hi hf

omit hf in
theorem wparts_i (n : ℕ) : wparts [p.i n] = [.int n] := by
  have := (hi n).2
  simp [wparts, toks, Pen.i, Word.tokens, parts, partOf, this]

omit hi in
theorem wparts_f {x : ℚ} (h : Decimal x) : wparts [p.f x] = [.flt x] := by
  have := (hf x h).2
  simp [wparts, toks, Pen.f, Word.tokens, parts, partOf, this]

omit hf in
theorem e_integer : E D integer (fun n => [p.i n]) fun _ => True := by
  rintro u a ⟨s, ⟨t, rfl, rfl⟩, rfl⟩
  exact ⟨trivial, by rw [wparts_i hi]; simp [parts, partOf]⟩

omit hi in
theorem e_float : E D float (fun n => [p.f n]) fun _ => True := by
  rintro u a ⟨s, ⟨t, rfl, rfl⟩, rfl⟩
  exact ⟨trivial, by rw [wparts_f hf (floatValue_decimal _)]; simp [parts, partOf]⟩

omit hi hf in
theorem e_file : E D file_spec (fun s => [file s]) fun _ => True := by
  rintro u a (⟨t, rfl, rfl⟩ | ⟨t, rfl, rfl⟩)
  · exact ⟨trivial, by rw [wparts_file]; simp [parts, partOf]⟩
  · exact ⟨trivial, by rw [wparts_file]; simp [parts, partOf]⟩

omit hi hf in
theorem e_py : E D python_script (fun s => [py s]) fun _ => True := by
  have h1 : ∀ u l, Parses D (.star (oneOf (.tok .OTHER) [.tok .PYMODELPAREN, .tok .NESTEDOTHER,
      .tok .NESTEDLPAREN, .tok .NESTEDRPAREN])) u l → parts u = (String.join l).toList.map .py := by
    rintro u l ⟨us, rfl, h⟩
    induction h with
    | nil => rfl
    | @cons v a us l q _ ih =>
      rw [List.flatten_cons, parts_append, ih, join_cons, String.toList_append, List.map_append]
      congr 1
      obtain ⟨-, (⟨t, rfl, rfl⟩ | ⟨t, rfl, rfl⟩ | ⟨t, rfl, rfl⟩ | ⟨t, rfl, rfl⟩ | ⟨t, rfl, rfl⟩)⟩ := q <;>
        simp [parts, partOf]
  rintro u a ⟨⟨s1, s2⟩, ⟨v, x, rfl, ⟨t, rfl, -⟩, ⟨⟨s3, s4⟩, ⟨v', x', rfl, ⟨l, hl, rfl⟩, ⟨t', rfl, -⟩⟩,
    rfl⟩⟩, rfl⟩
  refine ⟨trivial, ?_⟩
  rw [wparts_py, parts_append, parts_append, h1 _ _ hl]
  rfl

omit hi hf in
theorem e_var : E D var_ref (fun x => dollar x) fun _ => True := e_after (fun _ => rfl) "$" e_name

theorem e_num : E D numerical_scalar (writeNum p) fun _ => True :=
  e_alt (e_map (e_integer hi) fun _ _ => ⟨trivial, rfl⟩)
    (e_alt (e_map (e_float hf) fun _ _ => ⟨trivial, rfl⟩)
      (e_alt (e_map e_py fun _ _ => ⟨trivial, rfl⟩) (e_map e_var fun _ _ => ⟨trivial, rfl⟩)))

theorem e_sc : E D scalar (writeSc p) fun _ => True :=
  e_alt (e_map e_str fun _ _ => ⟨trivial, rfl⟩) (e_map (e_num hi hf) fun _ _ => ⟨trivial, rfl⟩)

theorem e_sc2 : E D scalar2 (writeSc2 p) fun _ => True :=
  e_map (e_seq (e_sc hi hf) (e_after plain_comma "," (e_sc hi hf))) fun _ _ => ⟨trivial, rfl⟩

omit hi hf in
theorem e_bracket {g : G α} {w : α → List Word} {Q : α → Prop} (h : E D g w Q) :
    E D (after .LBRACKET (before g .RBRACKET)) (fun a => bracket (w a)) Q :=
  e_after (fun _ => rfl) "[" (e_before (fun _ => rfl) "]" h)

theorem e_pairs : E D scalar2_sequence (writePairs p) fun l => l ≠ [] := by
  intro u a h
  have := e_commas (e_bracket (e_sc2 (D := D) hi hf)) u a h
  exact ⟨this.1.1, this.2⟩

theorem e_param : E D parameter (fun q => [writeParam p q]) fun _ => True :=
  e_alt (e_map e_name fun _ _ => ⟨trivial, rfl⟩) (e_alt (e_map e_str fun _ _ => ⟨trivial, rfl⟩)
    (e_alt (e_map (e_integer hi) fun _ _ => ⟨trivial, rfl⟩)
      (e_map (e_float hf) fun _ _ => ⟨trivial, rfl⟩)))

/-- Dictionaries, after their first parenthesis. -/
def dictWords (p : Pen) (e : Entries) : List Word :=
  kw .LPAREN "(" :: sep (writeEntries p e) ++ [kw .RPAREN ")"]

theorem e_params (hD : ∀ u e, D u e → ShapeParams (.dict e) ∧ parts u = wparts (dictWords p e)) :
    E D parameters (writeParams p) ShapeParams := by
  refine e_alt (e_map (e_param hi hf) fun q _ => ⟨by simp [ShapeParams], by rw [writeParams]⟩)
    (e_alt (e_map (e_bracket (e_commas (e_param hi hf))) fun l hl =>
      ⟨by rw [ShapeParams]; exact hl.1, by rw [writeParams]⟩) ?_)
  rintro u a ⟨e, he, rfl⟩
  have := hD _ _ he
  exact ⟨this.1, by rw [this.2, writeParams, dictWords]⟩

/-- One entry. -/
def entryWords (p : Pen) (q : Bool × String × Params) : List Word :=
  (if q.1 then str q.2.1 else name q.2.1) :: colon :: writeParams p q.2.2

omit hi hf in
theorem entries_words (l : List (Bool × String × Params)) :
    writeEntries p (entries l) = l.map (entryWords p) := by
  induction l with
  | nil => rw [entries, writeEntries]; rfl
  | cons q l ih => rw [entries, writeEntries, ih]; rfl

omit hi hf in
theorem entries_shape (l : List (Bool × String × Params)) (h : ∀ q ∈ l, ShapeParams q.2.2) :
    ShapeEntries (entries l) := by
  induction l with
  | nil => rw [entries, ShapeEntries]; trivial
  | cons q l ih =>
    rw [entries, ShapeEntries]
    exact ⟨h q (by simp), ih fun q hq => h q (by simp [hq])⟩

theorem e_dict (n : Nat) :
    ∀ u e, DictN n u e → ShapeParams (.dict e) ∧ parts u = wparts (dictWords p e) := by
  induction n with
  | zero => intro u e h; exact h.elim
  | succ n ih =>
    rintro u e ⟨t, v, rfl, h⟩
    have he : E (DictN n) dictionary_entry (entryWords p) fun q => ShapeParams q.2.2 := by
      refine e_map (e_seq (w := fun q => [if q.1 then str q.2 else name q.2]) (Q := fun _ => True)
        (e_alt (e_map e_name fun _ _ => ⟨trivial, rfl⟩) (e_map e_str fun _ _ => ⟨trivial, rfl⟩))
        (e_after (fun _ => rfl) ":" (e_params hi hf ih))) fun a ha => ⟨ha.2, rfl⟩
    obtain ⟨l, hl, rfl⟩ := h
    have := e_before (k := .RPAREN) (fun _ => rfl) ")" (e_commas he) _ _ hl
    refine ⟨?_, ?_⟩
    · obtain ⟨⟨h1, h2⟩, -⟩ := this
      cases l with
      | nil => exact absurd rfl h1
      | cons q l =>
        rw [entries, ShapeParams, ← entries]
        exact entries_shape _ h2
    · rw [dictWords, entries_words]
      have h3 : parts ((Kind.LPAREN, t) :: v) = [.word .LPAREN] ++ parts v := rfl
      rw [h3, this.2]
      exact (wparts_cons (kw .LPAREN "(") _).symm

omit hi hf in
theorem e_fn : E D function_ref writeFn fun _ => True :=
  e_alt (e_map e_name fun _ _ => ⟨trivial, rfl⟩) (e_map e_var fun _ _ => ⟨trivial, rfl⟩)

omit hf in
theorem e_intArg : E D int_arg (writeIntArg p) fun _ => True :=
  e_alt (e_map (e_integer hi) fun _ _ => ⟨trivial, rfl⟩)
    (e_alt (e_map e_var fun _ _ => ⟨trivial, rfl⟩) (e_map e_py fun _ _ => ⟨trivial, rfl⟩))

omit hi hf in
theorem e_mu : E D placement_type (fun m => [writeMu m]) fun _ => True :=
  e_alt (e_is (fun _ => rfl) trivial rfl) (e_alt (e_is (fun _ => rfl) trivial rfl)
    (e_is (fun _ => rfl) trivial rfl))

omit hi hf in
theorem e_sd : E D spread_type (fun m => [writeSd m]) fun _ => True :=
  e_alt (e_is (fun _ => rfl) trivial rfl) (e_is (fun _ => rfl) trivial rfl)

omit hi hf in
theorem e_muOpt : E D mu_option (fun m => writeMuOpt (some m)) fun _ => True :=
  e_after (fun _ => rfl) "--mu" e_mu

omit hi hf in
theorem e_sdOpt : E D sd_option (fun m => writeSdOpt (some m)) fun _ => True :=
  e_after (fun _ => rfl) "--sd" e_sd

omit hi hf in
theorem es_opts : ES D lognormal_options (fun y => writeOpts y.swap) fun _ => True := by
  rintro u o (h | h)
  · have := e_map (f := fun p => (⟨p.1, p.2⟩ : LnOpts)) (w' := writeOpts false) (Q' := fun _ => True)
      (e_seq (e_opt e_muOpt) (e_opt e_sdOpt))
      (fun q _ => ⟨trivial, by rcases q with ⟨_ | m, _ | d⟩ <;> rfl⟩) u o h
    exact ⟨trivial, { swap := false }, this.2⟩
  · have := e_map (f := fun p => (⟨some p.2, some p.1⟩ : LnOpts)) (w' := writeOpts true)
      (Q' := fun _ => True) (e_seq e_sdOpt e_muOpt) (fun q _ => ⟨trivial, rfl⟩) u o h
    exact ⟨trivial, { swap := true }, this.2⟩

theorem e_at : E D recorder_at (writeAt p) ShapeAt := by
  refine e_alt (e_map (e_commas (e_float hf)) fun l hl => ⟨hl.1, rfl⟩)
    (e_alt (e_map (e_seq (e_float hf) (e_seq (e_after (fun _ => rfl) ":" (e_float hf))
      (e_after (fun _ => rfl) ":" (e_float hf)))) fun _ _ => ⟨trivial, rfl⟩)
    (e_alt (e_map e_py fun _ _ => ⟨trivial, rfl⟩) (e_alt (e_map e_var fun _ _ => ⟨trivial, rfl⟩) ?_)))
  refine e_map (e_seq (e_float hf) (e_seq (e_after (fun _ => rfl) ":" (e_float hf))
    (e_seq (w := fun b => [if b then kw .LOGFLAG "--log" else kw .LINFLAG "--linear"])
      (Q := fun _ => True) (e_alt (e_is (fun _ => rfl) trivial rfl) (e_is (fun _ => rfl) trivial rfl))
      (e_integer hi)))) fun _ _ => ⟨trivial, rfl⟩

theorem e_cols : E D (opt recorder_cols) (writeCols p) ShapeCols := by
  have hc : E D col_spec (writeCol p) fun _ => True :=
    e_alt (e_map e_mu fun _ _ => ⟨trivial, rfl⟩) (e_alt (e_map e_sd fun _ _ => ⟨trivial, rfl⟩)
      (e_map (e_sc hi hf) fun _ _ => ⟨trivial, rfl⟩))
  intro u o h
  have := e_opt (e_after (k := .COLS_FLAG) (fun _ => rfl) "--cols" (e_commas hc)) u o h
  refine ⟨fun l hl => (this.1 l hl).1, ?_⟩
  rw [this.2]
  cases o <;> rfl

omit hi hf in
theorem es_to : ES D (opt print_options) (fun y => writeTo y.new) fun _ => True := by
  rintro u o (⟨q, ⟨⟨f, o2⟩, ⟨v, x, rfl, hv, hx⟩, rfl⟩, rfl⟩ | ⟨rfl, rfl⟩)
  · refine ⟨trivial, ?_⟩
    have h1 := (e_file _ _ hv).2
    rcases hx with ⟨b, (⟨s, ⟨t, rfl, -⟩, rfl⟩ | ⟨s, ⟨t, rfl, -⟩, rfl⟩), rfl⟩ | ⟨rfl, rfl⟩
    · refine ⟨{}, ?_⟩
      rw [parts_append, h1]
      exact (wparts_append [file f] [kw .APPEND_OPTION "--append"]).symm
    · refine ⟨{ new := true }, ?_⟩
      rw [parts_append, h1]
      exact (wparts_append [file f] [kw .NEW_OPTION "--new"]).symm
    · refine ⟨{}, ?_⟩
      rw [parts_append, h1]
      exact (wparts_append [file f] []).symm
  · exact ⟨trivial, {}, rfl⟩

/-- See `Shape`. -/
def ShapeWhat : PrintWhat → Prop
  | .function k _ => k ∈ ["detfn", "probfn", "im", "edp", "fragfn", "lossfn", "compgroup"]
  | _ => True

omit hi hf in
theorem e_what : E D print_what (fun w => kw .PRINT "print" :: writeWhat w) ShapeWhat := by
  have hm : E D (oneOf (.map PrintWhat.message (.tok .STRING)) [.map PrintWhat.messagePy python_script,
      .map PrintWhat.messageVar var_ref]) (fun w => (writeWhat w).drop 1)
      (fun w => ShapeWhat w ∧ writeWhat w = kw .MESSAGE "message" :: (writeWhat w).drop 1) :=
    e_alt (e_map e_str fun _ _ => ⟨⟨trivial, rfl⟩, rfl⟩) (e_alt
      (e_map e_py fun _ _ => ⟨⟨trivial, rfl⟩, rfl⟩) (e_map e_var fun _ _ => ⟨⟨trivial, rfl⟩, rfl⟩))
  refine e_alt (e_map (e_after (fun _ => rfl) "print" (e_after (fun _ => rfl) "message" (e_opt hm)))
    fun o ho => ?_) (e_alt (e_map (e_after (fun _ => rfl) "print" (e_seq
      (w := fun k => [kindWord k])
      (Q := fun k => k ∈ ["detfn", "probfn", "im", "edp", "fragfn", "lossfn", "compgroup"]) ?_ e_name))
      fun _ h => ⟨h.1, rfl⟩) (e_after (fun _ => rfl) "print" (e_is (fun _ => rfl) trivial rfl)))
  · cases o with
    | none => exact ⟨trivial, rfl⟩
    | some w =>
      have := ho w rfl
      refine ⟨this.1, ?_⟩
      simp only [Option.getD_some, Option.elim_some]
      rw [this.2]
      rfl
  · exact e_alt (e_is (fun _ => rfl) (by decide) rfl) (e_alt (e_is (fun _ => rfl) (by decide) rfl)
      (e_alt (e_is (fun _ => rfl) (by decide) rfl) (e_alt (e_is (fun _ => rfl) (by decide) rfl)
      (e_alt (e_is (fun _ => rfl) (by decide) rfl) (e_alt (e_is (fun _ => rfl) (by decide) rfl)
        (e_is (fun _ => rfl) (by decide) rfl))))))

/-! ## Commands -/

omit hi hf in
theorem E.lift {g : G α} {w : Style → α → List Word} {Q : α → Prop} (h : E D g (w {}) Q) :
    ES D g w Q := fun u a hp => ⟨(h u a hp).1, {}, (h u a hp).2⟩

theorem es_title : ES D title_command (writeCmd p) Shape :=
  E.lift (e_map (e_after (fun _ => rfl) "title" e_str) fun _ _ => ⟨trivial, rfl⟩)

theorem es_log : ES D log_command (writeCmd p) Shape :=
  E.lift (e_map (e_after (fun _ => rfl) "log" (e_seq (e_opt
    (w := fun b => [if b then kw .STDERR_FLAG "--stderr" else kw .NOSTDERR_FLAG "--nostderr"])
    (Q := fun _ => True)
    (e_alt (e_is (fun _ => rfl) trivial rfl) (e_is (fun _ => rfl) trivial rfl))) (e_opt e_file)))
    fun q _ => ⟨trivial, by rcases q with ⟨_ | (_ | _), _ | _⟩ <;> rfl⟩)

theorem es_intstats : ES D intstats_command (writeCmd p) Shape := by
  have h : E D (.alt (is .PRINT Cmd.intstatsPrint) (is .RESET Cmd.intstatsReset))
      (fun c => (writeCmd p {} c).drop 1) (fun c => Shape c ∧
        writeCmd p {} c = kw .INTSTATS "intstats" :: (writeCmd p {} c).drop 1) :=
    e_alt (e_is (fun _ => rfl) ⟨trivial, rfl⟩ rfl) (e_is (fun _ => rfl) ⟨trivial, rfl⟩ rfl)
  intro u a hp
  have := e_after (k := .INTSTATS) (fun _ => rfl) "intstats" h u a hp
  exact ⟨this.1.1, {}, by rw [this.2, this.1.2]⟩

theorem es_inputdir : ES D inputdir_command (writeCmd p) Shape :=
  E.lift (e_map (e_after (fun _ => rfl) "inputdir" e_file) fun _ _ => ⟨trivial, rfl⟩)

theorem es_outputdir : ES D outputdir_command (writeCmd p) Shape :=
  E.lift (e_map (e_after (fun _ => rfl) "outputdir" e_file) fun _ _ => ⟨trivial, rfl⟩)

/-- The words of a command after its keyword and its name. -/
def rest (p : Pen) (y : Style) (f : String → Cmd) : List Word := (writeCmd p y (f "")).drop 2

/-- The command is its keyword, its name and words that do not depend on the name. -/
def Named (p : Pen) (k : Word) (f : String → Cmd) : Prop :=
  ∀ i, Shape (f i) ∧ ∀ y, writeCmd p y (f i) = k :: name i :: rest p y f

omit hi hf in
theorem es_named {k : Kind} {s : String} {g : G (String → Cmd)} (hk : Plain k)
    (h : ES D g (rest p) (Named p (kw k s))) :
    ES D (.map (fun q => q.2 q.1) (after k (.seq (.tok .ID) g))) (writeCmd p) Shape :=
  es_map (es_after hk s (es_seq e_name h)) fun q hq =>
    ⟨(hq.2 q.1).1, fun y => by rw [(hq.2 q.1).2]; rfl⟩

theorem es_detfn : ES D detfn_command (writeCmd p) Shape := by
  refine es_named (s := "detfn") (fun _ => rfl) (E.lift (e_alt ?_ (e_alt ?_ (e_alt ?_ ?_))))
  · exact e_map (e_after (fun _ => rfl) "hyperbolic" (e_seq (e_sc2 hi hf)
      (e_after plain_comma "," (e_sc hi hf)))) fun _ _ => ⟨fun _ => ⟨trivial, fun _ => rfl⟩, rfl⟩
  · exact e_map (e_after (fun _ => rfl) "powerlaw" (e_sc2 hi hf))
      fun _ _ => ⟨fun _ => ⟨trivial, fun _ => rfl⟩, rfl⟩
  · exact e_map (e_after (fun _ => rfl) " loglog" (e_pairs hi hf))
      fun _ h => ⟨fun _ => ⟨h, fun _ => rfl⟩, rfl⟩
  · exact e_map (e_after (fun _ => rfl) "linear" (e_pairs hi hf))
      fun _ h => ⟨fun _ => ⟨h, fun _ => rfl⟩, rfl⟩

theorem es_probfn : ES D probfn_command (writeCmd p) Shape :=
  es_map (es_after (fun _ => rfl) "probfn" (es_seq e_name (es_seq (e_after (fun _ => rfl) "lognormal"
    e_fn) (es_seq (e_after plain_comma "," e_fn) es_opts)))) fun _ _ => ⟨trivial, fun _ => by
      simp [writeCmd, comma]⟩

theorem es_im : ES D im_command (writeCmd p) Shape :=
  E.lift (e_map (e_after (fun _ => rfl) "im" (e_seq e_name e_name)) fun _ _ => ⟨trivial, rfl⟩)

theorem es_edp : ES D edp_command (writeCmd p) Shape :=
  E.lift (e_map (e_after (fun _ => rfl) "edp" (e_seq e_name (e_seq e_name e_name)))
    fun _ _ => ⟨trivial, rfl⟩)

theorem es_dist {k : Kind} {s : String} (hk : Plain k) {d : DistCmd} (h : writeDist d = kw k s) :
    ES D (dist_command k d) (writeCmd p) Shape :=
  es_map (es_after hk s (es_seq e_name (es_seq (e_sc2 hi hf) es_opts)))
    fun _ _ => ⟨trivial, fun _ => by simp [writeCmd, h]⟩

theorem es_fragfn : ES D fragfn_command (writeCmd p) Shape := by
  refine es_named (s := "fragfn") (fun _ => rfl) (es_alt (es_map (w := fun y q => rest p y fun i =>
    Cmd.fragfnDb i q.1 q.2) (Q := fun _ => True) ?_ ?_) (es_map (es_seq (e_pairs hi hf) es_opts) ?_))
  · rintro u q (h | h)
    · have := e_seq (e_opt (e_after (k := .DB_FLAG) (fun _ => rfl) "--db" e_file))
        (e_after (k := .STDFUNC_FLAG) (fun _ => rfl) "--stdfunc" e_name) u q h
      refine ⟨trivial, { db := true }, ?_⟩
      rw [this.2]
      rcases q with ⟨_ | _, _⟩ <;> exact congrArg wparts rfl
    · have := e_map (f := fun q => (some q.2, q.1)) (w' := fun q => rest p {} fun i =>
        Cmd.fragfnDb i q.1 q.2) (Q' := fun _ => True)
        (e_seq (e_after (k := .STDFUNC_FLAG) (fun _ => rfl) "--stdfunc" e_name)
        (e_after (k := .DB_FLAG) (fun _ => rfl) "--db" e_file)) (fun _ _ => ⟨trivial, congrArg wparts rfl⟩) u q h
      exact ⟨trivial, {}, this.2⟩
  · rintro ⟨_ | _, _⟩ - <;> exact ⟨fun _ => ⟨trivial, fun _ => rfl⟩, fun _ => rfl⟩
  · exact fun q h => ⟨fun _ => ⟨h.1, fun _ => rfl⟩, fun _ => rfl⟩

theorem e_bilevel : E D bilevel_spec (writeBilevel p) fun _ => True := by
  have h : E D (after .COMMA numerical_scalar) (fun n => comma :: writeNum p n) fun _ => True :=
    e_after plain_comma "," (e_num hi hf)
  refine e_map (e_bracket (e_seq (e_num hi hf) (e_seq h (e_seq h (e_seq h h))))) fun q _ =>
    ⟨trivial, ?_⟩
  simp [writeBilevel, sep]

theorem es_lossfn : ES D lossfn_command (writeCmd p) Shape := by
  refine es_named (s := "lossfn") (fun _ => rfl) (es_alt (es_map (es_after (fun _ => rfl) "simple"
    (es_seq (e_pairs hi hf) es_opts)) ?_) (E.lift (e_map (e_after (fun _ => rfl) "bilevel"
      (e_commas (e_bilevel hi hf))) ?_)))
  · exact fun q h => ⟨fun _ => ⟨h.1, fun _ => rfl⟩, fun _ => rfl⟩
  · exact fun q h => ⟨fun _ => ⟨h.1, fun _ => rfl⟩, rfl⟩

theorem es_compgroup : ES D compgroup_command (writeCmd p) Shape := by
  have ha : E D adjustments (fun l => l.map p.f) fun l => l.length ≤ 2 :=
    e_map (e_seq (e_opt (e_float hf)) (e_opt (e_float hf))) fun q _ => by
      rcases q with ⟨_ | _, _ | _⟩ <;> exact ⟨by simp, rfl⟩
  refine E.lift (e_map (e_after (fun _ => rfl) "compgroup" (e_seq e_name (e_seq e_name (e_seq e_name
    (e_seq e_name (e_seq (e_opt e_name) (e_seq (e_integer hi) ha))))))) fun q h =>
      ⟨h.2.2.2.2.2.2, ?_⟩)
  rcases q with ⟨i, e, f, c, _ | d, n, l⟩ <;> rfl

theorem es_structure : ES D structure_command (writeCmd p) Shape :=
  E.lift (e_map (e_after (fun _ => rfl) "structure" (e_seq e_name (e_commas e_name)))
    fun _ h => ⟨h.2.1, rfl⟩)

theorem es_print : ES D print_command (writeCmd p) Shape := by
  refine es_map (es_seq e_what es_to) fun q h => ⟨?_, fun y => ?_⟩
  · rcases q with ⟨_ | _ | _ | _ | _ | _, o⟩ <;> first | trivial | exact h.1
  · simp [writeCmd]

theorem es_integration : ES D integration_command (writeCmd p) Shape := by
  have hs : E D integration_search_option (fun q => writeSearch q.1 :: writeIntArg p q.2)
      fun _ => True := by
    intro u q h
    have := e_seq (w := fun s => [writeSearch s]) (Q := fun _ => True)
      (e_alt (e_is (fun _ => rfl) trivial rfl) (e_alt (e_is (fun _ => rfl) trivial rfl)
      (e_alt (e_is (fun _ => rfl) trivial rfl) (e_alt (e_is (fun _ => rfl) trivial rfl)
        (e_is (fun _ => rfl) trivial rfl))))) (e_intArg hi) u q h
    exact ⟨trivial, this.2⟩
  refine E.lift (e_map (e_after (fun _ => rfl) "integration" (e_after (fun _ => rfl) "maq" (e_seq
    (e_num hi hf) (e_seq (e_intArg hi) (e_opt hs))))) fun q _ => ⟨trivial, ?_⟩)
  rcases q with ⟨a, n, _ | ⟨s, k⟩⟩
  · simp [writeCmd]
  · simp [writeCmd]

theorem e_type : E D recorder_type (fun t => [writeType t]) fun _ => True :=
  e_alt (e_is (fun _ => rfl) trivial rfl) <| e_alt (e_is (fun _ => rfl) trivial rfl) <|
  e_alt (e_is (fun _ => rfl) trivial rfl) <| e_alt (e_is (fun _ => rfl) trivial rfl) <|
  e_alt (e_is (fun _ => rfl) trivial rfl) <| e_alt (e_is (fun _ => rfl) trivial rfl) <|
  e_alt (e_is (fun _ => rfl) trivial rfl) <| e_alt (e_is (fun _ => rfl) trivial rfl) <|
  e_alt (e_is (fun _ => rfl) trivial rfl) <| e_alt (e_is (fun _ => rfl) trivial rfl) <|
  e_alt (e_is (fun _ => rfl) trivial rfl) (e_is (fun _ => rfl) trivial rfl)

/-- The words of a recorder after the name of the recorded object. -/
def restB (p : Pen) (y : Style) (f : String → RecBody) : List Word :=
  (writeBody p y.swap (f "")).drop 2

/-- As `Named`, for `structcost` recorders. -/
def NamedB (p : Pen) (f : String → RecBody) : Prop :=
  ∀ i, ShapeBody (f i) ∧ ∀ y : Style, writeBody p y.swap (f i) =
    kw .STRUCTCOST "structcost" :: name i :: restB p y f

theorem es_body : ES D recorder_body (fun y => writeBody p y.swap) ShapeBody := by
  refine es_alt (E.lift ?_) (es_alt (E.lift ?_) (es_alt (E.lift ?_) (es_alt (E.lift ?_) ?_)))
  · exact e_map (e_seq (e_type hi hf) (e_seq e_name (e_seq (e_at hi hf) (e_cols hi hf))))
      fun q h => ⟨⟨h.2.2.1, h.2.2.2⟩, rfl⟩
  · exact e_map (e_seq (w := fun f : String → RecBody => (writeBody p false (f "")).take 1)
      (Q := fun f : String → RecBody => ∀ i, ShapeBody (f i) ∧
        writeBody p false (f i) = (writeBody p false (f "")).take 1 ++ [name i])
      (e_alt (e_is (fun _ => rfl) (fun _ => ⟨trivial, rfl⟩) rfl)
        (e_is (fun _ => rfl) (fun _ => ⟨trivial, rfl⟩) rfl)) e_name)
      fun q h => ⟨(h.1 q.2).1, by rw [(h.1 q.2).2]⟩
  · exact e_map (e_seq (w := fun t => [writeRates t]) (Q := fun _ => True)
      (e_alt (e_is (fun _ => rfl) trivial rfl) (e_alt (e_is (fun _ => rfl) trivial rfl)
      (e_alt (e_is (fun _ => rfl) trivial rfl) (e_is (fun _ => rfl) trivial rfl))))
      (e_seq e_name (e_at hi hf))) fun q h => ⟨h.2.2, rfl⟩
  · refine e_map (e_after (fun _ => rfl) "pdf" (e_seq e_name (e_seq (e_at hi hf)
      (e_opt (e_tok (k := .NORMALISE_FLAG) (fun _ => rfl) "--normalise"))))) fun q h => ⟨h.2.1, ?_⟩
    rcases q with ⟨i, a, _ | _⟩ <;> rfl
  · refine es_map (es_after (fun _ => rfl) "structcost" (es_seq e_name (w' := restB p)
      (Q' := NamedB p) (es_alt (E.lift ?_) ?_))) fun q h => ⟨(h.2 q.1).1, fun y => by
        rw [(h.2 q.1).2]; rfl⟩
    · exact e_map (e_after (fun _ => rfl) "--npv" (e_seq (e_integer hi) (e_seq
        (e_after (fun _ => rfl) ":" (e_integer hi)) (e_seq (e_after (fun _ => rfl) ":" (e_integer hi))
          (e_float hf))))) fun _ _ => ⟨fun _ => ⟨trivial, fun _ => rfl⟩, rfl⟩
    · have hc : E D (opt recorder_cols) (writeCols p) ShapeCols := e_cols hi hf
      rintro u f ⟨⟨g, c⟩, ⟨v, x, rfl, hv, hx⟩, rfl⟩
      have h2 := hc _ _ hx
      rcases hv with hv | hv
      · obtain ⟨q, hq, rfl⟩ := hv
        have h1 := e_seq (w := fun t => [writeBy t]) (Q := fun _ => True)
          (e_alt (e_is (fun _ => rfl) trivial rfl) (e_alt (e_is (fun _ => rfl) trivial rfl)
            (e_is (fun _ => rfl) trivial rfl))) (e_at hi hf) _ _ hq
        refine ⟨fun _ => ⟨⟨h1.1.2, h2.1⟩, fun _ => rfl⟩, {}, ?_⟩
        rw [parts_append, h1.2, h2.2, ← wparts_append]
        rfl
      · obtain ⟨o, ho, rfl⟩ := hv
        obtain ⟨-, y, h1⟩ := es_after (k := .ANNUAL_FLAG) (fun _ => rfl) "--annual" es_opts _ _ ho
        refine ⟨fun _ => ⟨h2.1, fun _ => rfl⟩, y, ?_⟩
        rw [parts_append, h1, h2.2, ← wparts_append]
        rfl

theorem es_recorder : ES D recorder_command (writeCmd p) Shape := by
  have hb : ES D (.seq recorder_body (opt print_options))
      (fun y q => writeBody p y.swap q.1 ++ writeTo y.new q.2) fun q => ShapeBody q.1 := by
    rintro u q ⟨v, x, rfl, hv, hx⟩
    obtain ⟨h1, y, h2⟩ := es_body hi hf _ _ hv
    obtain ⟨-, y', h3⟩ := es_to _ _ hx
    refine ⟨h1, { swap := y.swap, new := y'.new }, ?_⟩
    rw [parts_append, h2, h3, ← wparts_append]
  refine es_map (es_after (fun _ => rfl) "recorder" (es_seq e_name hb)) fun q h => ⟨h.2, fun y => ?_⟩
  simp [writeCmd]

theorem es_analyze : ES D analyze_command (writeCmd p) Shape :=
  E.lift (e_is (fun _ => rfl) trivial rfl)

theorem es_set (hD : ∀ u e, D u e → ShapeParams (.dict e) ∧ parts u = wparts (dictWords p e)) :
    ES D set_command (writeCmd p) Shape := by
  have h : E D (oneOf (.map SetArg.py python_script) [.map SetArg.var var_ref,
      .map SetArg.params parameters]) (fun a => (writeCmd p {} (.set "" a)).drop 2)
      (fun a => ∀ i, Shape (.set i a) ∧ writeCmd p {} (.set i a) =
        kw .SET "set" :: name i :: (writeCmd p {} (.set "" a)).drop 2) :=
    e_alt (e_map e_py fun _ _ => ⟨fun _ => ⟨trivial, rfl⟩, rfl⟩)
      (e_alt (e_map e_var fun _ _ => ⟨fun _ => ⟨trivial, rfl⟩, rfl⟩)
        (e_map (e_params hi hf hD) fun _ h => ⟨fun _ => ⟨h, rfl⟩, rfl⟩))
  exact E.lift (e_map (e_after (fun _ => rfl) "set" (e_seq e_name h)) fun q h =>
    ⟨(h.2 q.1).1, by rw [(h.2 q.1).2]; rfl⟩)

theorem es_importprobfn : ES D importprobfn_command (writeCmd p) Shape :=
  E.lift (e_map (e_after (fun _ => rfl) "importprobfn" (e_seq e_name e_file))
    fun _ _ => ⟨trivial, rfl⟩)

theorem es_importim : ES D importimfn_command (writeCmd p) Shape :=
  E.lift (e_map (e_after (fun _ => rfl) "importimfn" (e_seq e_name e_file)) fun _ _ => ⟨trivial, rfl⟩)

theorem es_body_cmd (n : Nat) : ES (DictN n) command_body (writeCmd p) Shape :=
  es_alt (es_title hi hf) <| es_alt (es_detfn hi hf) <| es_alt (es_probfn hi hf) <|
  es_alt (es_im hi hf) <| es_alt (es_edp hi hf) <| es_alt (es_fragfn hi hf) <|
  es_alt (es_lossfn hi hf) <| es_alt (es_compgroup hi hf) <| es_alt (es_print hi hf) <|
  es_alt (es_integration hi hf) <| es_alt (es_recorder hi hf) <| es_alt (es_analyze hi hf) <|
  es_alt (es_set hi hf (e_dict hi hf n)) <| es_alt (es_importprobfn hi hf) <|
  es_alt (es_dist (s := "collapse") hi hf (fun _ => rfl) rfl) <|
  es_alt (es_dist (s := "demolition") hi hf (fun _ => rfl) rfl) <|
  es_alt (es_structure hi hf) <| es_alt (es_importim hi hf) <|
  es_alt (es_dist (s := "rebuildcost") hi hf (fun _ => rfl) rfl) <|
  es_alt (es_dist (s := "demolitioncost") hi hf (fun _ => rfl) rfl) <|
  es_alt (es_log hi hf) <| es_alt (es_intstats hi hf) <|
  es_alt (es_inputdir hi hf) (es_outputdir hi hf)

/-- A script without blanks. -/
theorem only_script {u : List Tok} {l : List Cmd} (hws : ∀ t ∈ u, t.1 ≠ .WS)
    (h : Derives script u l) :
    (∀ c ∈ l, Shape c) ∧
      ∃ ys : List Style, ys.length = l.length ∧ parts u = wparts (writeScript p (ys.zip l)) := by
  obtain ⟨n, m, ⟨us, rfl, hp⟩, rfl⟩ := h
  induction hp with
  | nil => exact ⟨by simp, [], rfl, rfl⟩
  | @cons v a us m q _ ih =>
    have hw : ∀ t ∈ us.flatten, t.1 ≠ .WS := fun t ht => hws t (by
      rw [List.flatten_cons]; exact List.mem_append_right _ ht)
    obtain ⟨ih1, ys, ih2, ih3⟩ := ih hw
    rcases q.2 with ⟨s, ⟨t, rfl, -⟩, rfl⟩ | ⟨c, hc, rfl⟩
    · exact absurd rfl (hws (.WS, t) (by simp))
    · obtain ⟨⟨c', s⟩, ⟨v1, v2, rfl, h1, ⟨t, rfl, -⟩⟩, rfl⟩ := hc
      obtain ⟨h2, y, h3⟩ := es_body_cmd hi hf n _ _ h1
      refine ⟨?_, y :: ys, by simpa using ih2, ?_⟩
      · intro c hc
        simp only [List.filterMap_cons, id_eq, List.mem_cons] at hc
        rcases hc with rfl | hc
        · exact h2
        · exact ih1 c hc
      · rw [List.flatten_cons, parts_append, parts_append, h3, ih3]
        simp only [List.filterMap_cons, id_eq, List.zip_cons_cons, writeScript, List.flatMap_cons,
          wparts_append]
        rfl

end

end Slat.Gram
